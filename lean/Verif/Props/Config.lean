import Verif.Model.Config
import Mathlib.Data.List.Basic
import Mathlib.Data.List.Induction
/-!
# Property C77: configuration
-/
namespace Delynoi

/-- Last value of a partial function along a list, or a default. -/
def lastOr {α β : Type} (f : α → Option β) (d : β) (l : List α) : β :=
  ((l.filterMap f).getLast?).getD d

theorem lastOr_append {α β : Type} (f : α → Option β) (d : β) (l : List α) (a : α) :
    lastOr f d (l ++ [a]) = (f a).getD (lastOr f d l) := by
  unfold lastOr
  rw [List.filterMap_append]
  cases h : f a with
  | none => simp [h]
  | some b => simp [h]

/-- The value a call sets the circle grade to. -/
def setsGrade : Config.Op → Option Int
  | .setDiscretizationGrade d => some d
  | _ => none

/-- The value a call sets the tolerance to. -/
def setsTol : Config.Op → Option ℚ
  | .setTolerance t => some t
  | _ => none

/-- The value a call sets the scale to. -/
def setsScale : Config.Op → Option Int
  | .setScale s => some s
  | _ => none

/-- The number of decimals a call asks for: 6, 10 and 16 for the presets. -/
def setsPrecision : Config.Op → Option Int
  | .setPrecision p => some p
  | .setPreset .small => some 6
  | .setPreset .mid => some 10
  | .setPreset .large => some 16
  | _ => none

/-- Results of a program, with the state at its end. -/
theorem configRun_append (ops : List Config.Op) (o : Config.Op) : ∀ s,
    configRun s (ops ++ [o]) = ((configCall (configRun s ops).1 o).1,
      (configRun s ops).2 ++ [(configCall (configRun s ops).1 o).2]) := by
  induction ops with
  | nil => intro s; rfl
  | cons a ops ih =>
    intro s
    have hm : configRun s (a :: ops ++ [o]) =
      ((configRun (configCall s a).1 (ops ++ [o])).1,
       (configCall s a).2 :: (configRun (configCall s a).1 (ops ++ [o])).2) := rfl
    rw [hm, ih]
    rfl

/-- The object after a program. -/
theorem config_state (ops : List Config.Op) :
    (configInstance (configRun none ops).1).2 =
      ⟨lastOr setsGrade 12 ops, lastOr setsTol (1 / 100000) ops, lastOr setsScale 100000 ops,
       lastOr setsPrecision 6 ops⟩ := by
  induction ops using List.reverseRecOn with
  | nil => rfl
  | append_singleton ops o ih =>
    rw [configRun_append]
    simp only [lastOr_append]
    generalize hc : configInstance (configRun none ops).1 = i at ih
    have : (configInstance (configCall (configRun none ops).1 o).1).2 = (i.2.call o).1 := by
      unfold configCall
      rw [hc]; rfl
    rw [this, ih]
    cases o with
    | setPreset p => cases p <;> rfl
    | _ => rfl

/-- C77: whatever calls were made before, each getter returns the last value set by its own
setter, or the default 12, 0.00001, 100000, 6. -/
theorem C77_last_write_wins (ops : List Config.Op) :
    (configRun none (ops ++ [.getDiscretizationGrade])).2.getLast? =
      some (.int (lastOr setsGrade 12 ops)) ∧
    (configRun none (ops ++ [.getTolerance])).2.getLast? =
      some (.dbl (lastOr setsTol (1 / 100000) ops)) ∧
    (configRun none (ops ++ [.getScale])).2.getLast? =
      some (.int (lastOr setsScale 100000 ops)) ∧
    (configRun none (ops ++ [.getPrecision])).2.getLast? =
      some (.int (lastOr setsPrecision 6 ops)) := by
  have h := config_state ops
  refine ⟨?_, ?_, ?_, ?_⟩ <;>
  · rw [configRun_append]
    simp only [List.getLast?_append, List.getLast?_singleton, Option.some_or]
    dsimp only [configCall]
    rw [h]; rfl

example : (configRun none [.getPrecision, .setPrecision 3, .setScale 7, .getPrecision,
    .setPreset .large, .setTolerance (1 / 2), .getPrecision, .getTolerance, .getScale,
    .getDiscretizationGrade]).2 =
    [.int 6, .unit, .unit, .int 3, .unit, .unit, .int 16, .dbl (1 / 2), .int 7, .int 12] := by
  decide +kernel

end Delynoi
