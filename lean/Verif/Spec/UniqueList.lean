import Mathlib.Order.Defs.Unbundled
import Mathlib.Data.Set.Defs
import Verif.Model.UniqueList
/-!
# Specification of a duplicate-free, insertion-ordered list

Nothing here mentions the map of the implementation.
-/
namespace Delynoi
variable {T : Type u}

/-- `lt` is a strict weak order on the set `S`. -/
structure SWO (lt : T → T → Bool) (S : Set T) : Prop where
  irrefl : ∀ a ∈ S, lt a a = false
  trans : ∀ a ∈ S, ∀ b ∈ S, ∀ c ∈ S, lt a b = true → lt b c = true → lt a c = true
  equivTrans : ∀ a ∈ S, ∀ b ∈ S, ∀ c ∈ S, lt a b = false → lt b a = false → lt b c = false →
    lt c b = false → lt a c = false ∧ lt c a = false

/-- Equivalence induced by an order: neither is smaller. -/
def Equiv' (lt : T → T → Bool) (a b : T) : Prop := lt a b = false ∧ lt b a = false

instance (lt : T → T → Bool) (a b : T) : Decidable (Equiv' lt a b) := by
  unfold Equiv'; infer_instance

/-- Reference push: append unless an equivalent element is present. -/
def specPush (lt : T → T → Bool) (l : List T) (x : T) : List T :=
  if ∃ y ∈ l, Equiv' lt y x then l else l ++ [x]

/-- Reference deletion: drop the elements equivalent to `x`. -/
def specDelete (lt : T → T → Bool) (l : List T) (x : T) : List T :=
  l.filter (fun y => ¬ Equiv' lt y x)

/-- Reference semantics of one operation. -/
def specStep (lt : T → T → Bool) (l : List T) : UList.Op T → List T
  | .push x => specPush lt l x
  | .pushAll xs => xs.foldl (specPush lt) l
  | .delete x => specDelete lt l x
  | .clear => []

/-- Reference semantics of a history. -/
def specRun (lt : T → T → Bool) (ops : List (UList.Op T)) : List T :=
  ops.foldl (specStep lt) []

/-- All elements mentioned by an operation lie in `S`. -/
def OpIn (S : Set T) : UList.Op T → Prop
  | .push x => x ∈ S
  | .pushAll xs => ∀ x ∈ xs, x ∈ S
  | .delete x => x ∈ S
  | .clear => True

/-- No two positions of the list hold equivalent elements. -/
def NoDup (lt : T → T → Bool) (l : List T) : Prop :=
  l.Pairwise (fun a b => ¬ Equiv' lt a b)

end Delynoi
