import Verif.Model.ClipperGeom
import Verif.Proofs.ClipperInt
import Verif.Proofs.WindingNumber
import Mathlib.Tactic.LinearCombination
import Mathlib.Tactic.Tauto
/-!
# Lemmas about Clipper's `PointInPolygon`
-/
set_option linter.unusedSectionVars false
set_option linter.unusedSimpArgs false
namespace Delynoi
variable {K : Type} [Field K] [LinearOrder K] [IsStrictOrderedRing K]

/-- `q` is on the segment `ab`. -/
def OnEdge (a b q : Pt K) : Prop := ∃ t, 0 ≤ t ∧ t ≤ 1 ∧ lineAt a b t = q

/-- Signed crossing of the ray going right, with the upper ends of edges included instead of the
lower ones. -/
def sgnC (q : Pt K) (e : Pt K × Pt K) : Int :=
  if e.1.y < q.y ∧ q.y ≤ e.2.y ∧ 0 < turn e.1 e.2 q then 1
  else if e.2.y < q.y ∧ q.y ≤ e.1.y ∧ turn e.1 e.2 q < 0 then -1 else 0

theorem onEdge_left (a b : Pt K) : OnEdge a b a :=
  ⟨0, le_refl _, zero_le_one, Pt.ext (by unfold lineAt; simp) (by unfold lineAt; simp)⟩

theorem onEdge_right (a b : Pt K) : OnEdge a b b :=
  ⟨1, zero_le_one, le_refl _, Pt.ext (by unfold lineAt; simp) (by unfold lineAt; simp)⟩

/-- Points on a horizontal edge. -/
theorem onEdge_horizontal {a b q : Pt K} (ha : a.y = q.y) (hb : b.y = q.y)
    (h : (a.x ≤ q.x ∧ q.x ≤ b.x) ∨ (b.x ≤ q.x ∧ q.x ≤ a.x)) : OnEdge a b q := by
  by_cases he : a.x = b.x
  · have : q = a := Pt.ext (by rcases h with h | h <;> linarith [h.1, h.2]) ha.symm
    rw [this]; exact onEdge_left a b
  · have hd : b.x - a.x ≠ 0 := sub_ne_zero.2 (Ne.symm he)
    refine ⟨(q.x - a.x) / (b.x - a.x), ?_, ?_, Pt.ext ?_ ?_⟩
    · rcases h with h | h
      · exact div_nonneg (by linarith [h.1]) (by linarith [h.1, h.2])
      · exact div_nonneg_of_nonpos (by linarith [h.2]) (by linarith [h.1, h.2])
    · rcases h with h | h
      · have : 0 < b.x - a.x := lt_of_le_of_ne (by linarith [h.1, h.2]) (Ne.symm hd)
        rw [div_le_one this]; linarith [h.2]
      · have : b.x - a.x < 0 := lt_of_le_of_ne (by linarith [h.1, h.2]) hd
        rw [div_le_one_of_neg this]; linarith [h.1]
    · unfold lineAt; simp only; field_simp; ring
    · unfold lineAt; simp only; rw [ha, hb]; ring

/-- Points on other edges. -/
theorem onEdge_turn {a b q : Pt K} (hne : a.y ≠ b.y)
    (h : (a.y ≤ q.y ∧ q.y ≤ b.y) ∨ (b.y ≤ q.y ∧ q.y ≤ a.y)) (ht : turn a b q = 0) : OnEdge a b q := by
  have hd : b.y - a.y ≠ 0 := sub_ne_zero.2 (Ne.symm hne)
  refine ⟨(q.y - a.y) / (b.y - a.y), ?_, ?_, Pt.ext ?_ ?_⟩
  · rcases h with h | h
    · exact div_nonneg (by linarith [h.1]) (by linarith [h.1, h.2])
    · exact div_nonneg_of_nonpos (by linarith [h.2]) (by linarith [h.1, h.2])
  · rcases h with h | h
    · have : 0 < b.y - a.y := lt_of_le_of_ne (by linarith [h.1, h.2]) (Ne.symm hd)
      rw [div_le_one this]; linarith [h.2]
    · have : b.y - a.y < 0 := lt_of_le_of_ne (by linarith [h.1, h.2]) hd
      rw [div_le_one_of_neg this]; linarith [h.1]
  · unfold turn at ht
    unfold lineAt; simp only; field_simp; linear_combination ht
  · unfold lineAt; simp only; field_simp; ring

theorem onEdge_iff {a b q : Pt K} : OnEdge a b q ↔ turn a b q = 0 ∧
    min a.x b.x ≤ q.x ∧ q.x ≤ max a.x b.x ∧ min a.y b.y ≤ q.y ∧ q.y ≤ max a.y b.y := by
  constructor
  · rintro ⟨t, t0, t1, rfl⟩
    have h1 : ∀ u v : K, min u v ≤ (1 - t) * u + t * v ∧ (1 - t) * u + t * v ≤ max u v := by
      intro u v
      have e1 : 0 ≤ 1 - t := by linarith
      constructor
      · have := mul_le_mul_of_nonneg_left (min_le_left u v) e1
        have := mul_le_mul_of_nonneg_left (min_le_right u v) t0
        linarith
      · have := mul_le_mul_of_nonneg_left (le_max_left u v) e1
        have := mul_le_mul_of_nonneg_left (le_max_right u v) t0
        linarith
    refine ⟨by unfold turn lineAt; ring, ?_, ?_, ?_, ?_⟩ <;> unfold lineAt <;> simp only
    · exact (h1 _ _).1
    · exact (h1 _ _).2
    · exact (h1 _ _).1
    · exact (h1 _ _).2
  · rintro ⟨ht, hx1, hx2, hy1, hy2⟩
    by_cases hne : a.y = b.y
    · rw [hne, min_self] at hy1
      rw [hne, max_self] at hy2
      have hb : b.y = q.y := le_antisymm hy1 hy2
      refine onEdge_horizontal (hne.trans hb) hb ?_
      rcases le_total a.x b.x with h | h
      · left; rw [min_eq_left h] at hx1; rw [max_eq_right h] at hx2; exact ⟨hx1, hx2⟩
      · right; rw [min_eq_right h] at hx1; rw [max_eq_left h] at hx2; exact ⟨hx1, hx2⟩
    · refine onEdge_turn hne ?_ ht
      rcases le_total a.y b.y with h | h
      · left; rw [min_eq_left h] at hy1; rw [max_eq_right h] at hy2; exact ⟨hy1, hy2⟩
      · right; rw [min_eq_right h] at hy1; rw [max_eq_left h] at hy2; exact ⟨hy1, hy2⟩

/-- Vertex at the height of `q`, to the right of it. -/
def atRight (q v : Pt K) : Int := if v.y = q.y ∧ q.x < v.x then 1 else 0

/-- The two conventions differ by a difference of vertex terms, if `q` is not on the edge. -/
theorem sgnR_sub_sgnC {a b q : Pt K} (h : ¬ OnEdge a b q) :
    sgnR q (a, b) - sgnC q (a, b) = atRight q a - atRight q b := by
  unfold sgnR sgnC atRight
  rw [crossesRight_iff]
  unfold UpE DownE
  simp only
  rcases lt_trichotomy a.y q.y with ha | ha | ha <;> rcases lt_trichotomy b.y q.y with hb | hb | hb
  · have n1 : ¬ q.y < b.y := not_lt.2 hb.le
    have n2 : ¬ q.y < a.y := not_lt.2 ha.le
    have n3 : ¬ q.y ≤ b.y := not_le.2 hb
    have n4 : ¬ q.y ≤ a.y := not_le.2 ha
    simp [n1, n2, n3, n4, ha.ne, hb.ne]
  · -- up, upper end at the height of q
    have hab : a.y < b.y := by rw [hb]; exact ha
    have e : turn a b q = (b.y - a.y) * (b.x - q.x) := by unfold turn; rw [hb]; ring
    have hp : 0 < turn a b q ↔ q.x < b.x := by
      rw [e, mul_pos_iff_of_pos_left (by linarith)]; constructor <;> intro <;> linarith
    have n1 : ¬ q.y < b.y := not_lt.2 hb.le
    have n2 : ¬ q.y < a.y := not_lt.2 ha.le
    have n3 : ¬ b.y < q.y := not_lt.2 hb.ge
    simp only [n1, n2, n3, ha, hb.ge, hb, ha.ne, hp, true_and, false_and, and_false, or_self, if_false, lt_irrefl, le_refl, and_true]
  · have hab : a.y < b.y := ha.trans hb
    have n1 : ¬ b.y < q.y := not_lt.2 hb.le
    have n2 : ¬ q.y < a.y := not_lt.2 ha.le
    simp only [n1, n2, ha, hb, ha.le, hb.le, hab, ha.ne, hb.ne', true_and, false_and, and_false, or_false, if_false, if_true]
    split <;> simp
  · -- down, upper end at the height of q
    have hab : ¬ a.y < b.y := by rw [ha]; exact not_lt.2 hb.le
    have e : turn a b q = -((a.y - b.y) * (a.x - q.x)) := by unfold turn; rw [ha]; ring
    have hp : turn a b q < 0 ↔ q.x < a.x := by
      rw [e, neg_lt_zero, mul_pos_iff_of_pos_left (by linarith)]; constructor <;> intro <;> linarith
    have n1 : ¬ q.y < b.y := not_lt.2 hb.le
    have n2 : ¬ q.y < a.y := not_lt.2 ha.le
    have n3 : ¬ a.y < q.y := not_lt.2 ha.ge
    simp only [n1, n2, n3, hb, ha.ge, ha, hb.ne, hp, true_and, false_and, and_false, or_self, if_false, lt_irrefl, le_refl, and_true]
    split <;> simp_all
  · -- horizontal
    have n1 : ¬ q.y < b.y := not_lt.2 hb.le
    have n2 : ¬ q.y < a.y := not_lt.2 ha.le
    have n3 : ¬ a.y < q.y := not_lt.2 ha.ge
    have n4 : ¬ b.y < q.y := not_lt.2 hb.ge
    have hx : q.x < a.x ↔ q.x < b.x := by
      constructor
      · intro h1
        by_contra h2
        exact h (onEdge_horizontal ha hb (Or.inr ⟨not_lt.1 h2, h1.le⟩))
      · intro h1
        by_contra h2
        exact h (onEdge_horizontal ha hb (Or.inl ⟨not_lt.1 h2, h1.le⟩))
    simp only [n1, n2, n3, n4, ha, hb, hx, true_and, false_and, and_false, or_self, if_false, lt_irrefl]
    simp
  · -- up, lower end at the height of q
    have hab : a.y < b.y := by rw [ha]; exact hb
    have e : turn a b q = (b.y - a.y) * (a.x - q.x) := by unfold turn; rw [ha]; ring
    have hp : 0 < turn a b q ↔ q.x < a.x := by
      rw [e, mul_pos_iff_of_pos_left (by linarith)]; constructor <;> intro <;> linarith
    have n1 : ¬ a.y < q.y := not_lt.2 ha.ge
    have n2 : ¬ b.y < q.y := not_lt.2 hb.le
    have n3 : ¬ q.y < a.y := not_lt.2 ha.le
    simp only [n2, hb, ha.le, ha, hb.ne', hp, true_and, false_and, and_false, or_false, if_false, if_true, lt_irrefl, le_refl, and_true]
  · have hab : ¬ a.y < b.y := not_lt.2 (hb.trans ha).le
    have n1 : ¬ a.y < q.y := not_lt.2 ha.le
    have n2 : ¬ q.y < b.y := not_lt.2 hb.le
    simp only [n1, n2, ha, hb, ha.le, hb.le, hab, ha.ne', hb.ne, true_and, false_and, and_false, false_or, if_false, if_true]
    split <;> simp
  · -- down, lower end at the height of q
    have hab : ¬ a.y < b.y := by rw [hb]; exact not_lt.2 ha.le
    have e : turn a b q = -((a.y - b.y) * (b.x - q.x)) := by unfold turn; rw [hb]; ring
    have hp : turn a b q < 0 ↔ q.x < b.x := by
      rw [e, neg_lt_zero, mul_pos_iff_of_pos_left (by linarith)]; constructor <;> intro <;> linarith
    have n1 : ¬ b.y < q.y := not_lt.2 hb.ge
    have n2 : ¬ a.y < q.y := not_lt.2 ha.le
    have n3 : ¬ q.y < b.y := not_lt.2 hb.le
    simp only [n2, ha, hb.le, hb, ha.ne', hp, true_and, false_and, and_false, false_or, if_false, lt_irrefl, le_refl, and_true]
    split <;> simp_all
  · have n1 : ¬ a.y < q.y := not_lt.2 ha.le
    have n2 : ¬ b.y < q.y := not_lt.2 hb.le
    have n3 : ¬ b.y ≤ q.y := not_le.2 hb
    have n4 : ¬ a.y ≤ q.y := not_le.2 ha
    simp [n1, n2, n3, n4, ha.ne', hb.ne']

/-- Off the outline, both conventions give the winding number. -/
theorem winding_sgnC (l : List (Pt K)) (q : Pt K) (h : ∀ e ∈ cycPairs l, ¬ OnEdge e.1 e.2 q) :
    winding l q = ((cycPairs l).map (sgnC q)).sum := by
  rw [winding_sum]
  have h1 : ∀ es : List (Pt K × Pt K), (∀ e ∈ es, ¬ OnEdge e.1 e.2 q) →
      (es.map (sgnR q)).sum = (es.map (sgnC q)).sum + ((es.map Prod.fst).map (atRight q)).sum -
        ((es.map Prod.snd).map (atRight q)).sum := by
    intro es
    induction es with
    | nil => intro; simp
    | cons e es ih =>
      intro he
      have := ih (fun f hf => he f (List.mem_cons_of_mem _ hf))
      have h2 := sgnR_sub_sgnC (he e (by simp))
      simp only [List.map_cons, List.sum_cons]
      have h3 : sgnR q e - sgnC q e = atRight q e.1 - atRight q e.2 := h2
      omega
  rw [h1 _ h, cycPairs_fst, ((cycPairs_snd_perm l).map _).sum_eq]
  omega


/-! ### The loop -/
open Clip

/-- Coordinates for which differences do not overflow. -/
def Fits (p : IPt) : Prop := |p.X| ≤ 4611686018427387903 ∧ |p.Y| ≤ 4611686018427387903

theorem i64_diff {x y : Int} (hx : |x| ≤ 4611686018427387903) (hy : |y| ≤ 4611686018427387903) :
    i64 (x - y) = .ok (x - y) := by
  rw [abs_le] at hx hy
  exact i64_ok (by omega)

theorem pipCross_eq (r : ℚ → ℚ) {q a b : IPt} (hq : Fits q) (ha : Fits a) (hb : Fits b) :
    pipCross r q a b = .ok (r (r (r (a.X - q.X : Int) * r (b.Y - q.Y : Int)) - r (r (b.X - q.X : Int) * r (a.Y - q.Y : Int)))) := by
  unfold pipCross
  rw [i64_diff ha.1 hq.1, i64_diff hb.2 hq.2, i64_diff hb.1 hq.1, i64_diff ha.2 hq.2]
  rfl

/-- The exact value of `d`, as an integer. -/
def dExact (q a b : IPt) : Int := (a.X - q.X) * (b.Y - q.Y) - (b.X - q.X) * (a.Y - q.Y)

theorem dExact_turn (q a b : IPt) : ((dExact q a b : Int) : ℚ) = turn a.toPt b.toPt q.toPt := by
  unfold dExact turn IPt.toPt
  push_cast
  ring

theorem pipCross_id {q a b : IPt} (hq : Fits q) (ha : Fits a) (hb : Fits b) :
    pipCross id q a b = .ok ((dExact q a b : Int) : ℚ) := by
  rw [pipCross_eq id hq ha hb]
  unfold dExact
  simp only [id]
  push_cast
  rfl

/-- What one step does, with `d` an integer. -/
theorem pipDecide_id {q a b : IPt} (hq : Fits q) (ha : Fits a) (hb : Fits b) (res : Int) :
    pipDecide id q a b res = if dExact q a b = 0 then .ok none
      else if (0 < dExact q a b ↔ a.Y < b.Y) then .ok (some (1 - res)) else .ok (some res) := by
  unfold pipDecide
  rw [pipCross_id hq ha hb, Outcome.bind_ok]
  have h0 : (((dExact q a b : Int) : ℚ) = 0) = (dExact q a b = 0) := by
    simp
  have h1 : decide (((dExact q a b : Int) : ℚ) > 0) = decide (0 < dExact q a b) := by
    rw [decide_eq_decide]; exact Int.cast_pos
  by_cases e0 : dExact q a b = 0
  · rw [if_pos e0, if_pos (by rw [h0]; exact e0)]; rfl
  · rw [if_neg e0, if_neg (by rw [h0]; exact e0), h1]
    by_cases e1 : (0 < dExact q a b ↔ a.Y < b.Y)
    · rw [if_pos e1, if_pos (by rw [decide_eq_decide]; exact e1)]; rfl
    · rw [if_neg e1, if_neg (by rw [decide_eq_decide]; exact e1)]; rfl

theorem sgnC_int (q a b : IPt) : sgnC q.toPt (a.toPt, b.toPt) =
    if a.Y < q.Y ∧ q.Y ≤ b.Y ∧ 0 < dExact q a b then 1
    else if b.Y < q.Y ∧ q.Y ≤ a.Y ∧ dExact q a b < 0 then -1 else 0 := by
  unfold sgnC
  simp only [← dExact_turn]
  unfold IPt.toPt
  simp only [Int.cast_lt, Int.cast_le, Int.cast_pos, Int.cast_lt_zero]

theorem onEdge_int (q a b : IPt) : OnEdge a.toPt b.toPt q.toPt ↔ dExact q a b = 0 ∧
    min a.X b.X ≤ q.X ∧ q.X ≤ max a.X b.X ∧ min a.Y b.Y ≤ q.Y ∧ q.Y ≤ max a.Y b.Y := by
  rw [onEdge_iff, ← dExact_turn]
  unfold IPt.toPt
  simp only
  norm_cast

/-- A step on an edge that does not contain the point. -/
theorem pipStep_off {q a b : IPt} (hq : Fits q) (ha : Fits a) (hb : Fits b) (res : Int)
    (h : ¬ OnEdge a.toPt b.toPt q.toPt) :
    pipStep id q a b res = .ok (some (if sgnC q.toPt (a.toPt, b.toPt) = 0 then res else 1 - res)) := by
  rw [onEdge_int] at h
  have yes : ((a.Y < q.Y ∧ q.Y ≤ b.Y ∧ 0 < dExact q a b) ∨ (b.Y < q.Y ∧ q.Y ≤ a.Y ∧ dExact q a b < 0)) →
      Outcome.ok (some (1 - res)) =
        Outcome.ok (some (if sgnC q.toPt (a.toPt, b.toPt) = 0 then res else 1 - res)) := by
    intro hh
    rw [sgnC_int, if_neg]
    split
    · decide
    · rw [if_pos (by omega)]; decide
  have no : ¬ ((a.Y < q.Y ∧ q.Y ≤ b.Y ∧ 0 < dExact q a b) ∨ (b.Y < q.Y ∧ q.Y ≤ a.Y ∧ dExact q a b < 0)) →
      Outcome.ok (some res) =
        Outcome.ok (some (if sgnC q.toPt (a.toPt, b.toPt) = 0 then res else 1 - res)) := by
    intro hh
    rw [sgnC_int, if_pos]
    rw [if_neg (by omega), if_neg (by omega)]
  have hd : dExact q a b = (a.X - q.X) * (b.Y - q.Y) - (b.X - q.X) * (a.Y - q.Y) := rfl
  have c1 : ¬ (b.Y = q.Y ∧ (b.X = q.X ∨ (a.Y = q.Y ∧ decide (b.X > q.X) = decide (a.X < q.X)))) := by
    rintro ⟨hy, hx | ⟨hay, hxx⟩⟩
    · exact h ⟨by rw [hd, hy, hx]; ring, by omega, by omega, by omega, by omega⟩
    · rw [decide_eq_decide] at hxx
      exact h ⟨by rw [hd, hy, hay]; ring, by omega, by omega, by omega, by omega⟩
  unfold pipStep
  rw [if_neg c1, pipDecide_id hq ha hb]
  have st : (decide (a.Y < q.Y) ≠ decide (b.Y < q.Y)) ↔ ¬ (a.Y < q.Y ↔ b.Y < q.Y) := by
    rw [ne_eq, decide_eq_decide]
  by_cases up : a.Y < q.Y ∧ q.Y ≤ b.Y
  · rw [if_pos (st.2 (by omega))]
    have nv : a.Y - q.Y < 0 := by omega
    have nt : 0 ≤ b.Y - q.Y := by omega
    by_cases hu : a.X ≥ q.X
    · rw [if_pos hu]
      by_cases hs : b.X > q.X
      · have h1 : 0 ≤ (a.X - q.X) * (b.Y - q.Y) := mul_nonneg (by omega) nt
        have h2 : (b.X - q.X) * (a.Y - q.Y) < 0 := mul_neg_of_pos_of_neg (by omega) nv
        rw [if_pos hs]
        exact yes (Or.inl ⟨up.1, up.2, by omega⟩)
      · rw [if_neg hs]
        have h0 : dExact q a b ≠ 0 := fun e => h ⟨e, by omega, by omega, by omega, by omega⟩
        rw [if_neg h0]
        by_cases hp : 0 < dExact q a b
        · rw [if_pos (by omega)]; exact yes (Or.inl ⟨up.1, up.2, hp⟩)
        · rw [if_neg (by omega)]; exact no (by omega)
    · rw [if_neg hu]
      by_cases hs : b.X > q.X
      · rw [if_pos hs]
        have h0 : dExact q a b ≠ 0 := fun e => h ⟨e, by omega, by omega, by omega, by omega⟩
        rw [if_neg h0]
        by_cases hp : 0 < dExact q a b
        · rw [if_pos (by omega)]; exact yes (Or.inl ⟨up.1, up.2, hp⟩)
        · rw [if_neg (by omega)]; exact no (by omega)
      · have h1 : (a.X - q.X) * (b.Y - q.Y) ≤ 0 := mul_nonpos_of_nonpos_of_nonneg (by omega) nt
        have h2 : 0 ≤ (b.X - q.X) * (a.Y - q.Y) := mul_nonneg_of_nonpos_of_nonpos (by omega) nv.le
        rw [if_neg hs]
        exact no (by omega)
  · by_cases dn : b.Y < q.Y ∧ q.Y ≤ a.Y
    · rw [if_pos (st.2 (by omega))]
      have nt : b.Y - q.Y < 0 := by omega
      have nv : 0 ≤ a.Y - q.Y := by omega
      by_cases hu : a.X ≥ q.X
      · rw [if_pos hu]
        by_cases hs : b.X > q.X
        · have h1 : (a.X - q.X) * (b.Y - q.Y) ≤ 0 := mul_nonpos_of_nonneg_of_nonpos (by omega) nt.le
          have h2 : 0 ≤ (b.X - q.X) * (a.Y - q.Y) := mul_nonneg (by omega) nv
          have h0 : dExact q a b ≠ 0 := by
            intro e
            have h3 : (a.X - q.X) * (b.Y - q.Y) = 0 := by omega
            rcases mul_eq_zero.1 h3 with h4 | h4
            · exact h ⟨e, by omega, by omega, by omega, by omega⟩
            · omega
          rw [if_pos hs]
          exact yes (Or.inr ⟨dn.1, dn.2, by omega⟩)
        · rw [if_neg hs]
          have h0 : dExact q a b ≠ 0 := fun e => h ⟨e, by omega, by omega, by omega, by omega⟩
          rw [if_neg h0]
          by_cases hp : dExact q a b < 0
          · rw [if_pos (by omega)]; exact yes (Or.inr ⟨dn.1, dn.2, hp⟩)
          · rw [if_neg (by omega)]; exact no (by omega)
      · rw [if_neg hu]
        by_cases hs : b.X > q.X
        · rw [if_pos hs]
          have h0 : dExact q a b ≠ 0 := fun e => h ⟨e, by omega, by omega, by omega, by omega⟩
          rw [if_neg h0]
          by_cases hp : dExact q a b < 0
          · rw [if_pos (by omega)]; exact yes (Or.inr ⟨dn.1, dn.2, hp⟩)
          · rw [if_neg (by omega)]; exact no (by omega)
        · have h1 : 0 < (a.X - q.X) * (b.Y - q.Y) := mul_pos_of_neg_of_neg (by omega) nt
          have h2 : (b.X - q.X) * (a.Y - q.Y) ≤ 0 := mul_nonpos_of_nonpos_of_nonneg (by omega) nv
          rw [if_neg hs]
          exact no (by omega)
    · rw [if_neg (fun hh => st.1 hh (by omega))]
      exact no (by omega)

/-- A step on an edge that contains the point, other than at its start. -/
theorem pipStep_on {q a b : IPt} (hq : Fits q) (ha : Fits a) (hb : Fits b) (res : Int)
    (h : q = b ∨ (OnEdge a.toPt b.toPt q.toPt ∧ q ≠ a)) : pipStep id q a b res = .ok none := by
  have hd : dExact q a b = (a.X - q.X) * (b.Y - q.Y) - (b.X - q.X) * (a.Y - q.Y) := rfl
  unfold pipStep
  by_cases c1 : (b.Y = q.Y ∧ (b.X = q.X ∨ (a.Y = q.Y ∧ decide (b.X > q.X) = decide (a.X < q.X))))
  · rw [if_pos c1]
  · rw [if_neg c1, pipDecide_id hq ha hb]
    rw [decide_eq_decide] at c1
    rcases h with h | ⟨h, hne⟩
    · subst h; exact absurd ⟨rfl, Or.inl rfl⟩ c1
    rw [onEdge_int] at h
    obtain ⟨h0, h1, h2, h3, h4⟩ := h
    have hqa : ¬ (q.X = a.X ∧ q.Y = a.Y) := by
      rintro ⟨e1, e2⟩
      apply hne
      cases q; cases a; simp only at e1 e2; rw [e1, e2]
    rw [hd] at h0
    have hy : a.Y ≠ q.Y := by
      intro e
      rw [e, sub_self, mul_zero, sub_zero] at h0
      rcases mul_eq_zero.1 h0 with h5 | h5
      · exact hqa ⟨by omega, e.symm⟩
      · exact c1 ⟨by omega, Or.inr ⟨e, by omega⟩⟩
    have hby : b.Y ≠ q.Y := by
      intro e
      rw [e, sub_self, mul_zero, zero_sub, neg_eq_zero] at h0
      rcases mul_eq_zero.1 h0 with h5 | h5
      · exact c1 ⟨e, Or.inl (by omega)⟩
      · omega
    have st : (decide (a.Y < q.Y) ≠ decide (b.Y < q.Y)) ↔ ¬ (a.Y < q.Y ↔ b.Y < q.Y) := by
      rw [ne_eq, decide_eq_decide]
    rw [if_pos (st.2 (by omega)), if_pos (hd.trans h0)]
    by_cases hu : a.X ≥ q.X
    · rw [if_pos hu]
      by_cases hs : b.X > q.X
      · exfalso
        have h6 : a.X = q.X := by omega
        rw [h6, sub_self, zero_mul, zero_sub, neg_eq_zero] at h0
        rcases mul_eq_zero.1 h0 with h5 | h5 <;> omega
      · rw [if_neg hs]
    · rw [if_neg hu]
      by_cases hs : b.X > q.X
      · rw [if_pos hs]
      · exfalso
        have h6 : b.X = q.X := by omega
        rw [h6, sub_self, zero_mul, sub_zero] at h0
        rcases mul_eq_zero.1 h0 with h5 | h5 <;> omega

theorem pipStep_total {q a b : IPt} (hq : Fits q) (ha : Fits a) (hb : Fits b) (res : Int) :
    pipStep id q a b res = .ok none ∨ pipStep id q a b res = .ok (some res) ∨
      pipStep id q a b res = .ok (some (1 - res)) := by
  unfold pipStep
  rw [pipDecide_id hq ha hb]
  split
  · exact Or.inl rfl
  · split
    · split
      · split
        · exact Or.inr (Or.inr rfl)
        · split
          · exact Or.inl rfl
          · split
            · exact Or.inr (Or.inr rfl)
            · exact Or.inr (Or.inl rfl)
      · split
        · split
          · exact Or.inl rfl
          · split
            · exact Or.inr (Or.inr rfl)
            · exact Or.inr (Or.inl rfl)
        · exact Or.inr (Or.inl rfl)
    · exact Or.inr (Or.inl rfl)

theorem pipLoop_some {r : ℚ → ℚ} {q : IPt} {e : IPt × IPt} {es : List (IPt × IPt)} {res z : Int}
    (h : pipStep r q e.1 e.2 res = .ok (some z)) : pipLoop r q (e :: es) res = pipLoop r q es z := by
  rw [pipLoop, h]; rfl

theorem pipLoop_none {r : ℚ → ℚ} {q : IPt} {e : IPt × IPt} {es : List (IPt × IPt)} {res : Int}
    (h : pipStep r q e.1 e.2 res = .ok none) : pipLoop r q (e :: es) res = .ok (-1) := by
  rw [pipLoop, h]; rfl

/-- An edge with a point on it ends the loop. -/
theorem pipLoop_on {q : IPt} (hq : Fits q) : ∀ (es : List (IPt × IPt)) (res : Int),
    (∀ e ∈ es, Fits e.1 ∧ Fits e.2) →
    (∃ e ∈ es, q = e.2 ∨ (OnEdge e.1.toPt e.2.toPt q.toPt ∧ q ≠ e.1)) → pipLoop id q es res = .ok (-1)
  | [], _, _, h => by obtain ⟨e, he, _⟩ := h; simp at he
  | e :: es, res, hf, h => by
    obtain ⟨f1, f2⟩ := hf e (by simp)
    by_cases hc : q = e.2 ∨ (OnEdge e.1.toPt e.2.toPt q.toPt ∧ q ≠ e.1)
    · exact pipLoop_none (pipStep_on hq f1 f2 res hc)
    · have h' : ∃ e ∈ es, q = e.2 ∨ (OnEdge e.1.toPt e.2.toPt q.toPt ∧ q ≠ e.1) := by
        obtain ⟨f, hf', hf''⟩ := h
        rcases List.mem_cons.1 hf' with rfl | hm
        · exact absurd hf'' hc
        · exact ⟨f, hm, hf''⟩
      have ih := fun z => pipLoop_on hq es z (fun f hf' => hf f (List.mem_cons_of_mem _ hf')) h'
      rcases pipStep_total hq f1 f2 res with h1 | h1 | h1
      · exact pipLoop_none h1
      · rw [pipLoop_some h1]; exact ih _
      · rw [pipLoop_some h1]; exact ih _

/-- Without such an edge the loop counts crossings. -/
theorem pipLoop_off {q : IPt} (hq : Fits q) : ∀ (es : List (IPt × IPt)) (res : Int), (res = 0 ∨ res = 1) →
    (∀ e ∈ es, Fits e.1 ∧ Fits e.2) → (∀ e ∈ es, ¬ OnEdge e.1.toPt e.2.toPt q.toPt) →
    ∃ z, pipLoop id q es res = .ok z ∧ (z = 0 ∨ z = 1) ∧
      (Odd z ↔ Odd (res + (es.map (fun e => sgnC q.toPt (e.1.toPt, e.2.toPt))).sum))
  | [], res, h01, _, _ => ⟨res, rfl, h01, by simp⟩
  | e :: es, res, h01, hf, h => by
    obtain ⟨f1, f2⟩ := hf e (by simp)
    have hs := pipStep_off hq f1 f2 res (h e (by simp))
    obtain ⟨z, z1, z2, z3⟩ := pipLoop_off hq es
      (if sgnC q.toPt (e.1.toPt, e.2.toPt) = 0 then res else 1 - res) (by split <;> omega)
      (fun f hf' => hf f (List.mem_cons_of_mem _ hf')) (fun f hf' => h f (List.mem_cons_of_mem _ hf'))
    refine ⟨z, by rw [pipLoop_some hs]; exact z1, z2, ?_⟩
    rw [z3, List.map_cons, List.sum_cons]
    have h3 : sgnC q.toPt (e.1.toPt, e.2.toPt) = 0 ∨ sgnC q.toPt (e.1.toPt, e.2.toPt) = 1 ∨
        sgnC q.toPt (e.1.toPt, e.2.toPt) = -1 := by
      unfold sgnC; split
      · exact Or.inr (Or.inl rfl)
      · split
        · exact Or.inr (Or.inr rfl)
        · exact Or.inl rfl
    generalize (es.map (fun e => sgnC q.toPt (e.1.toPt, e.2.toPt))).sum = S
    rw [Int.odd_iff, Int.odd_iff]
    rcases h3 with h3 | h3 | h3 <;> rw [h3]
    · simp
    · rw [if_neg (by omega)]; omega
    · rw [if_neg (by omega)]; omega

end Delynoi
