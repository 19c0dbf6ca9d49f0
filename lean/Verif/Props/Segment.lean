import Verif.Model.Segment
import Verif.Spec.Geometry
import Mathlib.Tactic.Linarith
import Mathlib.Tactic.FieldSimp
import Mathlib.Tactic.Ring
import Mathlib.Tactic.LinearCombination
import Mathlib.Data.Rat.Cast.Order
import Mathlib.Algebra.Order.Field.Rat
/-!
# Properties C10-C13: segment containment and intersection
-/
set_option linter.unusedSectionVars false
namespace Delynoi
variable {K : Type} [Field K] [LinearOrder K] [IsStrictOrderedRing K]
open Seg

private theorem geTol_iff {tol v a : K} (h : 0 < tol) : geTol tol v a = true ↔ a - tol < v := by
  simp only [geTol, Bool.or_eq_true, decide_eq_true_eq]
  constructor
  · rintro (h1 | h1)
    · linarith
    · linarith [(abs_lt.1 h1).1]
  · intro h1
    by_cases h2 : v ≥ a
    · exact Or.inl h2
    · right; rw [abs_lt]; constructor <;> linarith

private theorem leTol_iff {tol v a : K} (h : 0 < tol) : leTol tol v a = true ↔ v < a + tol := by
  simp only [leTol, Bool.or_eq_true, decide_eq_true_eq]
  constructor
  · rintro (h1 | h1)
    · linarith
    · linarith [(abs_lt.1 h1).2]
  · intro h1
    by_cases h2 : v ≤ a
    · exact Or.inl h2
    · right; rw [abs_lt]; constructor <;> linarith

private theorem between_iff {tol v a b : K} (h : 0 < tol) :
    ((geTol tol v a && leTol tol v b) || (geTol tol v b && leTol tol v a)) = true ↔
      min a b - tol < v ∧ v < max a b + tol := by
  simp only [Bool.or_eq_true, Bool.and_eq_true, geTol_iff h, leTol_iff h]
  rcases le_total a b with hab | hab
  · rw [min_eq_left hab, max_eq_right hab]
    constructor
    · rintro (h1 | h1)
      · exact h1
      · constructor <;> linarith [h1.1, h1.2]
    · exact Or.inl
  · rw [min_eq_right hab, max_eq_left hab]
    constructor
    · rintro (h1 | h1)
      · constructor <;> linarith [h1.1, h1.2]
      · exact h1
    · exact Or.inr

/-- C11: exactly which points a segment accepts - those strictly inside the bounding box
enlarged by `tol` for which twice the triangle area is below `tol`. -/
theorem C11_contains_iff (tol : K) (h : 0 < tol) (p a b : Pt K) :
    contains tol p a b = true ↔
      (min a.x b.x - tol < p.x ∧ p.x < max a.x b.x + tol) ∧
      (min a.y b.y - tol < p.y ∧ p.y < max a.y b.y + tol) ∧
      |turn a b p| < tol := by
  have he : a.x * (b.y - p.y) + b.x * (p.y - a.y) + p.x * (a.y - b.y) = turn a b p := by
    unfold turn; ring
  unfold contains
  simp only [he]
  rw [Bool.and_eq_true, Bool.and_eq_true, between_iff h, between_iff h, decide_eq_true_eq, and_assoc]

/-- C11: the area condition bounds the distance to the supporting line - if `p` is accepted and
`p = q + n` with `q` on the line and `n` orthogonal to it, then `|n|² * |b-a|² < tol²`. -/
theorem C11_contains_near_line (tol : K) (h : 0 < tol) (p a b : Pt K)
    (hc : contains tol p a b = true) (t : K) (nx ny : K)
    (hp : p.x = (lineAt a b t).x + nx ∧ p.y = (lineAt a b t).y + ny)
    (hn : nx * (b.x - a.x) + ny * (b.y - a.y) = 0) :
    (nx ^ 2 + ny ^ 2) * sqDist a b < tol ^ 2 := by
  have h3 := ((C11_contains_iff tol h p a b).1 hc).2.2
  have ht : turn a b p = (b.x - a.x) * ny - (b.y - a.y) * nx := by
    unfold turn; rw [hp.1, hp.2]; simp only [lineAt]; ring
  have hsq : (turn a b p) ^ 2 < tol ^ 2 := by
    rw [← sq_abs]; exact pow_lt_pow_left₀ h3 (abs_nonneg _) (by norm_num)
  have he : (nx ^ 2 + ny ^ 2) * sqDist a b = (turn a b p) ^ 2 := by
    rw [ht]; unfold sqDist
    linear_combination (nx * (b.x - a.x) + ny * (b.y - a.y)) * hn
  rw [he]; exact hsq

example : contains (1/100000 : ℚ) ⟨1, 1 + 1/1000000⟩ ⟨0, 0⟩ ⟨2, 2⟩ = true ∧
    contains (1/100000 : ℚ) ⟨1, 1 + 1/10000⟩ ⟨0, 0⟩ ⟨2, 2⟩ = false ∧
    contains (1/100000 : ℚ) ⟨3, 3⟩ ⟨0, 0⟩ ⟨2, 2⟩ = false := by decide +kernel

/-- C10: every convex combination of the endpoints is contained. -/
theorem C10_contains_convex_combination (tol : K) (h : 0 < tol) (a b : Pt K) (t : K)
    (h0 : 0 ≤ t) (h1 : t ≤ 1) : contains tol (lineAt a b t) a b = true := by
  rw [C11_contains_iff tol h]
  have key : ∀ u v : K, min u v - tol < (1 - t) * u + t * v ∧
      (1 - t) * u + t * v < max u v + tol := by
    intro u v
    have e1 : 0 ≤ 1 - t := by linarith
    constructor
    · have h2 := mul_le_mul_of_nonneg_left (min_le_left u v) e1
      have h3 := mul_le_mul_of_nonneg_left (min_le_right u v) h0
      have : (1 - t) * min u v + t * min u v = min u v := by ring
      linarith
    · have h2 := mul_le_mul_of_nonneg_left (le_max_left u v) e1
      have h3 := mul_le_mul_of_nonneg_left (le_max_right u v) h0
      have : (1 - t) * max u v + t * max u v = max u v := by ring
      linarith
  refine ⟨key _ _, key _ _, ?_⟩
  have : turn a b (lineAt a b t) = 0 := by simp only [turn, lineAt]; ring
  rw [this, abs_zero]; exact h

/-- C10: in particular the endpoints. -/
theorem C10_contains_endpoints (tol : K) (h : 0 < tol) (a b : Pt K) :
    contains tol a a b = true ∧ contains tol b a b = true := by
  have h0 := C10_contains_convex_combination tol h a b 0 (le_refl _) zero_le_one
  have h1 := C10_contains_convex_combination tol h a b 1 zero_le_one (le_refl _)
  have e0 : lineAt a b 0 = a := by simp [lineAt]
  have e1 : lineAt a b 1 = b := by simp [lineAt]
  rw [e0] at h0; rw [e1] at h1
  exact ⟨h0, h1⟩

/-- C10: the answer does not depend on the orientation of the segment (any tolerance). -/
theorem C10_contains_swap (tol : K) (p a b : Pt K) :
    contains tol p a b = contains tol p b a := by
  have he : a.x * (b.y - p.y) + b.x * (p.y - a.y) + p.x * (a.y - b.y) =
      -(b.x * (a.y - p.y) + a.x * (p.y - b.y) + p.x * (b.y - a.y)) := by ring
  unfold contains
  simp only [he, abs_neg]
  congr 2
  · rw [Bool.or_comm]
  · rw [Bool.or_comm]

example : contains (1/10 : ℚ) (lineAt ⟨0, 3⟩ ⟨7, -4⟩ (2/7)) ⟨0, 3⟩ ⟨7, -4⟩ = true := by
  decide +kernel

/-- C12: `intersection` reports `q` exactly when the lines are not parallel and `q` is the
common point, at parameters within `[-tol, 1+tol]` on both segments. -/
theorem C12_intersects_iff (tol : K) (p1 p2 o1 o2 q : Pt K) :
    intersects tol p1 p2 o1 o2 = some q ↔
      ¬ Parallel p1 p2 o1 o2 ∧
      ∃ t s : K, -tol ≤ t ∧ t ≤ 1 + tol ∧ -tol ≤ s ∧ s ≤ 1 + tol ∧
        q = lineAt p1 p2 t ∧ q = lineAt o1 o2 s := by
  have hpar : Parallel p1 p2 o1 o2 ↔ den p1 p2 o1 o2 = 0 := by
    unfold Parallel den
    constructor <;> intro h <;> linear_combination h
  rw [hpar]
  unfold intersects
  simp only
  by_cases hd : den p1 p2 o1 o2 = 0
  · simp [hd]
  · rw [if_neg hd]
    -- Cramer: the parameters are determined
    have cramer : ∀ t s : K, lineAt p1 p2 t = lineAt o1 o2 s →
        t = numT p1 o1 o2 / den p1 p2 o1 o2 ∧ s = numS p1 p2 o1 / den p1 p2 o1 o2 := by
      intro t s he
      have hx := congrArg Pt.x he
      have hy := congrArg Pt.y he
      simp only [lineAt] at hx hy
      rw [eq_div_iff hd, eq_div_iff hd]
      constructor
      · simp only [den, numT]
        linear_combination (o2.y - o1.y) * hx - (o2.x - o1.x) * hy
      · simp only [den, numS]
        linear_combination (p2.y - p1.y) * hx - (p2.x - p1.x) * hy
    have sol : lineAt p1 p2 (numT p1 o1 o2 / den p1 p2 o1 o2) =
        lineAt o1 o2 (numS p1 p2 o1 / den p1 p2 o1 o2) := by
      ext
      · simp only [lineAt]; field_simp; simp only [den, numS, numT]; ring
      · simp only [lineAt]; field_simp; simp only [den, numS, numT]; ring
    have form : (⟨p1.x + numT p1 o1 o2 / den p1 p2 o1 o2 * (p2.x - p1.x),
        p1.y + numT p1 o1 o2 / den p1 p2 o1 o2 * (p2.y - p1.y)⟩ : Pt K) =
        lineAt p1 p2 (numT p1 o1 o2 / den p1 p2 o1 o2) := by
      ext <;> simp only [lineAt] <;> ring
    constructor
    · intro h
      split at h
      · rename_i hc
        rw [form] at h
        have hq := (Option.some.inj h).symm
        refine ⟨hd, _, _, ?_, hc.2.2.2, ?_, hc.2.1, hq, hq.trans sol⟩
        · linarith [hc.2.2.1]
        · linarith [hc.1]
      · simp at h
    · rintro ⟨-, t, s, h1, h2, h3, h4, h5, h6⟩
      obtain ⟨rfl, rfl⟩ := cramer t s (h5.symm.trans h6)
      rw [if_pos, form, h5]
      exact ⟨by linarith, h4, by linarith, h2⟩

/-- C12: parallel (in particular collinear, overlapping) segments never report an
intersection. -/
theorem C12_parallel_none (tol : K) (p1 p2 o1 o2 : Pt K) (h : Parallel p1 p2 o1 o2) :
    intersects tol p1 p2 o1 o2 = none := by
  cases he : intersects tol p1 p2 o1 o2 with
  | none => rfl
  | some q => exact absurd h ((C12_intersects_iff tol p1 p2 o1 o2 q).1 he).1

/-- C12: segments that properly share a point are found (no false negatives). -/
theorem C12_complete (tol : K) (h : 0 ≤ tol) (p1 p2 o1 o2 q : Pt K) (t s : K)
    (hp : ¬ Parallel p1 p2 o1 o2) (ht : 0 ≤ t ∧ t ≤ 1) (hs : 0 ≤ s ∧ s ≤ 1)
    (h1 : q = lineAt p1 p2 t) (h2 : q = lineAt o1 o2 s) :
    intersects tol p1 p2 o1 o2 = some q :=
  (C12_intersects_iff tol p1 p2 o1 o2 q).2
    ⟨hp, t, s, by linarith [ht.1], by linarith [ht.2], by linarith [hs.1], by linarith [hs.2], h1, h2⟩

example : intersects (1/100000 : ℚ) ⟨0, 0⟩ ⟨2, 2⟩ ⟨0, 2⟩ ⟨2, 0⟩ = some ⟨1, 1⟩ ∧
    intersects (1/100000 : ℚ) ⟨0, 0⟩ ⟨2, 2⟩ ⟨0, 2⟩ ⟨2, 4⟩ = none := by decide +kernel

/-- C13: swapping the two segments changes nothing. -/
theorem C13_intersects_comm (tol : K) (p1 p2 o1 o2 : Pt K) :
    intersects tol p1 p2 o1 o2 = intersects tol o1 o2 p1 p2 := by
  have hpar : Parallel p1 p2 o1 o2 ↔ Parallel o1 o2 p1 p2 := by
    unfold Parallel; constructor <;> intro h <;> linear_combination -h
  ext q
  rw [C12_intersects_iff, C12_intersects_iff, hpar]
  constructor
  · rintro ⟨h0, t, s, h1, h2, h3, h4, h5, h6⟩
    exact ⟨h0, s, t, h3, h4, h1, h2, h6, h5⟩
  · rintro ⟨h0, t, s, h1, h2, h3, h4, h5, h6⟩
    exact ⟨h0, s, t, h3, h4, h1, h2, h6, h5⟩

/-- C13: reversing the direction of one of the segments changes nothing. -/
theorem C13_intersects_reverse (tol : K) (p1 p2 o1 o2 : Pt K) :
    intersects tol p1 p2 o1 o2 = intersects tol p2 p1 o1 o2 := by
  have hpar : Parallel p1 p2 o1 o2 ↔ Parallel p2 p1 o1 o2 := by
    unfold Parallel; constructor <;> intro h <;> linear_combination -h
  have hl : ∀ t, lineAt p1 p2 t = lineAt p2 p1 (1 - t) := by
    intro t; ext <;> simp only [lineAt] <;> ring
  have hl' : ∀ t, lineAt p2 p1 t = lineAt p1 p2 (1 - t) := by
    intro t; ext <;> simp only [lineAt] <;> ring
  ext q
  rw [C12_intersects_iff, C12_intersects_iff, hpar]
  constructor
  · rintro ⟨h0, t, s, h1, h2, h3, h4, h5, h6⟩
    exact ⟨h0, 1 - t, s, by linarith, by linarith, h3, h4, by rw [h5, hl], h6⟩
  · rintro ⟨h0, t, s, h1, h2, h3, h4, h5, h6⟩
    exact ⟨h0, 1 - t, s, by linarith, by linarith, h3, h4, by rw [h5, hl'], h6⟩

example : intersects (1/100000 : ℚ) ⟨0, 0⟩ ⟨4, 4⟩ ⟨0, 2⟩ ⟨2, 0⟩ =
    intersects (1/100000 : ℚ) ⟨0, 2⟩ ⟨2, 0⟩ ⟨4, 4⟩ ⟨0, 0⟩ := by decide +kernel

/-- C12 for the infinite-line variant: it does not do what its header says ("always the case
unless they are parallel"); it also requires the point to lie on the first segment. -/
theorem C12_infinite_iff (tol : K) (p1 p2 o1 o2 q : Pt K) :
    intersectionInfinite tol p1 p2 o1 o2 = some q ↔
      ¬ Parallel p1 p2 o1 o2 ∧
      ∃ t s : K, -tol ≤ t ∧ t ≤ 1 + tol ∧ q = lineAt p1 p2 t ∧ q = lineAt o1 o2 s := by
  have hpar : Parallel p1 p2 o1 o2 ↔ den p1 p2 o1 o2 = 0 := by
    unfold Parallel den
    constructor <;> intro h <;> linear_combination h
  rw [hpar]
  unfold intersectionInfinite
  simp only
  by_cases hd : den p1 p2 o1 o2 = 0
  · simp [hd]
  · rw [if_neg hd]
    have cramer : ∀ t s : K, lineAt p1 p2 t = lineAt o1 o2 s →
        t = numT p1 o1 o2 / den p1 p2 o1 o2 := by
      intro t s he
      have hx := congrArg Pt.x he
      have hy := congrArg Pt.y he
      simp only [lineAt] at hx hy
      rw [eq_div_iff hd]
      simp only [den, numT]
      linear_combination (o2.y - o1.y) * hx - (o2.x - o1.x) * hy
    have sol : lineAt p1 p2 (numT p1 o1 o2 / den p1 p2 o1 o2) =
        lineAt o1 o2 (numS p1 p2 o1 / den p1 p2 o1 o2) := by
      ext
      · simp only [lineAt]; field_simp; simp only [den, numS, numT]; ring
      · simp only [lineAt]; field_simp; simp only [den, numS, numT]; ring
    have form : (⟨p1.x + numT p1 o1 o2 / den p1 p2 o1 o2 * (p2.x - p1.x),
        p1.y + numT p1 o1 o2 / den p1 p2 o1 o2 * (p2.y - p1.y)⟩ : Pt K) =
        lineAt p1 p2 (numT p1 o1 o2 / den p1 p2 o1 o2) := by
      ext <;> simp only [lineAt] <;> ring
    constructor
    · intro h
      split at h
      · rename_i hc
        rw [form] at h
        have hq := (Option.some.inj h).symm
        exact ⟨hd, _, _, by linarith [hc.2], hc.1, hq, hq.trans sol⟩
      · simp at h
    · rintro ⟨-, t, s, h1, h2, h5, h6⟩
      obtain rfl := cramer t s (h5.symm.trans h6)
      rw [if_pos, form, h5]
      exact ⟨h2, by linarith⟩

example : intersectionInfinite (1/100000 : ℚ) ⟨0, 0⟩ ⟨1, 0⟩ ⟨5, -1⟩ ⟨5, 1⟩ = none := by
  decide +kernel

end Delynoi
