import Verif.Model.Ieee
import Verif.Spec.Geometry
import Mathlib.Tactic.Ring
import Mathlib.Tactic.Linarith
import Mathlib.Tactic.NormNum
import Mathlib.Data.Rat.Cast.Order
import Mathlib.Algebra.Order.Field.Rat
/-!
# The division-by-zero guards of the model against IEEE special values
-/
set_option linter.unusedSectionVars false
namespace Delynoi
variable {K : Type} [Field K] [LinearOrder K] [IsStrictOrderedRing K]
open Ext

section
variable (a b : K)
theorem Ext.fin_add : (fin a + fin b : Ext K) = fin (a + b) := rfl
theorem Ext.fin_mul : (fin a * fin b : Ext K) = fin (a * b) := rfl
theorem Ext.fin_neg : (-fin a : Ext K) = fin (-a) := rfl
theorem Ext.fin_sub : (fin a - fin b : Ext K) = fin (a - b) := by
  rw [sub_eq_add_neg]; rfl
theorem Ext.fin_le : (fin a : Ext K).le (fin b) = decide (a ≤ b) := rfl
theorem Ext.fin_lt : (fin a : Ext K).lt (fin b) = decide (a < b) := rfl
theorem Ext.fin_abs : (fin a : Ext K).abs = fin |a| := rfl
theorem Ext.fin_div (z : Bool) (h : b ≠ 0) : Ext.div z (fin a) (fin b) = fin (a / b) := by
  simp [Ext.div, h]
theorem Ext.fin_div_zero (z : Bool) :
    Ext.div z (fin a) (fin (0 : K)) = nan ∨ Ext.div z (fin a) (fin (0 : K)) = ninf ∨
      Ext.div z (fin a) (fin (0 : K)) = pinf := by
  by_cases h : a = 0
  · left; simp [Ext.div, h]
  · right; simp only [Ext.div, if_true, h, if_false, Ext.inf]
    by_cases hz : (z ^^ decide (a < 0)) = true
    · left; rw [if_pos hz]
    · right; rw [if_neg hz]
end

attribute [local simp] Ext.fin_add Ext.fin_mul Ext.fin_neg Ext.fin_sub Ext.fin_le Ext.fin_lt Ext.fin_abs

/-- A quotient by zero fails any two-sided comparison with finite bounds. -/
theorem Ext.div_zero_out (z : Bool) (a lo hi : K) :
    ((fin lo).le (Ext.div z (fin a) (fin (0 : K))) && (Ext.div z (fin a) (fin (0 : K))).le (fin hi))
      = false := by
  rcases Ext.fin_div_zero a z with h | h | h <;> rw [h] <;> rfl

/-- C12: with NaN and infinities, whatever the sign of a zero denominator, `intersects` gives the
result of the guarded model. -/
theorem C12_ieee_intersects (z1 z2 : Bool) (tol : K) (p1 p2 o1 o2 : Pt K) :
    Ieee.intersects z1 z2 tol p1.lift p2.lift o1.lift o2.lift =
      (Seg.intersects tol p1 p2 o1 o2).map Pt.lift := by
  unfold Ieee.intersects Seg.intersects
  simp only [Pt.lift, Ext.fin_add, Ext.fin_mul, Ext.fin_neg, Ext.fin_sub]
  change (if ((fin (0 - tol)).le (Ext.div z1 (fin (Seg.numS p1 p2 o1)) (fin (Seg.den p1 p2 o1 o2))) &&
      (Ext.div z1 (fin (Seg.numS p1 p2 o1)) (fin (Seg.den p1 p2 o1 o2))).le (fin (1 + tol)) &&
      (fin (0 - tol)).le (Ext.div z2 (fin (Seg.numT p1 o1 o2)) (fin (Seg.den p1 p2 o1 o2))) &&
      (Ext.div z2 (fin (Seg.numT p1 o1 o2)) (fin (Seg.den p1 p2 o1 o2))).le (fin (1 + tol))) = true
    then some (⟨fin p1.x + Ext.div z2 (fin (Seg.numT p1 o1 o2)) (fin (Seg.den p1 p2 o1 o2)) *
        fin (p2.x - p1.x), fin p1.y + Ext.div z2 (fin (Seg.numT p1 o1 o2)) (fin (Seg.den p1 p2 o1 o2)) *
        fin (p2.y - p1.y)⟩ : EPt K) else none) = _
  by_cases hd : Seg.den p1 p2 o1 o2 = 0
  · rw [hd, Ext.div_zero_out]
    simp
  · rw [if_neg hd, Ext.fin_div _ _ z1 hd, Ext.fin_div _ _ z2 hd]
    by_cases hc : Seg.numS p1 p2 o1 / Seg.den p1 p2 o1 o2 ≥ 0 - tol ∧
        Seg.numS p1 p2 o1 / Seg.den p1 p2 o1 o2 ≤ 1 + tol ∧
        Seg.numT p1 o1 o2 / Seg.den p1 p2 o1 o2 ≥ 0 - tol ∧
        Seg.numT p1 o1 o2 / Seg.den p1 p2 o1 o2 ≤ 1 + tol
    · rw [if_pos hc, if_pos (by
        simp only [Ext.fin_le, Bool.and_eq_true, decide_eq_true_eq]
        exact ⟨⟨⟨hc.1, hc.2.1⟩, hc.2.2.1⟩, hc.2.2.2⟩)]
      rfl
    · rw [if_neg hc, if_neg (by
        simp only [Ext.fin_le, Bool.and_eq_true, decide_eq_true_eq]
        exact fun h => hc ⟨h.1.1.1, h.1.1.2, h.1.2, h.2⟩)]
      rfl

/-- C12: the same for `intersectionInfinite`. -/
theorem C12_ieee_infinite (z : Bool) (tol : K) (p1 p2 o1 o2 : Pt K) :
    Ieee.intersectionInfinite z tol p1.lift p2.lift o1.lift o2.lift =
      (Seg.intersectionInfinite tol p1 p2 o1 o2).map Pt.lift := by
  unfold Ieee.intersectionInfinite Seg.intersectionInfinite
  simp only [Pt.lift, Ext.fin_add, Ext.fin_mul, Ext.fin_neg, Ext.fin_sub]
  change (if ((Ext.div z (fin (Seg.numT p1 o1 o2)) (fin (Seg.den p1 p2 o1 o2))).le (fin (1 + tol)) &&
      (fin (0 - tol)).le (Ext.div z (fin (Seg.numT p1 o1 o2)) (fin (Seg.den p1 p2 o1 o2)))) = true
    then some (⟨fin p1.x + Ext.div z (fin (Seg.numT p1 o1 o2)) (fin (Seg.den p1 p2 o1 o2)) *
        fin (p2.x - p1.x), fin p1.y + Ext.div z (fin (Seg.numT p1 o1 o2)) (fin (Seg.den p1 p2 o1 o2)) *
        fin (p2.y - p1.y)⟩ : EPt K) else none) = _
  by_cases hd : Seg.den p1 p2 o1 o2 = 0
  · rw [hd, Bool.and_comm, Ext.div_zero_out]
    simp
  · rw [if_neg hd, Ext.fin_div _ _ z hd]
    by_cases hc : Seg.numT p1 o1 o2 / Seg.den p1 p2 o1 o2 ≤ 1 + tol ∧
        Seg.numT p1 o1 o2 / Seg.den p1 p2 o1 o2 ≥ 0 - tol
    · rw [if_pos hc, if_pos (by
        simp only [Ext.fin_le, Bool.and_eq_true, decide_eq_true_eq]
        exact hc)]
      rfl
    · rw [if_neg hc, if_neg (by
        simp only [Ext.fin_le, Bool.and_eq_true, decide_eq_true_eq]
        exact hc)]
      rfl

example : Ieee.intersects true false (1/100000 : ℚ) (Pt.lift ⟨0, 0⟩) (Pt.lift ⟨2, 2⟩) (Pt.lift ⟨0, 2⟩)
    (Pt.lift ⟨2, 0⟩) = some (Pt.lift ⟨1, 1⟩) ∧
    Ieee.intersects true false (1/100000 : ℚ) (Pt.lift ⟨0, 0⟩) (Pt.lift ⟨2, 2⟩) (Pt.lift ⟨0, 0⟩)
    (Pt.lift ⟨1, 1⟩) = none := by decide +kernel

/-! ### Point location -/

theorem Ieee.contains_fin (tol : K) (q a b : Pt K) :
    Ieee.contains tol q.lift a.lift b.lift = Seg.contains tol q a b := by
  unfold Ieee.contains Seg.contains Ieee.geTol Ieee.leTol Seg.geTol Seg.leTol
  simp only [Pt.lift, Ext.fin_add, Ext.fin_mul, Ext.fin_sub, Ext.fin_le, Ext.fin_lt, Ext.fin_abs,
    ge_iff_le]

theorem Ieee.crosses_fin (z : Bool) (a b q : Pt K) :
    Ieee.crosses z a.lift b.lift q.lift = Delynoi.crosses a b q := by
  unfold Ieee.crosses Delynoi.crosses
  simp only [Pt.lift, Ext.fin_sub, Ext.fin_le, Ext.fin_lt, gt_iff_lt]
  by_cases h : ((decide (a.y ≤ q.y) && decide (q.y < b.y)) || (decide (b.y ≤ q.y) && decide (q.y < a.y))) = true
  · have hd : b.y - a.y ≠ 0 := by
      simp only [Bool.or_eq_true, Bool.and_eq_true, decide_eq_true_eq] at h
      intro h0
      rcases h with h | h <;> linarith [h.1, h.2]
    rw [h, Ext.fin_div _ _ z hd]
    simp only [Ext.fin_mul, Ext.fin_add, Ext.fin_lt]
  · have h' := Bool.eq_false_iff.2 h
    rw [h', Bool.false_and, Bool.false_and]

theorem Ieee.oddLoop_fin (z : Bool) (tol : K) (q : Pt K) (l : List (Pt K)) :
    ∀ (j : Pt K) (odd : Bool), Ieee.oddLoop z tol q.lift j odd l = Delynoi.oddLoop tol q j odd l := by
  induction l with
  | nil => intro j odd; rfl
  | cons i l ih =>
    intro j odd
    unfold Ieee.oddLoop Delynoi.oddLoop
    rw [Ieee.crosses_fin, ih, ih]

/-- C27: the division inside the crossing test is never by zero, so the point location of the
model is that of the code with NaN and infinities. -/
theorem C27_ieee_containsPoint (z : Bool) (tol : K) (l : List (Pt K)) (q : Pt K) :
    Ieee.containsPoint z tol l q.lift = containsPoint tol l q := by
  unfold Ieee.containsPoint containsPoint inEdgesPts
  simp only [Ieee.contains_fin]
  cases l.getLast? with
  | none => rfl
  | some c => simp only [Ieee.oddLoop_fin]

section nanlemmas
variable (a : Ext K)
theorem Ext.nan_add : (nan + a : Ext K) = nan := by cases a <;> rfl
theorem Ext.add_nan : (a + nan : Ext K) = nan := by cases a <;> rfl
theorem Ext.nan_mul : (nan * a : Ext K) = nan := by cases a <;> rfl
theorem Ext.mul_nan : (a * nan : Ext K) = nan := by cases a <;> rfl
theorem Ext.nan_sub : (nan - a : Ext K) = nan := by cases a <;> rfl
theorem Ext.sub_nan : (a - nan : Ext K) = nan := by cases a <;> rfl
theorem Ext.nan_lt : (nan : Ext K).lt a = false := by cases a <;> rfl
theorem Ext.lt_nan : a.lt nan = false := by cases a <;> rfl
theorem Ext.nan_le : (nan : Ext K).le a = false := by cases a <;> rfl
theorem Ext.le_nan : a.le nan = false := by cases a <;> rfl
end nanlemmas

theorem Ieee.crosses_nan (z : Bool) (a b q : EPt K) (h : q.x = nan ∨ q.y = nan) :
    Ieee.crosses z a b q = false := by
  unfold Ieee.crosses
  rcases h with h | h
  · rw [h, Ext.lt_nan, Bool.and_false]
  · rw [h, Ext.le_nan, Ext.le_nan]; rfl

theorem Ieee.contains_nan (tol : K) (a b q : EPt K) (h : q.x = nan ∨ q.y = nan) :
    Ieee.contains tol q a b = false := by
  unfold Ieee.contains
  rcases h with h | h
  · rw [h, Ext.nan_mul, Ext.add_nan]
    exact Bool.and_false _
  · rw [h, Ext.sub_nan, Ext.mul_nan, Ext.nan_add, Ext.nan_add]
    exact Bool.and_false _

theorem Ieee.oddLoop_nan (z : Bool) (tol : K) (q : EPt K) (h : q.x = nan ∨ q.y = nan)
    (l : List (Pt K)) :
    ∀ (j : Pt K) (odd : Bool), Ieee.oddLoop z tol q j odd l = odd := by
  induction l with
  | nil => intro j odd; rfl
  | cons i l ih =>
    intro j odd
    unfold Ieee.oddLoop
    rw [Ieee.crosses_nan z _ _ _ h, ih, ih]
    simp

/-- C27: a point with a NaN coordinate is in no polygon. -/
theorem C27_ieee_nan (z : Bool) (tol : K) (l : List (Pt K)) (q : EPt K) (h : q.x = nan ∨ q.y = nan) :
    Ieee.containsPoint z tol l q = false := by
  unfold Ieee.containsPoint
  simp only [Ieee.contains_nan tol _ _ q h, Ieee.oddLoop_nan z tol q h]
  cases l.getLast? <;> simp

example : Ieee.containsPoint false (1/100000 : ℚ) [⟨0, 0⟩, ⟨2, 0⟩, ⟨2, 2⟩, ⟨0, 2⟩] ⟨nan, fin 1⟩ = false ∧
    Ieee.containsPoint false (1/100000 : ℚ) [⟨0, 0⟩, ⟨2, 0⟩, ⟨2, 2⟩, ⟨0, 2⟩] ⟨fin 1, fin 1⟩ = true := by
  decide +kernel

/-! ### Centroids and circumcenters -/

theorem Ieee.sum_fin (l : List K) : Ieee.sum (l.map Ext.fin) = fin l.sum := by
  have : ∀ (l : List K) (c : K), (l.map Ext.fin).foldl (· + ·) (fin c) = fin (c + l.sum) := by
    intro l
    induction l with
    | nil => intro c; simp
    | cons a l ih =>
      intro c
      simp only [List.map_cons, List.foldl_cons, Ext.fin_add, ih, List.sum_cons, add_assoc]
  unfold Ieee.sum
  rw [this, zero_add]

theorem Ext.div_finite_iff (z : Bool) (a b : K) : (Ext.div z (fin a) (fin b)).Finite ↔ b ≠ 0 := by
  constructor
  · rintro ⟨x, hx⟩ rfl
    rcases Ext.fin_div_zero a z with h | h | h <;> rw [h] at hx <;> cases hx
  · intro h; exact ⟨a / b, Ext.fin_div a b z h⟩

/-- C23: the C++ centroid has finite coordinates exactly when the model defines it, and then they
agree. -/
theorem C23_ieee_centroid (z : Bool) (l : List (Pt K)) :
    match calculateCentroid l with
    | some c => Ieee.calculateCentroid z l = c.lift
    | none => ¬ (Ieee.calculateCentroid z l).x.Finite ∧ ¬ (Ieee.calculateCentroid z l).y.Finite := by
  have key : Ieee.calculateCentroid z l =
      ⟨Ext.div z (fin ((cycPairs l).map
          (fun e => (e.1.x + e.2.x) * (e.1.x * e.2.y - e.2.x * e.1.y))).sum) (fin (6 * signedArea l)),
       Ext.div z (fin ((cycPairs l).map
          (fun e => (e.1.y + e.2.y) * (e.1.x * e.2.y - e.2.x * e.1.y))).sum) (fin (6 * signedArea l))⟩ := by
    unfold Ieee.calculateCentroid signedArea
    simp only [Ext.fin_mul, Ext.fin_add, Ext.fin_sub]
    rw [← Ieee.sum_fin, ← Ieee.sum_fin, ← Ext.fin_mul, ← Ext.fin_mul, ← Ieee.sum_fin]
    simp only [List.map_map, Function.comp_def]
  rw [key]
  unfold calculateCentroid
  by_cases h : signedArea l = 0
  · simp only [h, if_true, Ext.div_finite_iff]
    simp
  · have h6 : (6 : K) * signedArea l ≠ 0 := mul_ne_zero (by norm_num) h
    simp only [h, if_false]
    rw [Ext.fin_div _ _ z h6, Ext.fin_div _ _ z h6]
    rfl

/-- C37: the C++ circumcenter has finite coordinates exactly when the model defines it, and then
they agree. -/
theorem C37_ieee_circumcenter (z : Bool) (a b c : Pt K) :
    match circumcenter a b c with
    | some q => Ieee.circumcenter z a b c = q.lift
    | none => ¬ (Ieee.circumcenter z a b c).x.Finite ∧ ¬ (Ieee.circumcenter z a b c).y.Finite := by
  unfold Ieee.circumcenter circumcenter
  simp only [Ext.fin_mul, Ext.fin_add, Ext.fin_sub]
  by_cases h : circumD a b c = 0
  · simp only [h, if_true]
    unfold circumD at h
    simp only [Ext.div_finite_iff, h]
    simp
  · simp only [h, if_false]
    have h' := h
    unfold circumD at h
    rw [Ext.fin_div _ _ z h, Ext.fin_div _ _ z h]
    simp only [Pt.lift, circumD, sqNorm, pow_two]

example : Ieee.circumcenter false (⟨0, 0⟩ : Pt ℚ) ⟨1, 1⟩ ⟨2, 2⟩ = ⟨ninf, pinf⟩ ∨
    Ieee.circumcenter false (⟨0, 0⟩ : Pt ℚ) ⟨1, 1⟩ ⟨2, 2⟩ = ⟨pinf, ninf⟩ := by decide +kernel

end Delynoi
