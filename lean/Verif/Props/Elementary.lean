import Verif.Model.Polygon
import Verif.Spec.Geometry
import Mathlib.Algebra.Order.Field.Rat
import Mathlib.Algebra.BigOperators.Group.List.Basic
import Mathlib.Tactic.Ring
import Mathlib.Tactic.LinearCombination
import Mathlib.Tactic.NormNum
import Mathlib.Tactic.FieldSimp
/-!
# C88: segment equality, middle point, collinearity, average and vertex test
-/
set_option linter.unusedSectionVars false
namespace Delynoi
variable {K : Type} [Field K] [LinearOrder K] [IsStrictOrderedRing K]

/-- C88: two segments are equal exactly when their ends are pairwise close, in one of the two
possible orders. -/
theorem C88_segment_eq_iff (tol : K) (a b c d : Pt K) :
    Seg.eqTol tol a b c d = true ↔ (Close tol a c ∧ Close tol b d) ∨ (Close tol a d ∧ Close tol b c) := by
  simp only [Seg.eqTol, Pt.eqTol, Close, Bool.or_eq_true, Bool.and_eq_true, decide_eq_true_eq]

/-- C88: the direction of neither segment matters. -/
theorem C88_segment_eq_reverse (tol : K) (a b c d : Pt K) :
    Seg.eqTol tol b a c d = Seg.eqTol tol a b c d ∧ Seg.eqTol tol a b d c = Seg.eqTol tol a b c d := by
  constructor <;> rw [Bool.eq_iff_iff, C88_segment_eq_iff, C88_segment_eq_iff] <;> tauto

/-- C88: segment equality is symmetric, and reflexive for a positive tolerance. -/
theorem C88_segment_eq_symm (tol : K) (a b c d : Pt K) :
    Seg.eqTol tol a b c d = Seg.eqTol tol c d a b ∧ (0 < tol → Seg.eqTol tol a b a b = true) := by
  have hs : ∀ p q : Pt K, Close tol p q ↔ Close tol q p := by
    intro p q; unfold Close; rw [abs_sub_comm p.x, abs_sub_comm p.y]
  constructor
  · rw [Bool.eq_iff_iff, C88_segment_eq_iff, C88_segment_eq_iff, hs a c, hs b d, hs a d, hs b c]; tauto
  · intro h
    rw [C88_segment_eq_iff]
    left
    unfold Close
    simp [h]

example : Seg.eqTol (1/100000 : ℚ) ⟨0, 0⟩ ⟨3, 1⟩ ⟨3, 1⟩ ⟨0, 1/1000000⟩ = true ∧
    Seg.eqTol (1/100000 : ℚ) ⟨0, 0⟩ ⟨3, 1⟩ ⟨0, 0⟩ ⟨3, 0⟩ = false := by decide +kernel

/-- C88: the middle point is the point of the segment with parameter one half, and it is equally
far from both ends, half the segment's extent. -/
theorem C88_middle (a b : Pt K) :
    Seg.middle a b = lineAt a b (1 / 2) ∧ Seg.middle a b = Seg.middle b a ∧
    sqDist (Seg.middle a b) a = sqDist (Seg.middle a b) b ∧ 4 * sqDist (Seg.middle a b) a = sqDist a b := by
  refine ⟨?_, ?_, ?_, ?_⟩
  · ext <;> simp only [Seg.middle, lineAt] <;> ring
  · ext <;> simp only [Seg.middle] <;> ring
  · simp only [Seg.middle, sqDist]; ring
  · simp only [Seg.middle, sqDist]; ring

/-- C88: three points are collinear exactly when twice the area they span is below the tolerance
in absolute value. -/
theorem C88_collinear_iff (tol : K) (a b c : Pt K) : collinear tol a b c = true ↔ |turn a b c| < tol := by
  exact decide_eq_true_iff

/-- C88: collinearity does not depend on the order of the points. -/
theorem C88_collinear_perm (tol : K) (a b c : Pt K) :
    collinear tol a b c = collinear tol b a c ∧ collinear tol a b c = collinear tol b c a := by
  constructor <;> rw [Bool.eq_iff_iff, C88_collinear_iff, C88_collinear_iff]
  · rw [show turn a b c = -turn b a c by simp only [turn]; ring, abs_neg]
  · rw [show turn a b c = turn b c a by simp only [turn]; ring]

/-- C88: any point of the line through `a` and `b` is collinear with them. -/
theorem C88_collinear_line (tol : K) (ht : 0 < tol) (a b : Pt K) (t : K) :
    collinear tol a b (lineAt a b t) = true := by
  rw [C88_collinear_iff, show turn a b (lineAt a b t) = 0 by simp only [turn, lineAt]; ring, abs_zero]
  exact ht

/-- C88: two segments are collinear exactly when both ends of the second are collinear with the
first. -/
theorem C88_collinear_segments (tol : K) (a b c d : Pt K) :
    collinearSeg tol a b c d = true ↔ |turn a b c| < tol ∧ |turn a b d| < tol := by
  unfold collinearSeg
  rw [Bool.and_eq_true, C88_collinear_iff, C88_collinear_iff]

example : collinear (1/100000 : ℚ) ⟨0, 0⟩ ⟨1, 1⟩ ⟨3, 3⟩ = true ∧
    collinear (1/100000 : ℚ) ⟨0, 0⟩ ⟨1, 1⟩ ⟨3, 4⟩ = false ∧
    collinear (1/100000 : ℚ) ⟨0, 0⟩ ⟨1, 1⟩ ⟨4, 3⟩ = false := by decide +kernel

theorem sum_sub_const (f : Pt K → K) (c : K) (l : List (Pt K)) :
    (l.map (fun p => f p - c)).sum = (l.map f).sum - l.length * c := by
  induction l with
  | nil => simp
  | cons a l ih =>
    rw [List.map_cons, List.sum_cons, List.map_cons, List.sum_cons, ih, List.length_cons]
    push_cast; ring

/-- C88: `getAverage` exists for every non-empty polygon and is the one point from which the
displacements to the vertices add up to zero. -/
theorem C88_average (l : List (Pt K)) (hl : l ≠ []) (q : Pt K) :
    getAverage l = some q ↔ (l.map (fun p => p.x - q.x)).sum = 0 ∧ (l.map (fun p => p.y - q.y)).sum = 0 := by
  have hn : (l.length : K) ≠ 0 := by
    have := List.length_pos_of_ne_nil hl
    exact_mod_cast this.ne'
  unfold getAverage
  rw [if_neg hl, sum_sub_const, sum_sub_const, Option.some.injEq]
  constructor
  · intro h
    rw [← h]
    constructor <;> field_simp <;> ring
  · rintro ⟨h1, h2⟩
    ext
    · rw [div_eq_iff hn]; linear_combination h1
    · rw [div_eq_iff hn]; linear_combination h2

example : getAverage [(⟨0, 0⟩ : Pt ℚ), ⟨4, 0⟩, ⟨2, 3⟩] = some ⟨2, 1⟩ := by decide +kernel

/-- C88: `isVertex` tells whether the index is one of the polygon's. -/
theorem C88_isVertex (idx : List Int) (i : Int) : isVertex idx i = true ↔ i ∈ idx := by
  simp [isVertex]

example : isVertex [4, 7, 1] 7 = true ∧ isVertex [4, 7, 1] 2 = false := by decide

end Delynoi
