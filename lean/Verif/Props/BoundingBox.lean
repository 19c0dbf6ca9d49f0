import Verif.Model.BoundingBox
import Verif.Spec.Geometry
import Mathlib.Tactic.LinearCombination
import Mathlib.Tactic.Ring
import Mathlib.Tactic.NormNum
import Mathlib.Tactic.Linarith
import Mathlib.Algebra.Order.Group.Abs
import Mathlib.Data.Rat.Cast.Order
import Mathlib.Algebra.Order.Field.Rat
import Mathlib.Algebra.Order.Group.MinMax
/-!
# Property C42: bounding boxes
-/
set_option linter.unusedSectionVars false
namespace Delynoi
variable {K : Type} [Field K] [LinearOrder K] [IsStrictOrderedRing K]

/-- The rectangle spanned by two opposite corners: points whose coordinates are between those of
the corners. -/
def InRect (a b q : Pt K) : Prop :=
  ((a.x ≤ q.x ∧ q.x ≤ b.x) ∨ (b.x ≤ q.x ∧ q.x ≤ a.x)) ∧
  ((a.y ≤ q.y ∧ q.y ≤ b.y) ∨ (b.y ≤ q.y ∧ q.y ≤ a.y))

/-- C42: `contains` is membership in the closed rectangle, whichever corners were given. -/
theorem C42_contains_iff (a b q : Pt K) : (BBox.mk a b).contains q = true ↔ InRect a b q := by
  unfold BBox.contains InRect BBox.xMin BBox.xMax BBox.yMin BBox.yMax
  simp only [Bool.and_eq_true, decide_eq_true_eq, ge_iff_le]
  rcases le_total a.x b.x with hx | hx <;> rcases le_total a.y b.y with hy | hy <;>
    simp only [hx, hy, min_eq_left, min_eq_right, max_eq_left, max_eq_right] <;>
    constructor <;> intro h
  all_goals first
    | exact ⟨by tauto, by tauto⟩
    | (obtain ⟨h1, h2⟩ := h
       rcases h1 with h1 | h1 <;> rcases h2 with h2 | h2 <;>
        refine ⟨⟨⟨?_, ?_⟩, ?_⟩, ?_⟩ <;> linarith [h1.1, h1.2, h2.1, h2.2])

/-- C42: extents are ordered and consistent, and each is attained by a corner. -/
theorem C42_extents (b : BBox K) :
    b.xMin ≤ b.xMax ∧ b.yMin ≤ b.yMax ∧ b.width = b.xMax - b.xMin ∧ b.height = b.yMax - b.yMin ∧
    (b.xMin = b.p1.x ∧ b.xMax = b.p2.x ∨ b.xMin = b.p2.x ∧ b.xMax = b.p1.x) ∧
    (b.yMin = b.p1.y ∧ b.yMax = b.p2.y ∨ b.yMin = b.p2.y ∧ b.yMax = b.p1.y) := by
  unfold BBox.xMin BBox.xMax BBox.yMin BBox.yMax BBox.width BBox.height
  refine ⟨min_le_max, min_le_max, ?_, ?_, ?_, ?_⟩
  · rw [abs_sub_comm, max_sub_min_eq_abs]
  · rw [abs_sub_comm, max_sub_min_eq_abs]
  · rcases le_total b.p1.x b.p2.x with h | h <;> simp [h]
  · rcases le_total b.p1.y b.p2.y with h | h <;> simp [h]

/-- C42: the four corners are contained. -/
theorem C42_corners (a b : Pt K) :
    (BBox.mk a b).contains a = true ∧ (BBox.mk a b).contains b = true ∧
    (BBox.mk a b).contains ⟨a.x, b.y⟩ = true ∧ (BBox.mk a b).contains ⟨b.x, a.y⟩ = true := by
  simp only [C42_contains_iff, InRect]
  rcases le_total a.x b.x with hx | hx <;> rcases le_total a.y b.y with hy | hy <;> simp [hx, hy]

/-- C42: the segments form a closed chain `p1, p3, p2, p4` of the four corners, alternating
horizontal and vertical sides. -/
theorem C42_segments (b : BBox K) :
    ∃ s0 s1 s2 s3 : Pt K × Pt K, b.getSegments = [s0, s1, s2, s3] ∧
      s0.2 = s1.1 ∧ s1.2 = s2.1 ∧ s2.2 = s3.1 ∧ s3.2 = s0.1 ∧
      s0.1 = b.p1 ∧ s2.1 = b.p2 ∧ s0.2 = ⟨b.p2.x, b.p1.y⟩ ∧ s2.2 = ⟨b.p1.x, b.p2.y⟩ ∧
      s0.1.y = s0.2.y ∧ s1.1.x = s1.2.x ∧ s2.1.y = s2.2.y ∧ s3.1.x = s3.2.x :=
  ⟨_, _, _, _, rfl, rfl, rfl, rfl, rfl, rfl, rfl, rfl, rfl, rfl, rfl, rfl, rfl⟩

/-- C42: a point of the plane is on one of the four segments exactly when it is in the box and
has an extreme abscissa or ordinate. -/
theorem C42_boundary (b : BBox K) (q : Pt K) :
    (∃ s ∈ b.getSegments, ∃ t, 0 ≤ t ∧ t ≤ 1 ∧ q = lineAt s.1 s.2 t) ↔
    InRect b.p1 b.p2 q ∧ (q.x = b.p1.x ∨ q.x = b.p2.x ∨ q.y = b.p1.y ∨ q.y = b.p2.y) := by
  have conv : ∀ u v w : K, (∃ t, 0 ≤ t ∧ t ≤ 1 ∧ w = (1 - t) * u + t * v) ↔
      ((u ≤ w ∧ w ≤ v) ∨ (v ≤ w ∧ w ≤ u)) := by
    intro u v w
    constructor
    · rintro ⟨t, h0, h1, rfl⟩
      rcases le_total u v with h | h
      · left; constructor <;> nlinarith [mul_nonneg h0 (sub_nonneg.2 h), mul_nonneg (sub_nonneg.2 h1) (sub_nonneg.2 h)]
      · right; constructor <;> nlinarith [mul_nonneg h0 (sub_nonneg.2 h), mul_nonneg (sub_nonneg.2 h1) (sub_nonneg.2 h)]
    · intro h
      by_cases huv : u = v
      · subst huv
        refine ⟨0, le_refl _, zero_le_one, ?_⟩
        rcases h with h | h <;> linarith [h.1, h.2]
      · have hd : v - u ≠ 0 := sub_ne_zero.2 (Ne.symm huv)
        refine ⟨(w - u) / (v - u), ?_, ?_, ?_⟩
        · rcases h with h | h
          · exact div_nonneg (by linarith) (by linarith)
          · exact div_nonneg_of_nonpos (by linarith) (by linarith)
        · rcases h with h | h
          · exact (div_le_one (lt_of_le_of_ne (by linarith) (Ne.symm hd))).2 (by linarith)
          · exact (div_le_one_of_neg (lt_of_le_of_ne (by linarith) hd)).2 (by linarith)
        · have : (w - u) / (v - u) * (v - u) = w - u := div_mul_cancel₀ _ hd
          linear_combination -this
  have sw : ∀ u v w : K, ((u ≤ w ∧ w ≤ v) ∨ (v ≤ w ∧ w ≤ u)) ↔ ((v ≤ w ∧ w ≤ u) ∨ (u ≤ w ∧ w ≤ v)) :=
    fun _ _ _ => or_comm
  have self : ∀ t u : K, (1 - t) * u + t * u = u := by intro t u; ring
  have horiz : ∀ (u v y : K), (∃ t, 0 ≤ t ∧ t ≤ 1 ∧ q = lineAt ⟨u, y⟩ ⟨v, y⟩ t) ↔
      q.y = y ∧ ((u ≤ q.x ∧ q.x ≤ v) ∨ (v ≤ q.x ∧ q.x ≤ u)) := by
    intro u v y
    rw [← conv u v q.x]
    constructor
    · rintro ⟨t, h0, h1, h⟩
      rw [h]; exact ⟨self t y, t, h0, h1, rfl⟩
    · rintro ⟨hy, t, h0, h1, h⟩
      exact ⟨t, h0, h1, by ext; exacts [h, hy.trans (self t y).symm]⟩
  have vert : ∀ (u v x : K), (∃ t, 0 ≤ t ∧ t ≤ 1 ∧ q = lineAt ⟨x, u⟩ ⟨x, v⟩ t) ↔
      q.x = x ∧ ((u ≤ q.y ∧ q.y ≤ v) ∨ (v ≤ q.y ∧ q.y ≤ u)) := by
    intro u v x
    rw [← conv u v q.y]
    constructor
    · rintro ⟨t, h0, h1, h⟩
      rw [h]; exact ⟨self t x, t, h0, h1, rfl⟩
    · rintro ⟨hx, t, h0, h1, h⟩
      exact ⟨t, h0, h1, by ext; exacts [hx.trans (self t x).symm, h]⟩
  have e : (∃ s ∈ b.getSegments, ∃ t, 0 ≤ t ∧ t ≤ 1 ∧ q = lineAt s.1 s.2 t) ↔
      (∃ t, 0 ≤ t ∧ t ≤ 1 ∧ q = lineAt (⟨b.p1.x, b.p1.y⟩ : Pt K) ⟨b.p2.x, b.p1.y⟩ t) ∨
      (∃ t, 0 ≤ t ∧ t ≤ 1 ∧ q = lineAt (⟨b.p2.x, b.p1.y⟩ : Pt K) ⟨b.p2.x, b.p2.y⟩ t) ∨
      (∃ t, 0 ≤ t ∧ t ≤ 1 ∧ q = lineAt (⟨b.p2.x, b.p2.y⟩ : Pt K) ⟨b.p1.x, b.p2.y⟩ t) ∨
      (∃ t, 0 ≤ t ∧ t ≤ 1 ∧ q = lineAt (⟨b.p1.x, b.p2.y⟩ : Pt K) ⟨b.p1.x, b.p1.y⟩ t) := by
    simp [BBox.getSegments]
  rw [e, horiz, vert, horiz, vert]
  unfold InRect
  rw [sw b.p2.x b.p1.x, sw b.p2.y b.p1.y]
  constructor
  · have refl2 : ∀ u v : K, (u ≤ u ∧ u ≤ v) ∨ (v ≤ u ∧ u ≤ u) := by
      intro u v; rcases le_total u v with h | h
      · exact Or.inl ⟨le_refl _, h⟩
      · exact Or.inr ⟨h, le_refl _⟩
    rintro (⟨h, h'⟩ | ⟨h, h'⟩ | ⟨h, h'⟩ | ⟨h, h'⟩) <;> rw [h]
    · exact ⟨⟨h', refl2 _ _⟩, by simp⟩
    · exact ⟨⟨(sw _ _ _).1 (refl2 _ _), h'⟩, by simp⟩
    · exact ⟨⟨h', (sw _ _ _).1 (refl2 _ _)⟩, by simp⟩
    · exact ⟨⟨refl2 _ _, h'⟩, by simp⟩
  · rintro ⟨⟨h1, h2⟩, h | h | h | h⟩
    · exact Or.inr (Or.inr (Or.inr ⟨h, h2⟩))
    · exact Or.inr (Or.inl ⟨h, h2⟩)
    · exact Or.inl ⟨h, h1⟩
    · exact Or.inr (Or.inr (Or.inl ⟨h, h1⟩))

/-- C42: corners given in swapped order still compare equal, but the same rectangle given by the
other diagonal does not. -/
theorem C42_eq_diagonal : ∃ a b : BBox ℚ, (∀ q, InRect a.p1 a.p2 q ↔ InRect b.p1 b.p2 q) ∧
    a.eq (1/100000) b = false := by
  refine ⟨⟨⟨0, 0⟩, ⟨2, 1⟩⟩, ⟨⟨0, 1⟩, ⟨2, 0⟩⟩, ?_, by decide +kernel⟩
  intro q
  unfold InRect
  constructor
  · rintro ⟨h1, h2⟩; exact ⟨h1, h2.symm⟩
  · rintro ⟨h1, h2⟩; exact ⟨h1, h2.symm⟩

example : (BBox.mk (⟨3, 0⟩ : Pt ℚ) ⟨1, 5⟩).contains ⟨2, 5⟩ = true ∧
    (BBox.mk (⟨3, 0⟩ : Pt ℚ) ⟨1, 5⟩).contains ⟨2, 6⟩ = false := by decide +kernel

/-- C42: boxes are equal exactly if their corners agree up to the tolerance, in the given or in the
opposite order. -/
theorem C42_eq_iff (tol : K) (a b : BBox K) : a.eq tol b = true ↔
    (Close tol a.p1 b.p1 ∧ Close tol a.p2 b.p2) ∨ (Close tol a.p1 b.p2 ∧ Close tol a.p2 b.p1) := by
  unfold BBox.eq Close Pt.eqTol
  simp only [Bool.or_eq_true, Bool.and_eq_true, decide_eq_true_eq]
  tauto

theorem min_max_close {a b c d tol : K} (h1 : |a - c| < tol) (h2 : |b - d| < tol) :
    |min a b - min c d| < tol ∧ |max a b - max c d| < tol := by
  rw [abs_lt] at h1 h2
  constructor <;> rw [abs_lt]
  · rcases le_total a b with h | h <;> rcases le_total c d with h' | h' <;> simp only [h, h', min_eq_left, min_eq_right] <;>
      constructor <;> linarith [h1.1, h1.2, h2.1, h2.2]
  · rcases le_total a b with h | h <;> rcases le_total c d with h' | h' <;> simp only [h, h', max_eq_left, max_eq_right] <;>
      constructor <;> linarith [h1.1, h1.2, h2.1, h2.2]

/-- C42: equal boxes have the same extents up to the tolerance. -/
theorem C42_eq_extents (tol : K) (a b : BBox K) (h : a.eq tol b = true) :
    |a.xMin - b.xMin| < tol ∧ |a.xMax - b.xMax| < tol ∧ |a.yMin - b.yMin| < tol ∧ |a.yMax - b.yMax| < tol := by
  unfold BBox.xMin BBox.xMax BBox.yMin BBox.yMax
  rcases (C42_eq_iff tol a b).1 h with ⟨h1, h2⟩ | ⟨h1, h2⟩
  · have hx := min_max_close h1.1 h2.1
    have hy := min_max_close h1.2 h2.2
    exact ⟨hx.1, hx.2, hy.1, hy.2⟩
  · have hx := min_max_close h1.1 h2.1
    have hy := min_max_close h1.2 h2.2
    rw [min_comm b.p1.x, max_comm b.p1.x, min_comm b.p1.y, max_comm b.p1.y]
    exact ⟨hx.1, hx.2, hy.1, hy.2⟩

/-- C42: boxes that are the same rectangle need not be equal: given by different diagonals, they
are not, however large the rectangle. -/
theorem C42_eq_refuted (tol : K) (h : 0 < tol) : ∃ a b : BBox K,
    (∀ q, a.contains q = b.contains q) ∧ a.eq tol b = false := by
  refine ⟨⟨⟨0, 0⟩, ⟨tol, tol⟩⟩, ⟨⟨tol, 0⟩, ⟨0, tol⟩⟩, ?_, ?_⟩
  · intro q
    simp [BBox.contains, BBox.xMin, BBox.xMax, BBox.yMin, BBox.yMax, max_comm, min_comm]
  · rw [Bool.eq_false_iff]
    intro hh
    rw [C42_eq_iff] at hh
    have : ¬ |tol| < tol := not_lt.2 (le_abs_self tol)
    rcases hh with ⟨h1, h2⟩ | ⟨h1, h2⟩
    · exact this (by simpa using h1.1)
    · exact this (by simpa using h1.2)

/-- Two equal boxes with their corners exchanged. -/
example : (⟨⟨0, 0⟩, ⟨2, 1⟩⟩ : BBox ℚ).eq (1/100) ⟨⟨2, 1⟩, ⟨0, 1/200⟩⟩ = true := by decide +kernel

end Delynoi
