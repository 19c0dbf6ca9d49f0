import Verif.Proofs.Rounding
import Verif.Props.Point
import Verif.Props.Area
import Verif.Spec.Geometry
/-!
# C89 - C94: what the geometric functions compute in binary64 arithmetic

`uRnd = 2^-53`, `etaRnd = 2^-1075`, `gRnd = 1 + uRnd`.
-/
set_option linter.unusedSectionVars false
namespace Delynoi

/-! ### C89: rounding, comparison of points -/

/-- C89: `fl` is rounding to nearest: the result is a binary64 number and none is closer. -/
theorem C89_rounding_nearest (x : ℚ) : IsDouble (fl x) ∧ ∀ d, IsDouble d → |fl x - x| ≤ |d - x| :=
  ⟨fl_isDouble x, fun d hd => fl_nearest x d hd⟩

/-- C89: ties go to the even neighbour. -/
theorem C89_rounding_ties (x : ℚ) (k : Int) (h : x = ((k : ℚ) + 1 / 2) * (2 : ℚ) ^ ulpExp x) :
    fl x = (if k % 2 = 0 then (k : ℚ) else k + 1) * (2 : ℚ) ^ ulpExp x := by
  have hq : x / (2 : ℚ) ^ ulpExp x = (k : ℚ) + 1 / 2 := by
    rw [div_eq_iff (two_zpow_pos _).ne']; exact h
  have hf : ⌊(k : ℚ) + 1 / 2⌋ = k := by
    rw [Int.floor_eq_iff]; constructor <;> linarith
  unfold fl
  rw [hq, roundHE_half _ (by rw [hf]; ring), hf]
  split <;> push_cast <;> rfl

/-- Closeness of two coordinates in binary64 arithmetic implies closeness. -/
theorem close_of_fl {tol d : ℚ} (ht : IsDouble tol) (h : |fl d| < tol) : |d| < tol := by
  by_contra hc
  push Not at hc
  rw [fl_abs] at h
  exact absurd (le_fl_of_double ht hc) (not_le.2 h)

/-- C89: `==` in binary64 arithmetic is sound: points that compare equal are within the
tolerance. -/
theorem C89_eq_sound (tol : ℚ) (ht : IsDouble tol) (a b : Pt ℚ) (h : Rnd.eqTol fl tol a b = true) :
    Close tol a b := by
  simp only [Rnd.eqTol, Bool.and_eq_true, decide_eq_true_eq] at h
  exact ⟨close_of_fl ht h.1, close_of_fl ht h.2⟩

/-- C89: `==` is symmetric, and reflexive for a positive tolerance. -/
theorem C89_eq_symm_refl (tol : ℚ) (a b : Pt ℚ) :
    Rnd.eqTol fl tol a b = Rnd.eqTol fl tol b a ∧ (0 < tol → Rnd.eqTol fl tol a a = true) := by
  constructor
  · simp only [Rnd.eqTol]
    rw [show a.x - b.x = -(b.x - a.x) by ring, show a.y - b.y = -(b.y - a.y) by ring, fl_neg, fl_neg,
      abs_neg, abs_neg]
  · intro h; simp [Rnd.eqTol, fl_zero, h]

/-- C89: `<` is asymmetric and excludes `==`. -/
theorem C89_lt_asymm (tol : ℚ) (a b : Pt ℚ) (h : Rnd.ltTol fl tol a b = true) :
    Rnd.ltTol fl tol b a = false ∧ Rnd.eqTol fl tol a b = false := by
  have hx : |fl (b.x - a.x)| = |fl (a.x - b.x)| := by
    rw [show b.x - a.x = -(a.x - b.x) by ring, fl_neg, abs_neg]
  have hy : |fl (b.y - a.y)| = |fl (a.y - b.y)| := by
    rw [show b.y - a.y = -(a.y - b.y) by ring, fl_neg, abs_neg]
  unfold Rnd.ltTol Rnd.eqTol at *
  rw [hx, hy]
  by_cases h1 : |fl (a.x - b.x)| < tol
  · rw [if_pos h1] at h ⊢
    by_cases h2 : |fl (a.y - b.y)| < tol
    · rw [if_pos h2] at h; cases h
    · rw [if_neg h2] at h ⊢
      exact ⟨decide_eq_false (not_lt.2 (of_decide_eq_true h).le), by simp [h2]⟩
  · rw [if_neg h1] at h ⊢
    exact ⟨decide_eq_false (not_lt.2 (of_decide_eq_true h).le), by simp [h1]⟩

theorem sharp_iff {tol x y : ℚ} (ht : IsDouble tol) (h : Sharp tol x y) : |fl (x - y)| < tol ↔ |x - y| < tol := by
  rcases h with h | h
  · rw [fl_of_double h]
  · constructor
    · exact close_of_fl ht
    · intro h2; exact absurd h (not_le.2 h2)

/-- C89: coordinates that are both at least the tolerance in size are sharp (their difference, if
smaller than the tolerance, is exact); so are equal coordinates. -/
theorem C89_sharp (tol x y : ℚ) (hx : IsDouble x) (hy : IsDouble y)
    (h : x = y ∨ tol ≤ |x| ∧ tol ≤ |y|) : Sharp tol x y := by
  rcases h with h | ⟨h1, h2⟩
  · left; rw [h, sub_self]; exact isDouble_zero
  · rcases lt_or_ge |x - y| tol with hc | hc
    · exact Or.inl (isDouble_sub hx hy (hc.le.trans h1) (hc.le.trans h2))
    · exact Or.inr hc

/-- C89: on points with sharp coordinates, `==` and `<` in binary64 arithmetic are exactly the
comparisons of the exact model. -/
theorem C89_agrees_partial (tol : ℚ) (ht : IsDouble tol) (a b : Pt ℚ) (hx : Sharp tol a.x b.x)
    (hy : Sharp tol a.y b.y) :
    Rnd.eqTol fl tol a b = a.eqTol tol b ∧ Rnd.ltTol fl tol a b = a.ltTol tol b := by
  have h1 := sharp_iff ht hx
  have h2 := sharp_iff ht hy
  constructor
  · rw [Bool.eq_iff_iff]
    simp only [Rnd.eqTol, Pt.eqTol, Bool.and_eq_true, decide_eq_true_eq]
    rw [h1, h2]
  · unfold Rnd.ltTol Pt.ltTol
    by_cases c1 : |a.x - b.x| < tol
    · rw [if_pos (h1.2 c1), if_pos c1]
      by_cases c2 : |a.y - b.y| < tol
      · rw [if_pos (h2.2 c2), if_pos c2]
      · rw [if_neg (fun h => c2 (h2.1 h)), if_neg c2]
    · rw [if_neg (fun h => c1 (h1.1 h)), if_neg c1]

/-- C89: without sharpness the two differ: two binary64 points within the tolerance of each other
need not compare equal. -/
theorem C89_agrees_refuted : ∃ (tol : ℚ) (a b : Pt ℚ), IsDouble tol ∧ 0 < tol ∧
    IsDouble a.x ∧ IsDouble a.y ∧ IsDouble b.x ∧ IsDouble b.y ∧ Close tol a b ∧
    Rnd.eqTol fl tol a b = false := by
  refine ⟨1 / 2 ^ 10, ⟨1 / 2 ^ 10, 0⟩, ⟨1 / 2 ^ 80, 0⟩, ⟨1, -10, by norm_num, by norm_num, by norm_num⟩,
    by norm_num, ⟨1, -10, by norm_num, by norm_num, by norm_num⟩, isDouble_zero,
    ⟨1, -80, by norm_num, by norm_num, by norm_num⟩, isDouble_zero, ?_, by decide +kernel⟩
  unfold Close
  constructor <;> norm_num [abs_lt]

/-- C89: a unique list of points that lives on binary64 arithmetic goes, under any history of
operations on sharp points, through the same states as in the exact model. -/
theorem C89_uniqueList_partial (tol : ℚ) (ht : IsDouble tol) (S : Set (Pt ℚ))
    (hS : ∀ a ∈ S, ∀ b ∈ S, Sharp tol a.x b.x ∧ Sharp tol a.y b.y) (ops : List (UList.Op (Pt ℚ)))
    (hops : ∀ op ∈ ops, ∀ x ∈ opElems op, x ∈ S) :
    UList.run (Rnd.ltTol fl tol) ops = UList.run (fun a b => a.ltTol tol b) ops :=
  run_congr (S := S)
    (fun a ha b hb => (C89_agrees_partial tol ht a b (hS a ha b hb).1 (hS a ha b hb).2).2) ops hops

-- integer points up to 2^53 and a power of two as tolerance
example : Sharp (1 / 2 ^ 17) 1000 1000 ∧ Sharp (1 / 2 ^ 17) 3 4 ∧ IsDouble (1 / 2 ^ 17) :=
  ⟨Or.inl (by norm_num; exact isDouble_zero), Or.inr (by norm_num),
    ⟨1, -17, by norm_num, by norm_num, by norm_num⟩⟩

-- the tolerance of the library, 0.00001, as the compiler rounds it
example : IsDouble (fl (1 / 100000)) ∧ fl (1 / 100000) ≠ 1 / 100000 ∧
    Rnd.eqTol fl (fl (1 / 100000)) ⟨fl (1 / 10), 2⟩ ⟨fl (1 / 10 + 1 / 1000000), 2⟩ = true :=
  ⟨fl_isDouble _, by decide +kernel, by decide +kernel⟩

/-! ### C90: orientation -/

theorem orientation_apx (a b c : Pt ℚ) (ha : DPt a) (hb : DPt b) (hc : DPt c) :
    Apx 4 (gRnd * (2 * etaRnd)) (Rnd.orientation fl a b c) (turn a b c) (turnSize a b c) := by
  have h1 := apx_mul (apx_sub hb.1 ha.1) (apx_sub hc.2 ha.2)
  have h2 := apx_mul (apx_sub hb.2 ha.2) (apx_sub hc.1 ha.1)
  rw [← abs_mul] at h1 h2
  have h3 := (h1.sub h2).flRel (fl_sub_error (fl_isDouble _) (fl_isDouble _))
  rw [← two_mul etaRnd] at h3
  exact h3

/-- C90: error of `orientation` in binary64 arithmetic. -/
theorem C90_error (a b c : Pt ℚ) (ha : DPt a) (hb : DPt b) (hc : DPt c) :
    |Rnd.orientation fl a b c - turn a b c| ≤ (gRnd ^ 4 - 1) * turnSize a b c + gRnd * (2 * etaRnd) :=
  (orientation_apx a b c ha hb hc).err

/-- C90: the sign of `orientation` is right whenever the exact value exceeds that error. -/
theorem C90_sign_partial (a b c : Pt ℚ) (ha : DPt a) (hb : DPt b) (hc : DPt c)
    (h : (gRnd ^ 4 - 1) * turnSize a b c + gRnd * (2 * etaRnd) < |turn a b c|) :
    (0 < Rnd.orientation fl a b c ↔ 0 < turn a b c) ∧ (Rnd.orientation fl a b c < 0 ↔ turn a b c < 0) :=
  ⟨(orientation_apx a b c ha hb hc).pos_iff h, (orientation_apx a b c ha hb hc).neg_iff h⟩

/-- C90: if the coordinate differences are binary64 numbers, the computed sign is never the
opposite one; the only failure is a zero. -/
theorem C90_never_opposite_partial (a b c : Pt ℚ) (h1 : IsDouble (b.x - a.x)) (h2 : IsDouble (b.y - a.y))
    (h3 : IsDouble (c.x - a.x)) (h4 : IsDouble (c.y - a.y)) :
    (0 ≤ turn a b c → 0 ≤ Rnd.orientation fl a b c) ∧ (turn a b c ≤ 0 → Rnd.orientation fl a b c ≤ 0) := by
  unfold Rnd.orientation Rnd.crossProduct Rnd.sub turn
  simp only
  rw [fl_of_double h1, fl_of_double h2, fl_of_double h3, fl_of_double h4]
  constructor
  · intro h
    exact fl_nonneg (sub_nonneg.2 (fl_mono (sub_nonneg.1 h)))
  · intro h
    exact fl_nonpos (sub_nonpos.2 (fl_mono (sub_nonpos.1 h)))

/-- C90: in general the sign can be lost (here with integer coordinates below `2^29`) ... -/
theorem C90_zero_refuted : Rnd.orientation fl ⟨0, 0⟩ ⟨165580141, 267914296⟩ ⟨267914296, 433494437⟩ = 0 ∧
    0 < turn (⟨0, 0⟩ : Pt ℚ) ⟨165580141, 267914296⟩ ⟨267914296, 433494437⟩ := by decide +kernel

/-- ... or even be the opposite one. -/
theorem C90_opposite_refuted : ∃ a b c : Pt ℚ, DPt a ∧ DPt b ∧ DPt c ∧
    0 < Rnd.orientation fl a b c ∧ turn a b c < 0 := by
  refine ⟨⟨fl (6000000000000001 / 10000000000000000), fl (6000000000000001 / 10000000000000000)⟩,
    ⟨fl 9, fl (57 / 10)⟩, ⟨fl (62 / 10), fl 4⟩, ⟨fl_isDouble _, fl_isDouble _⟩,
    ⟨fl_isDouble _, fl_isDouble _⟩, ⟨fl_isDouble _, fl_isDouble _⟩, ?_, ?_⟩ <;> decide +kernel

/-- C90: `collinear` decides as in exact arithmetic unless the doubled area is within the error of
the tolerance. -/
theorem C90_collinear_partial (tol : ℚ) (a b c : Pt ℚ) (ha : DPt a) (hb : DPt b) (hc : DPt c)
    (h : (gRnd ^ 4 - 1) * turnSize a b c + gRnd * (2 * etaRnd) < abs (|turn a b c| - tol)) :
    Rnd.collinear fl tol a b c = collinear tol a b c := by
  have he := C90_error a b c ha hb hc
  have h1 : abs (|Rnd.orientation fl a b c| - |turn a b c|) < abs (|turn a b c| - tol) :=
    (abs_abs_sub_abs_le _ _).trans_lt (he.trans_lt h)
  rw [Bool.eq_iff_iff]
  have e1 : Rnd.collinear fl tol a b c = true ↔ |Rnd.orientation fl a b c| < tol := decide_eq_true_iff
  have e2 : collinear tol a b c = true ↔ |turn a b c| < tol := decide_eq_true_iff
  rw [e1, e2]
  rw [abs_lt] at h1
  rcases le_total |turn a b c| tol with h2 | h2
  · rw [abs_of_nonpos (by linarith)] at h1
    rcases h2.lt_or_eq with h3 | h3
    · exact ⟨fun _ => h3, fun _ => by linarith⟩
    · rw [h3] at h1; linarith
  · rw [abs_of_nonneg (by linarith)] at h1
    constructor <;> intro _ <;> linarith

example : DPt ⟨3, 1 / 4⟩ := ⟨⟨3, 0, by norm_num, by norm_num, by norm_num⟩, ⟨1, -2, by norm_num, by norm_num, by norm_num⟩⟩

/-- A triangle with integer vertices that is far from flat meets the hypothesis of `C90_sign`. -/
example : (gRnd ^ 4 - 1) * turnSize ⟨0, 0⟩ ⟨1000, 1⟩ ⟨5, 700⟩ + gRnd * (2 * etaRnd) <
    |turn (⟨0, 0⟩ : Pt ℚ) ⟨1000, 1⟩ ⟨5, 700⟩| := by
  decide +kernel

end Delynoi
