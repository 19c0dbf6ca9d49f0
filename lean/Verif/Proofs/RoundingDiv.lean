import Verif.Proofs.Rounding
/-!
# Rounding errors of quotients and of the crossing test
-/
set_option linter.unusedSectionVars false
namespace Delynoi

/-- `1 / (1 - u) ≤ (1 + u)^2`. -/
theorem gRnd_inv : 1 / (1 - uRnd) ≤ gRnd ^ 2 := by
  have hu := uRnd_pos
  have h1 : uRnd < 1 / 2 := by unfold uRnd; norm_num
  rw [div_le_iff₀ (by linarith)]
  unfold gRnd
  nlinarith [mul_pos hu hu, mul_pos (mul_pos hu hu) hu]

/-- Dividing by a number with a relative error of one rounding. -/
theorem Apx.div {k : Nat} {x' x s y' y : ℚ} (h : Apx k 0 x' x s) (hy : y ≠ 0) (g : |y' - y| ≤ uRnd * |y|) :
    Apx (k + 2) 0 (x' / y') (x / y) (s / |y|) := by
  have hu := uRnd_pos
  have hu1 : uRnd < 1 / 2 := by unfold uRnd; norm_num
  have hya : 0 < |y| := abs_pos.2 hy
  have hs := h.nonneg
  -- the relative error of the divisor
  obtain ⟨δ, hδ, rfl⟩ : ∃ δ, |δ| ≤ uRnd ∧ y' = y * (1 + δ) := by
    refine ⟨(y' - y) / y, ?_, by field_simp; ring⟩
    rw [abs_div, div_le_iff₀ hya]; exact g
  obtain ⟨d1, d2⟩ := abs_le.1 hδ
  have hpos : 0 < 1 + δ := by linarith
  have hinv : |1 / (1 + δ) - 1| ≤ gRnd ^ 2 - 1 := by
    have hg := gRnd_inv
    rw [abs_le]
    constructor
    · have h1 : 1 / (1 + uRnd) ≤ 1 / (1 + δ) := one_div_le_one_div_of_le hpos (by linarith)
      have h2 : 2 - gRnd ^ 2 ≤ 1 / (1 + uRnd) := by
        rw [le_div_iff₀ (by linarith)]
        unfold gRnd; nlinarith [mul_pos hu hu, mul_pos (mul_pos hu hu) hu]
      linarith
    · have h1 : 1 / (1 + δ) ≤ 1 / (1 - uRnd) := one_div_le_one_div_of_le (by linarith) (by linarith)
      linarith
  have e1 : x' / (y * (1 + δ)) = x' / y * (1 / (1 + δ)) := by field_simp
  rw [e1]
  have a1 : Apx k 0 (x' / y) (x / y) (s / |y|) := by
    refine ⟨by rw [abs_div]; exact div_le_div_of_nonneg_right h.size hya.le, ?_⟩
    rw [← sub_div, abs_div, add_zero]
    have := h.err
    rw [add_zero] at this
    rw [← mul_div_assoc]
    exact div_le_div_of_nonneg_right this hya.le
  have a2 : Apx 2 0 (1 / (1 + δ)) 1 1 := ⟨by simp, by rw [mul_one, add_zero]; exact hinv⟩
  have := a1.mul a2
  rwa [mul_one, mul_one] at this

/-- Multiplying when one factor has an absolute error. -/
theorem Apx.mul_abs {k j : Nat} {c x' x s y' y t : ℚ} (h : Apx k c x' x s) (g : Apx j 0 y' y t) :
    Apx (k + j) (c * (gRnd ^ j * t)) (x' * y') (x * y) (s * t) := by
  have hs := h.nonneg
  have ht := g.nonneg
  refine ⟨by rw [abs_mul]; exact mul_le_mul h.size g.size (abs_nonneg _) hs, ?_⟩
  rw [show x' * y' - x * y = (x' - x) * y' + x * (y' - y) by ring]
  refine (abs_add_le _ _).trans ?_
  rw [abs_mul, abs_mul]
  have h1 := h.err; have h2 := g.err; have h3 := g.size'; have h4 := h.size
  rw [add_zero] at h2 h3
  have a : |x' - x| * |y'| ≤ ((gRnd ^ k - 1) * s + c) * (gRnd ^ j * t) :=
    mul_le_mul h1 h3 (abs_nonneg _) ((abs_nonneg _).trans h1)
  have b : |x| * |y' - y| ≤ s * ((gRnd ^ j - 1) * t) := mul_le_mul h4 h2 (abs_nonneg _) hs
  have e : (gRnd ^ (k + j) - 1) * (s * t) + c * (gRnd ^ j * t) =
      ((gRnd ^ k - 1) * s + c) * (gRnd ^ j * t) + s * ((gRnd ^ j - 1) * t) := by rw [pow_add]; ring
  rw [e]; exact add_le_add a b

/-- Bounding the size. -/
theorem Apx.wider {k : Nat} {c x' x s t : ℚ} (h : Apx k c x' x s) (hst : s ≤ t) : Apx k c x' x t := by
  refine ⟨h.size.trans hst, h.err.trans ?_⟩
  have := mul_le_mul_of_nonneg_left hst (sub_nonneg.2 (gRnd_pow_ge k))
  linarith

/-- The computed crossing coordinate of the point-in-polygon test. -/
theorem crossX_apx (a b q : Pt ℚ) (ha : DPt a) (hb : DPt b) (hq : DPt q) (hne : b.y - a.y ≠ 0)
    (ht : |(q.y - a.y) / (b.y - a.y)| ≤ 1) :
    Apx 7 (gRnd * (gRnd * (etaRnd * (gRnd * |b.x - a.x|)) + etaRnd))
      (fl (a.x + fl (fl (fl (q.y - a.y) / fl (b.y - a.y)) * fl (b.x - a.x))))
      (a.x + (q.y - a.y) / (b.y - a.y) * (b.x - a.x)) (|a.x| + |b.x - a.x|) := by
  have hd := fl_sub_error hb.2 ha.2
  have h1 := (apx_sub hq.2 ha.2).div hne hd
  rw [← abs_div] at h1
  have h2 := (h1.wider ht).fl
  rw [mul_zero, zero_add] at h2
  have h3 := (h2.mul_abs (apx_sub hb.1 ha.1)).fl
  rw [one_mul, pow_one] at h3
  have h4 : Apx 6 0 a.x a.x |a.x| := (Apx.exact a.x).mono (by omega) le_rfl
  have h5 := (h4.add h3).flRel (fl_add_error ha.1 (fl_isDouble _))
  rw [zero_add] at h5
  exact h5

end Delynoi
