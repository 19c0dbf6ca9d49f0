import Verif.Proofs.ExactSign
/-!
# The stages of `counterclockwise`
-/
set_option linter.unusedSectionVars false
namespace Delynoi.Ex

/-- Put in the value of the unit roundoff. -/
macro "num_u" : tactic => `(tactic| (have hu := uRnd_eq; generalize uRnd = u at *; subst hu))

theorem abs_sub_le' (a b : ℚ) : |a - b| ≤ |a| + |b| := by
  rw [sub_eq_add_neg]; exact (abs_add_le a (-b)).trans (by rw [abs_neg])

theorem low {e : Int} {x : ℚ} (h : MultOf e x) (he : -1074 ≤ e := by norm_num) : MultOf (-1074) x := h.mono he

/-- A product of differences. -/
theorem mult440 {a b : ℚ} (ha : MultOf (-440) a) (hb : MultOf (-440) b) : MultOf (-880) (a * b) := by
  have := ha.mul hb
  norm_num at this; exact this

/-- The expansion `B` after cancellation. -/
theorem B_parts {acx bcy acy bcx L R : ℚ} (d1 : IsDouble acx) (d2 : IsDouble bcy) (d3 : IsDouble acy) (d4 : IsDouble bcx)
    (m1 : MultOf (-440) acx) (m2 : MultOf (-440) bcy) (m3 : MultOf (-440) acy) (m4 : MultOf (-440) bcx)
    (hL : L = fl (acx * bcy)) (hR : R = fl (acy * bcx)) (hS : 0 < |L| + |R|)
    (hLR : |L - R| ≤ 4 * uRnd * (|L| + |R|)) :
    ∃ x0 x1 x3, crossExpansion spl acx bcy acy bcx = [x0, x1, 0, x3] ∧
      (MultOf (-880) x0 ∧ MultOf (-880) x1 ∧ MultOf (-880) x3) ∧ (IsDouble x0 ∧ IsDouble x1 ∧ IsDouble x3) ∧
      x0 + x1 + x3 = acx * bcy - acy * bcx ∧ |x0| ≤ uRnd * (uRnd * (|L| + |R|)) ∧
      |x1| ≤ uRnd * (51 / 100 * (|L| + |R|)) ∧
      (x3 ≠ 0 → (|x1| ≤ |x3| / 2 ∨ 0 < x1 * x3) ∧ |x0| ≤ |x3| / 8) := by
  have pm1 := mult440 m1 m2
  have pm2 := mult440 m3 m4
  have t1 : (twoProduct spl acx bcy).2 = acx * bcy - L := by
    rw [hL]; exact twoProduct_exact d1 d2 m1 m2 (by norm_num) (by norm_num) (by norm_num)
  have t2 : (twoProduct spl acy bcx).2 = acy * bcx - R := by
    rw [hR]; exact twoProduct_exact d3 d4 m3 m4 (by norm_num) (by norm_num) (by norm_num)
  have mL : MultOf (-880) L := hL ▸ pm1.fl
  have mR : MultOf (-880) R := hR ▸ pm2.fl
  have dL : IsDouble L := hL ▸ fl_isDouble _
  have dR : IsDouble R := hR ▸ fl_isDouble _
  have r1 : |acx * bcy - L| ≤ uRnd * |L| := by
    rw [abs_sub_comm, hL]; exact (low pm1).rel.2
  have r2 : |acy * bcx - R| ≤ uRnd * |R| := by
    rw [abs_sub_comm, hR]; exact (low pm2).rel.2
  have dl0 : IsDouble (acx * bcy - L) := by rw [← t1]; exact fl_isDouble _
  have dr0 : IsDouble (acy * bcx - R) := by rw [← t2]; exact fl_isDouble _
  have ml0 : MultOf (-880) (acx * bcy - L) := pm1.sub mL
  have mr0 : MultOf (-880) (acy * bcx - R) := pm2.sub mR
  obtain ⟨i1, x0, j, o, i, x1, x3, x2, hl, h⟩ := twoTwoDiff_parts dL dl0 dR dr0
  have hB : crossExpansion spl acx bcy acy bcx = [x0, x1, x2, x3] := by
    unfold crossExpansion
    dsimp only
    rw [t1, t2, ← hl, hL, hR]; rfl
  have hsum := h.sum
  generalize acx * bcy = p at *
  generalize acy * bcx = q at *
  generalize hSd : |L| + |R| = S at *
  have aL := abs_nonneg L
  have aR := abs_nonneg R
  -- the parts one by one
  have mi1 : MultOf (-880) i1 := by rw [h.e_i1]; exact (ml0.sub mr0).fl
  have di1 : IsDouble i1 := by rw [h.e_i1]; exact fl_isDouble _
  have b0 : |p - L - (q - R)| ≤ uRnd * S := by
    refine (abs_sub_le' _ _).trans ?_
    rw [← hSd]; linarith
  have bx0 : |x0| ≤ uRnd * (uRnd * S) := by
    have := (low (ml0.sub mr0)).rel.1
    rw [h.e_x0, h.e_i1, abs_sub_comm]
    exact this.trans (mul_le_mul_of_nonneg_left b0 uRnd_pos.le)
  have bi1 : |i1| ≤ 2 * uRnd * S := by
    have e1 : i1 = (p - L - (q - R)) - x0 := by rw [h.e_x0]; ring
    rw [e1]
    refine (abs_sub_le' _ _).trans ?_
    num_u; linarith
  have mj : MultOf (-880) j := by rw [h.e_j]; exact (mL.add mi1).fl
  have dj : IsDouble j := by rw [h.e_j]; exact fl_isDouble _
  have bo : |o| ≤ uRnd * (|L| + |i1|) := by
    have := (low (mL.add mi1)).rel.1
    rw [h.e_o, h.e_j, abs_sub_comm]
    exact this.trans (mul_le_mul_of_nonneg_left (abs_add_le _ _) uRnd_pos.le)
  have mo : MultOf (-880) o := by rw [h.e_o]; exact (mL.add mi1).sub mj
  have moR := mo.sub mR
  have di : IsDouble i := by rw [h.e_i]; exact fl_isDouble _
  have mi : MultOf (-880) i := by rw [h.e_i]; exact moR.fl
  have bx1 : |x1| ≤ uRnd * (|o| + |R|) := by
    have := (low moR).rel.1
    rw [h.e_x1, h.e_i, abs_sub_comm]
    exact this.trans (mul_le_mul_of_nonneg_left (abs_sub_le' _ _) uRnd_pos.le)
  -- the two large parts are close
  obtain ⟨l1, l2⟩ := abs_le.1 hLR
  have cL : |L| ≤ 1001 / 2000 * S ∧ |R| ≤ 1001 / 2000 * S ∧ 999 / 2000 * S ≤ |R| := by
    have := abs_sub_abs_le_abs_sub L R
    have := abs_sub_abs_le_abs_sub R L
    rw [abs_sub_comm R L] at this
    num_u
    refine ⟨?_, ?_, ?_⟩ <;> linarith
  obtain ⟨cL, cR, cR'⟩ := cL
  have ej : j + i = (L - R) + i1 - x1 := by
    have e1 := h.e_o; have e2 := h.e_x1
    linarith
  have bji : |j + i| ≤ 10 * uRnd * S := by
    rw [ej]
    refine (abs_sub_le' _ _).trans ?_
    have := abs_add_le (L - R) i1
    num_u; linarith
  have bi : 49 / 100 * S ≤ |i| := by
    have e1 : R = o - x1 - i := by rw [h.e_x1]; ring
    have := abs_sub_le' (o - x1) i
    have := abs_sub_le' o x1
    rw [← e1] at *
    num_u; linarith
  have bj : 48 / 100 * S ≤ |j| := by
    have := abs_sub_abs_le_abs_sub i (j + i)
    have e2 : |i - (j + i)| = |j| := by rw [show i - (j + i) = -j by ring, abs_neg]
    rw [e2] at this
    num_u; linarith
  have dji : IsDouble (j + i) := by
    have := isDouble_sub dj di.neg (by rw [sub_neg_eq_add]; num_u; linarith)
      (by rw [sub_neg_eq_add, abs_neg]; num_u; linarith)
    rwa [sub_neg_eq_add] at this
  have e3 : x3 = j + i := by rw [h.e_x3, fl_of_double dji]
  have e2 : x2 = 0 := by rw [h.e_x2, e3, sub_self]
  subst e2
  refine ⟨x0, x1, x3, hB, ⟨?_, ?_, ?_⟩, ⟨?_, ?_, ?_⟩, by linarith, bx0, ?_, ?_⟩
  · rw [h.e_x0]; exact (ml0.sub mr0).sub mi1
  · rw [h.e_x1]; exact moR.sub mi
  · rw [e3]; exact mj.add mi
  · have := isDouble_sub_err dl0 dr0
    rwa [← h.e_i1, ← h.e_x0] at this
  · have do' : IsDouble o := by
      have := isDouble_add_err dL di1
      rwa [← h.e_j, ← h.e_o] at this
    have := isDouble_sub_err do' dR
    rwa [← h.e_i, ← h.e_x1] at this
  · rw [e3]; exact dji
  · refine bx1.trans (mul_le_mul_of_nonneg_left ?_ uRnd_pos.le)
    num_u; linarith
  · intro h0
    have := cancel_grid (moR.mono (by norm_num)) dj (x3 := x3) (by rw [e3, h.e_i]) h0
      (by rw [← h.e_i, e3]; num_u; linarith)
    rw [← h.e_i, ← h.e_x1] at this
    refine ⟨this.1, ?_⟩
    have h54 := this.2
    rw [show (2 : ℚ) ^ 54 = 18014398509481984 by norm_num] at h54
    num_u; linarith

theorem estimate_B (x0 x1 x3 : ℚ) : estimate [x0, x1, 0, x3] = some (fl (fl (x0 + x1) + x3)) := by
  have : fl (fl (x0 + x1) + 0) = fl (x0 + x1) := by rw [add_zero]; exact fl_of_double (fl_isDouble _)
  simp [estimate, fl_of_double (fl_isDouble _)]

/-- The error of the estimate. -/
theorem estimate_err {x0 x1 x3 : ℚ} (m0 : MultOf (-880) x0) (m1 : MultOf (-880) x1) (m3 : MultOf (-880) x3) :
    |fl (fl (x0 + x1) + x3) - (x0 + x1 + x3)| ≤ uRnd * |fl (fl (x0 + x1) + x3)| + uRnd * (|x0| + |x1|) := by
  have h1 := (low ((m0.add m1).fl.add m3)).rel.2
  have h2 := (low (m0.add m1)).rel.1
  have h3 := mul_le_mul_of_nonneg_left (abs_add_le x0 x1) uRnd_pos.le
  calc |fl (fl (x0 + x1) + x3) - (x0 + x1 + x3)|
      = |(fl (fl (x0 + x1) + x3) - (fl (x0 + x1) + x3)) + (fl (x0 + x1) - (x0 + x1))| := by ring_nf
    _ ≤ _ := (abs_add_le _ _).trans (by linarith)

/-- The estimate has the sign of the sum. -/
theorem estimate_sign {x0 x1 x3 : ℚ} (m0 : MultOf (-880) x0) (m1 : MultOf (-880) x1) (m3 : MultOf (-880) x3)
    (d3 : IsDouble x3) (h : x3 ≠ 0 → (|x1| ≤ |x3| / 2 ∨ 0 < x1 * x3) ∧ |x0| ≤ |x3| / 8) :
    SameSign (fl (fl (x0 + x1) + x3)) (x0 + x1 + x3) := by
  have s1 := (low ((m0.add m1).fl.add m3)).sign
  refine s1.trans ?_
  by_cases h3 : x3 = 0
  · subst h3
    rw [add_zero, add_zero]
    exact (low (m0.add m1)).sign
  obtain ⟨h1, h0⟩ := h h3
  have hr := (low (m0.add m1)).rel.1
  have hp := abs_pos.2 h3
  have ha := abs_add_le x0 x1
  rw [uRnd_eq] at hr
  rcases h1 with h1 | h1
  · -- both have the sign of `x3`
    have a1 : SameSign (fl (x0 + x1) + x3) x3 := by
      apply sameSign_of_close
      rw [add_sub_cancel_right]
      have := abs_sub_abs_le_abs_sub (fl (x0 + x1)) (x0 + x1)
      linarith
    have a2 : SameSign (x0 + x1 + x3) x3 := by
      apply sameSign_of_close
      rw [add_sub_cancel_right]; linarith
    exact a1.trans a2.symm
  · by_cases h1' : |x1| ≤ |x3| / 2
    · have a1 : SameSign (fl (x0 + x1) + x3) x3 := by
        apply sameSign_of_close
        rw [add_sub_cancel_right]
        have := abs_sub_abs_le_abs_sub (fl (x0 + x1)) (x0 + x1)
        linarith
      have a2 : SameSign (x0 + x1 + x3) x3 := by
        apply sameSign_of_close
        rw [add_sub_cancel_right]; linarith
      exact a1.trans a2.symm
    · push Not at h1'
      obtain ⟨hr1, hr2⟩ := abs_le.1 (low (m0.add m1)).rel.1
      obtain ⟨h01, h02⟩ := abs_le.1 h0
      rcases pos_and_pos_or_neg_and_neg_of_mul_pos h1 with ⟨p1, p3⟩ | ⟨p1, p3⟩
      · rw [abs_of_pos p3] at *
        rw [abs_of_pos p1] at h1'
        have q1 : 0 ≤ fl (x0 + x1) := fl_nonneg (by linarith)
        constructor <;> constructor <;> intro <;> linarith
      · rw [abs_of_neg p3] at *
        rw [abs_of_neg p1] at h1'
        have q1 : fl (x0 + x1) ≤ 0 := fl_nonpos (by linarith)
        constructor <;> constructor <;> intro <;> linarith

/-- Stage A: the determinant against its rounded products. -/
theorem stageA_err {X1 Y2 Y1 X2 acx bcy acy bcx L R : ℚ} (h1 : |X1 - acx| ≤ uRnd * |acx|)
    (h2 : |Y2 - bcy| ≤ uRnd * |bcy|) (h3 : |Y1 - acy| ≤ uRnd * |acy|) (h4 : |X2 - bcx| ≤ uRnd * |bcx|)
    (hL : |acx * bcy - L| ≤ uRnd * |L|) (hR : |acy * bcx - R| ≤ uRnd * |R|) :
    |X1 * Y2 - Y1 * X2 - (L - R)| ≤ (3 * uRnd + 4 * uRnd ^ 2) * (|L| + |R|) := by
  have e1 := mul_close h1 h2
  have e2 := mul_close h3 h4
  have g1 : |acx * bcy| ≤ (1 + uRnd) * |L| := by
    have := abs_sub_abs_le_abs_sub (acx * bcy) L; linarith
  have g2 : |acy * bcx| ≤ (1 + uRnd) * |R| := by
    have := abs_sub_abs_le_abs_sub (acy * bcx) R; linarith
  have k : ∀ a b c d : ℚ, |a - b - (c - d)| ≤ |a - c| + |b - d| := by
    intro a b c d
    rw [show a - b - (c - d) = (a - c) - (b - d) by ring]; exact abs_sub_le' _ _
  have f1 := k (X1 * Y2) (Y1 * X2) L R
  have f2 : |X1 * Y2 - L| ≤ |X1 * Y2 - acx * bcy| + |acx * bcy - L| := abs_sub_le _ _ _
  have f3 : |Y1 * X2 - R| ≤ |Y1 * X2 - acy * bcx| + |acy * bcx - R| := abs_sub_le _ _ _
  have := abs_nonneg L
  have := abs_nonneg R
  num_u
  linarith

/-- The determinant against the exact difference of the products. -/
theorem stageB_err {X1 Y2 Y1 X2 acx bcy acy bcx L R : ℚ} (h1 : |X1 - acx| ≤ uRnd * |acx|)
    (h2 : |Y2 - bcy| ≤ uRnd * |bcy|) (h3 : |Y1 - acy| ≤ uRnd * |acy|) (h4 : |X2 - bcx| ≤ uRnd * |bcx|)
    (hL : |acx * bcy - L| ≤ uRnd * |L|) (hR : |acy * bcx - R| ≤ uRnd * |R|) :
    |X1 * Y2 - Y1 * X2 - (acx * bcy - acy * bcx)| ≤ (2 * uRnd + 4 * uRnd ^ 2) * (|L| + |R|) := by
  have e1 := mul_close h1 h2
  have e2 := mul_close h3 h4
  have g1 : |acx * bcy| ≤ (1 + uRnd) * |L| := by
    have := abs_sub_abs_le_abs_sub (acx * bcy) L; linarith
  have g2 : |acy * bcx| ≤ (1 + uRnd) * |R| := by
    have := abs_sub_abs_le_abs_sub (acy * bcx) R; linarith
  have f1 : |X1 * Y2 - Y1 * X2 - (acx * bcy - acy * bcx)| ≤ |X1 * Y2 - acx * bcy| + |Y1 * X2 - acy * bcx| := by
    rw [show X1 * Y2 - Y1 * X2 - (acx * bcy - acy * bcx) = (X1 * Y2 - acx * bcy) - (Y1 * X2 - acy * bcx) by ring]
    exact abs_sub_le' _ _
  have := abs_nonneg L
  have := abs_nonneg R
  num_u
  linarith

/-- The first-order correction of stage C. -/
def corr (acx bcy acy bcx acxt bcyt acyt bcxt : ℚ) : ℚ :=
  fl (fl (fl (acx * bcyt) + fl (bcy * acxt)) - fl (fl (acy * bcxt) + fl (bcx * acyt)))

theorem pair_err {a b c d w : ℚ} (hab : MultOf (-880) (a * b)) (hcd : MultOf (-880) (c * d))
    (h1 : |a * b| ≤ uRnd * w) (h2 : |c * d| ≤ uRnd * w) (hw : 0 ≤ w) :
    |fl (fl (a * b) + fl (c * d)) - (a * b + c * d)| ≤ (4 * uRnd ^ 2 + 4 * uRnd ^ 3) * w ∧
    |fl (fl (a * b) + fl (c * d))| ≤ (2 * uRnd + 8 * uRnd ^ 2) * w ∧ MultOf (-880) (fl (fl (a * b) + fl (c * d))) := by
  have r1 := (low hab).rel.1
  have r2 := (low hcd).rel.1
  have r3 := (low (hab.fl.add hcd.fl)).rel.1
  generalize a * b = p at *
  generalize c * d = q at *
  have t1 := abs_add_le (fl p) (fl q)
  have t2 := abs_sub_abs_le_abs_sub (fl p) p
  have t3 := abs_sub_abs_le_abs_sub (fl q) q
  have t4 : |fl (fl p + fl q) - (p + q)| ≤ |fl (fl p + fl q) - (fl p + fl q)| + (|fl p - p| + |fl q - q|) := by
    have : fl (fl p + fl q) - (p + q) = (fl (fl p + fl q) - (fl p + fl q)) + ((fl p - p) + (fl q - q)) := by ring
    rw [this]
    refine (abs_add_le _ _).trans ?_
    have := abs_add_le (fl p - p) (fl q - q)
    linarith
  have t5 := abs_sub_abs_le_abs_sub (fl (fl p + fl q)) (fl p + fl q)
  refine ⟨?_, ?_, (hab.fl.add hcd.fl).fl⟩
  · num_u; linarith
  · num_u; linarith

theorem corr_err {acx bcy acy bcx acxt bcyt acyt bcxt l r : ℚ}
    (m1 : MultOf (-880) (acx * bcyt)) (m2 : MultOf (-880) (bcy * acxt)) (m3 : MultOf (-880) (acy * bcxt))
    (m4 : MultOf (-880) (bcx * acyt))
    (h1 : |acx * bcyt| ≤ uRnd * l) (h2 : |bcy * acxt| ≤ uRnd * l) (h3 : |acy * bcxt| ≤ uRnd * r)
    (h4 : |bcx * acyt| ≤ uRnd * r) (hl : 0 ≤ l) (hr : 0 ≤ r) :
    |corr acx bcy acy bcx acxt bcyt acyt bcxt - (acx * bcyt + bcy * acxt - (acy * bcxt + bcx * acyt))| ≤
      (6 * uRnd ^ 2 + 20 * uRnd ^ 3) * (l + r) ∧ MultOf (-880) (corr acx bcy acy bcx acxt bcyt acyt bcxt) := by
  obtain ⟨e1, b1, n1⟩ := pair_err m1 m2 h1 h2 hl
  obtain ⟨e2, b2, n2⟩ := pair_err m3 m4 h3 h4 hr
  unfold corr
  generalize fl (fl (acx * bcyt) + fl (bcy * acxt)) = s at *
  generalize fl (fl (acy * bcxt) + fl (bcx * acyt)) = t at *
  have r3 := (low (n1.sub n2)).rel.1
  have t1 := abs_sub_le' s t
  refine ⟨?_, (n1.sub n2).fl⟩
  generalize acx * bcyt + bcy * acxt = P at *
  generalize acy * bcxt + bcx * acyt = Q at *
  have t4 : |fl (s - t) - (P - Q)| ≤ |fl (s - t) - (s - t)| + (|s - P| + |t - Q|) := by
    have : fl (s - t) - (P - Q) = (fl (s - t) - (s - t)) + ((s - P) - (t - Q)) := by ring
    rw [this]
    refine (abs_add_le _ _).trans ?_
    have := abs_sub_le' (s - P) (t - Q)
    linarith
  num_u; linarith

end Delynoi.Ex
