import Verif.Proofs.ExactCcw
import Verif.Spec.Geometry
/-!
# The sign of `counterclockwise`
-/
set_option linter.unusedSectionVars false
namespace Delynoi.Ex

theorem le_abs_of_filter {d e : ℚ} (h : d ≥ e ∨ -d ≥ e) : e ≤ |d| := by
  rcases h with h | h
  · exact h.trans (le_abs_self d)
  · exact h.trans (neg_le_abs d)

theorem lt_of_not_filter {d e : ℚ} (h : ¬(d ≥ e ∨ -d ≥ e)) : |d| < e := by
  push Not at h
  exact abs_lt.2 ⟨by linarith, by linarith⟩

/-- A computed error bound is hardly smaller than it should be. -/
theorem bound_ge {c s : ℚ} {f : Int} (hc : MultOf f c) (hs : MultOf (-880) s) (hf : -194 ≤ f) (hc0 : 0 ≤ c) (hs0 : 0 ≤ s) :
    c * s ≤ (1 + uRnd) * fl (c * s) ∧ fl (c * s) ≤ (1 + uRnd) * (c * s) := by
  have h := (MultOf.const hc hs (by omega)).rel
  have h0 := mul_nonneg hc0 hs0
  have h1 := fl_nonneg h0
  rw [abs_of_nonneg h0, abs_of_nonneg h1] at h
  obtain ⟨a1, a2⟩ := abs_le.1 h.1
  obtain ⟨b1, b2⟩ := abs_le.1 h.2
  constructor <;> linarith

theorem multA : MultOf (-102) konst.ccwerrboundA := ⟨3 * 562949953421312 + 1, by decide +kernel⟩
theorem multB : MultOf (-104) konst.ccwerrboundB := ⟨4503599627370499, by decide +kernel⟩
theorem multC : MultOf (-153) konst.ccwerrboundC := ⟨9 * 140737488355328 + 1, by decide +kernel⟩
theorem multR : MultOf (-103) konst.resulterrbound := ⟨3 * 1125899906842624 + 1, by decide +kernel⟩

/-- What the tails are. -/
theorem tail_spec {a b : ℚ} (ha : IsDouble a) (hb : IsDouble b) (ma : MultOf (-440) a) (mb : MultOf (-440) b) :
    MultOf (-440) (fl (a - b)) ∧ MultOf (-440) (twoDiffTail a b (fl (a - b))) ∧
    a - b = fl (a - b) + twoDiffTail a b (fl (a - b)) ∧
    |a - b - fl (a - b)| ≤ uRnd * |fl (a - b)| := by
  rw [twoDiffTail_exact ha hb]
  refine ⟨(ma.sub mb).fl, (ma.sub mb).sub (ma.sub mb).fl, by ring, ?_⟩
  rw [abs_sub_comm]; exact (low (ma.sub mb)).rel.2

/-- The stages of `counterclockwiseadapt` but the last. -/
theorem ccwAdapt_cases (sum : Nat → Nat → List ℚ → List ℚ → Outcome (List ℚ)) (pa pb pc : Pt ℚ) (detsum : ℚ)
    (da : DPt pa) (db : DPt pb) (dc : DPt pc) (ca : Coarse (-440) pa) (cb : Coarse (-440) pb) (cc : Coarse (-440) pc)
    {L R : ℚ} (hL : L = fl (fl (pa.x - pc.x) * fl (pb.y - pc.y))) (hR : R = fl (fl (pa.y - pc.y) * fl (pb.x - pc.x)))
    (hS : 0 < |L| + |R|) (hLR : |L - R| ≤ 4 * uRnd * (|L| + |R|)) (hs : MultOf (-880) detsum) (hs0 : 0 ≤ detsum)
    (hsS : |L| + |R| ≤ (1 + uRnd) * detsum) :
    (∃ d, ccwAdapt sum konst pa pb pc detsum = .ok d ∧ SameSign d (turn pa pb pc)) ∨
    (¬(IsDouble (pa.x - pc.x) ∧ IsDouble (pa.y - pc.y) ∧ IsDouble (pb.x - pc.x) ∧ IsDouble (pb.y - pc.y)) ∧
      ccwAdapt sum konst pa pb pc detsum =
      ccwLast sum spl (crossExpansion spl (fl (pa.x - pc.x)) (fl (pb.y - pc.y)) (fl (pa.y - pc.y)) (fl (pb.x - pc.x)))
        (fl (pa.x - pc.x)) (fl (pa.y - pc.y)) (fl (pb.x - pc.x)) (fl (pb.y - pc.y))
        (twoDiffTail pa.x pc.x (fl (pa.x - pc.x))) (twoDiffTail pa.y pc.y (fl (pa.y - pc.y)))
        (twoDiffTail pb.x pc.x (fl (pb.x - pc.x))) (twoDiffTail pb.y pc.y (fl (pb.y - pc.y)))) := by
  have hD : turn pa pb pc = (pa.x - pc.x) * (pb.y - pc.y) - (pa.y - pc.y) * (pb.x - pc.x) := by unfold turn; ring
  obtain ⟨m1, n1, s1, e1⟩ := tail_spec da.1 dc.1 ca.1 cc.1
  obtain ⟨m2, n2, s2, e2⟩ := tail_spec db.2 dc.2 cb.2 cc.2
  obtain ⟨m3, n3, s3, e3⟩ := tail_spec da.2 dc.2 ca.2 cc.2
  obtain ⟨m4, n4, s4, e4⟩ := tail_spec db.1 dc.1 cb.1 cc.1
  have zx : twoDiffTail pa.x pc.x (fl (pa.x - pc.x)) = pa.x - pc.x - fl (pa.x - pc.x) := twoDiffTail_exact da.1 dc.1
  have zy : twoDiffTail pb.y pc.y (fl (pb.y - pc.y)) = pb.y - pc.y - fl (pb.y - pc.y) := twoDiffTail_exact db.2 dc.2
  have zz : twoDiffTail pa.y pc.y (fl (pa.y - pc.y)) = pa.y - pc.y - fl (pa.y - pc.y) := twoDiffTail_exact da.2 dc.2
  have zw : twoDiffTail pb.x pc.x (fl (pb.x - pc.x)) = pb.x - pc.x - fl (pb.x - pc.x) := twoDiffTail_exact db.1 dc.1
  unfold ccwAdapt
  dsimp only
  have hks : konst.splitter = spl := rfl
  rw [hks]
  have k1 := fl_isDouble (pa.x - pc.x)
  have k2 := fl_isDouble (pb.y - pc.y)
  have k3 := fl_isDouble (pa.y - pc.y)
  have k4 := fl_isDouble (pb.x - pc.x)
  have f1 : pa.x - pc.x = fl (pa.x - pc.x) → IsDouble (pa.x - pc.x) := fun h => h ▸ k1
  obtain ⟨x0, x1, x3, hB, ⟨mx0, mx1, mx3⟩, ⟨dx0, dx1, dx3⟩, hsum, bx0, bx1, hgrid⟩ :=
    B_parts k1 k2 k3 k4 m1 m2 m3 m4 hL hR hS hLR
  rw [hB, estimate_B]
  dsimp only
  have eL : |fl (pa.x - pc.x) * fl (pb.y - pc.y) - L| ≤ uRnd * |L| := by
    rw [abs_sub_comm, hL]; exact (low (mult440 m1 m2)).rel.2
  have eR : |fl (pa.y - pc.y) * fl (pb.x - pc.x) - R| ≤ uRnd * |R| := by
    rw [abs_sub_comm, hR]; exact (low (mult440 m3 m4)).rel.2
  have hBerr := stageB_err e1 e2 e3 e4 eL eR
  have hEerr := estimate_err mx0 mx1 mx3
  have hEm : MultOf (-880) (fl (fl (x0 + x1) + x3)) := ((mx0.add mx1).fl.add mx3).fl
  have hEsign := estimate_sign mx0 mx1 mx3 dx3 hgrid
  rw [← hD] at hBerr
  rw [hsum] at hEerr hEsign
  have hconv : ¬(twoDiffTail pa.x pc.x (fl (pa.x - pc.x)) = 0 ∧ twoDiffTail pa.y pc.y (fl (pa.y - pc.y)) = 0 ∧
      twoDiffTail pb.x pc.x (fl (pb.x - pc.x)) = 0 ∧ twoDiffTail pb.y pc.y (fl (pb.y - pc.y)) = 0) →
      ¬(IsDouble (pa.x - pc.x) ∧ IsDouble (pa.y - pc.y) ∧ IsDouble (pb.x - pc.x) ∧ IsDouble (pb.y - pc.y)) := by
    rintro h ⟨h1, h2, h3, h4⟩
    apply h
    rw [zx, zy, zz, zw, fl_of_double h1, fl_of_double h2, fl_of_double h3, fl_of_double h4]
    simp
  generalize fl (fl (x0 + x1) + x3) = est at *
  generalize turn pa pb pc = D at *
  generalize fl (pa.x - pc.x) = acx at *
  generalize fl (pb.y - pc.y) = bcy at *
  generalize fl (pa.y - pc.y) = acy at *
  generalize fl (pb.x - pc.x) = bcx at *
  generalize pa.x - pc.x = X1 at *
  generalize pb.y - pc.y = Y2 at *
  generalize pa.y - pc.y = Y1 at *
  generalize pb.x - pc.x = X2 at *
  clear hL hR f1 zx zy zz zw
  generalize twoDiffTail pa.x pc.x acx = acxt at *
  generalize twoDiffTail pb.y pc.y bcy = bcyt at *
  generalize twoDiffTail pa.y pc.y acy = acyt at *
  generalize twoDiffTail pb.x pc.x bcx = bcxt at *
  have aL := abs_nonneg L
  have aR := abs_nonneg R
  have bB := (bound_ge multB hs (by norm_num) (by decide +kernel) hs0).1
  have bC := (bound_ge multC hs (by norm_num) (by decide +kernel) hs0).1
  have mE : MultOf (-880) |est| := by rcases abs_choice est with h | h <;> rw [h]; exacts [hEm, hEm.neg]
  have bR := (bound_ge multR mE (by norm_num) (by decide +kernel) (abs_nonneg est)).1
  by_cases hfB : est ≥ fl (konst.ccwerrboundB * detsum) ∨ -est ≥ fl (konst.ccwerrboundB * detsum)
  · -- stage B
    left
    rw [if_pos hfB]
    refine ⟨est, rfl, ?_⟩
    have hge := le_abs_of_filter hfB
    apply sameSign_of_close'
    have : |est - D| ≤ |est - (acx * bcy - acy * bcx)| + |D - (acx * bcy - acy * bcx)| := by
      rw [abs_sub_comm D]; exact abs_sub_le _ _ _
    have hkB : konst.ccwerrboundB = (2 + 12 / 9007199254740992) * (1 / 9007199254740992) := rfl
    generalize fl (konst.ccwerrboundB * detsum) = E at *
    rw [hkB] at bB
    generalize |est| = ae at *
    generalize |est - D| = q0 at *
    generalize |est - (acx * bcy - acy * bcx)| = q1 at *
    generalize |D - (acx * bcy - acy * bcx)| = q2 at *
    generalize |x0| = a0 at *
    generalize |x1| = a1 at *
    clear bC bR e1 e2 e3 e4 eL eR hB hEsign hsum hD hLR hgrid
    generalize |L| + |R| = S at *
    num_u
    linarith
  rw [if_neg hfB]
  by_cases hT : acxt = 0 ∧ acyt = 0 ∧ bcxt = 0 ∧ bcyt = 0
  · left
    rw [if_pos hT]
    refine ⟨est, rfl, hEsign.trans ?_⟩
    obtain ⟨h1, h2, h3, h4⟩ := hT
    rw [hD, s1, s2, s3, s4, h1, h2, h3, h4]
    simp only [add_zero]
    exact ⟨Iff.rfl, Iff.rfl⟩
  rw [if_neg hT]
  -- stage C
  have t1 : |acxt| ≤ uRnd * |acx| := by rw [s1] at e1; simpa using e1
  have t2 : |bcyt| ≤ uRnd * |bcy| := by rw [s2] at e2; simpa using e2
  have t3 : |acyt| ≤ uRnd * |acy| := by rw [s3] at e3; simpa using e3
  have t4 : |bcxt| ≤ uRnd * |bcx| := by rw [s4] at e4; simpa using e4
  have pb : ∀ a b c : ℚ, |b| ≤ uRnd * |c| → |a * b| ≤ uRnd * |a * c| := by
    intro a b c h
    rw [abs_mul, abs_mul]
    have := mul_le_mul_of_nonneg_left h (abs_nonneg a)
    linarith
  have hcorr := corr_err (l := |acx * bcy|) (r := |acy * bcx|) (mult440 m1 n2) (mult440 m2 n1) (mult440 m3 n4)
    (mult440 m4 n3) (pb _ _ _ t2) (by rw [mul_comm acx]; exact pb _ _ _ t1) (pb _ _ _ t4)
    (by rw [mul_comm acy]; exact pb _ _ _ t3) (abs_nonneg _) (abs_nonneg _)
  have hT2 : |acxt * bcyt - acyt * bcxt| ≤ uRnd ^ 2 * (|acx * bcy| + |acy * bcx|) := by
    refine (abs_sub_le' _ _).trans ?_
    have h1 : |acxt * bcyt| ≤ (uRnd * |acx|) * (uRnd * |bcy|) := by
      rw [abs_mul]; exact mul_le_mul t1 t2 (abs_nonneg _) (mul_nonneg uRnd_pos.le (abs_nonneg _))
    have h2 : |acyt * bcxt| ≤ (uRnd * |acy|) * (uRnd * |bcx|) := by
      rw [abs_mul]; exact mul_le_mul t3 t4 (abs_nonneg _) (mul_nonneg uRnd_pos.le (abs_nonneg _))
    rw [abs_mul acx, abs_mul acy]; linarith
  change (∃ d, (if fl (est + corr acx bcy acy bcx acxt bcyt acyt bcxt) ≥ _ ∨
    -fl (est + corr acx bcy acy bcx acxt bcyt acyt bcxt) ≥ _ then
      Outcome.ok (fl (est + corr acx bcy acy bcx acxt bcyt acyt bcxt)) else _) = _ ∧ _) ∨ (_ ∧
    (if fl (est + corr acx bcy acy bcx acxt bcyt acyt bcxt) ≥ _ ∨
    -fl (est + corr acx bcy acy bcx acxt bcyt acyt bcxt) ≥ _ then
      Outcome.ok (fl (est + corr acx bcy acy bcx acxt bcyt acyt bcxt)) else _) = _)
  have hDe : D = (acx * bcy - acy * bcx) + (acx * bcyt + bcy * acxt - (acy * bcxt + bcx * acyt)) +
      (acxt * bcyt - acyt * bcxt) := by rw [hD, s1, s2, s3, s4]; ring
  obtain ⟨hce, hcm⟩ := hcorr
  have hdet := (low (hEm.add hcm)).rel.2
  generalize corr acx bcy acy bcx acxt bcyt acyt bcxt = T at *
  by_cases hfC : fl (est + T) ≥ fl (fl (konst.ccwerrboundC * detsum) + fl (konst.resulterrbound * |est|)) ∨
      -fl (est + T) ≥ fl (fl (konst.ccwerrboundC * detsum) + fl (konst.resulterrbound * |est|))
  · left
    rw [if_pos hfC]
    refine ⟨_, rfl, ?_⟩
    have hge := le_abs_of_filter hfC
    have hE2 : fl (konst.ccwerrboundC * detsum) + fl (konst.resulterrbound * |est|) ≤
        (1 + uRnd) * fl (fl (konst.ccwerrboundC * detsum) + fl (konst.resulterrbound * |est|)) := by
      have hm : MultOf (-1074) (fl (konst.ccwerrboundC * detsum) + fl (konst.resulterrbound * |est|)) :=
        (MultOf.const multC hs (by norm_num)).fl.add (MultOf.const multR mE (by norm_num)).fl
      have h0 : 0 ≤ fl (konst.ccwerrboundC * detsum) + fl (konst.resulterrbound * |est|) :=
        add_nonneg (fl_nonneg (mul_nonneg (by decide +kernel) hs0))
          (fl_nonneg (mul_nonneg (by decide +kernel) (abs_nonneg _)))
      have := hm.rel.2
      rw [abs_of_nonneg (fl_nonneg h0)] at this
      linarith [(abs_le.1 this).1]
    generalize fl (fl (konst.ccwerrboundC * detsum) + fl (konst.resulterrbound * |est|)) = E at *
    generalize fl (konst.ccwerrboundC * detsum) = EC at *
    generalize fl (konst.resulterrbound * |est|) = ER at *
    have hkC : konst.ccwerrboundC = (9 + 64 / 9007199254740992) * (1 / 9007199254740992) ^ 2 := rfl
    have hkR : konst.resulterrbound = (3 + 8 / 9007199254740992) * (1 / 9007199254740992) := rfl
    rw [hkC] at bC
    rw [hkR] at bR
    generalize fl (est + T) = d at *
    apply sameSign_of_close'
    have g1 : |acx * bcy| ≤ (1 + uRnd) * |L| := by
      have := abs_sub_abs_le_abs_sub (acx * bcy) L; linarith
    have g2 : |acy * bcx| ≤ (1 + uRnd) * |R| := by
      have := abs_sub_abs_le_abs_sub (acy * bcx) R; linarith
    generalize |acx * bcy| = l at *
    generalize |acy * bcx| = r at *
    have key : |d - D| ≤ |d - (est + T)| + |est - (acx * bcy - acy * bcx)| +
        |T - (acx * bcyt + bcy * acxt - (acy * bcxt + bcx * acyt))| + |acxt * bcyt - acyt * bcxt| := by
      have : d - D = (d - (est + T)) + (est - (acx * bcy - acy * bcx)) +
        (T - (acx * bcyt + bcy * acxt - (acy * bcxt + bcx * acyt))) - (acxt * bcyt - acyt * bcxt) := by
        rw [hDe]; ring
      rw [this]
      refine (abs_sub_le' _ _).trans ?_
      refine add_le_add_left ((abs_add_le _ _).trans (add_le_add_left (abs_add_le _ _) _)) _
    generalize |d - D| = q0 at *
    generalize |d - (est + T)| = q1 at *
    generalize |est - (acx * bcy - acy * bcx)| = q2 at *
    generalize |T - (acx * bcyt + bcy * acxt - (acy * bcxt + bcx * acyt))| = q3 at *
    generalize |acxt * bcyt - acyt * bcxt| = q4 at *
    have hae : 0 ≤ |est| := abs_nonneg est
    generalize |est| = ae at *
    num_u
    linarith
  · right
    rw [if_neg hfC]
    exact ⟨hconv hT, rfl⟩

/-- `counterclockwise`, all but the last stage. -/
theorem ccw_cases (sum : Nat → Nat → List ℚ → List ℚ → Outcome (List ℚ)) (pa pb pc : Pt ℚ)
    (da : DPt pa) (db : DPt pb) (dc : DPt pc) (ca : Coarse (-440) pa) (cb : Coarse (-440) pb) (cc : Coarse (-440) pc) :
    (∃ d, ccw sum konst false pa pb pc = .ok d ∧ SameSign d (turn pa pb pc)) ∨
    (¬(IsDouble (pa.x - pc.x) ∧ IsDouble (pa.y - pc.y) ∧ IsDouble (pb.x - pc.x) ∧ IsDouble (pb.y - pc.y)) ∧
      ccw sum konst false pa pb pc =
      ccwLast sum spl (crossExpansion spl (fl (pa.x - pc.x)) (fl (pb.y - pc.y)) (fl (pa.y - pc.y)) (fl (pb.x - pc.x)))
        (fl (pa.x - pc.x)) (fl (pa.y - pc.y)) (fl (pb.x - pc.x)) (fl (pb.y - pc.y))
        (twoDiffTail pa.x pc.x (fl (pa.x - pc.x))) (twoDiffTail pa.y pc.y (fl (pa.y - pc.y)))
        (twoDiffTail pb.x pc.x (fl (pb.x - pc.x))) (twoDiffTail pb.y pc.y (fl (pb.y - pc.y)))) := by
  have hD : turn pa pb pc = (pa.x - pc.x) * (pb.y - pc.y) - (pa.y - pc.y) * (pb.x - pc.x) := by unfold turn; ring
  obtain ⟨m1, -, -, e1⟩ := tail_spec da.1 dc.1 ca.1 cc.1
  obtain ⟨m2, -, -, e2⟩ := tail_spec db.2 dc.2 cb.2 cc.2
  obtain ⟨m3, -, -, e3⟩ := tail_spec da.2 dc.2 ca.2 cc.2
  obtain ⟨m4, -, -, e4⟩ := tail_spec db.1 dc.1 cb.1 cc.1
  have hmain := ccwAdapt_cases sum pa pb pc
  have eL := (low (mult440 m1 m2)).rel.2
  have eR := (low (mult440 m3 m4)).rel.2
  have sL := (low (mult440 m1 m2)).sign
  have sR := (low (mult440 m3 m4)).sign
  have s1 := (low (ca.1.sub cc.1)).sign
  have s2 := (low (cb.2.sub cc.2)).sign
  have s3 := (low (ca.2.sub cc.2)).sign
  have s4 := (low (cb.1.sub cc.1)).sign
  have mL := (mult440 m1 m2).fl
  have mR := (mult440 m3 m4).fl
  rw [abs_sub_comm] at eL eR
  have hA := stageA_err e1 e2 e3 e4 eL eR
  rw [← hD] at hA
  have sgL : SameSign (fl (fl (pa.x - pc.x) * fl (pb.y - pc.y))) ((pa.x - pc.x) * (pb.y - pc.y)) :=
    sL.trans (sameSign_mul s1 s2)
  have sgR : SameSign (fl (fl (pa.y - pc.y) * fl (pb.x - pc.x))) ((pa.y - pc.y) * (pb.x - pc.x)) :=
    sR.trans (sameSign_mul s3 s4)
  unfold ccw
  dsimp only
  generalize hL : fl (fl (pa.x - pc.x) * fl (pb.y - pc.y)) = L at *
  generalize hR : fl (fl (pa.y - pc.y) * fl (pb.x - pc.x)) = R at *
  have hdet := (low (mL.sub mR)).rel
  have hdets := (low (mL.sub mR)).sign
  -- the part after the signs
  have rest : ∀ detsum : ℚ, 0 < |L| + |R| → detsum = fl (|L| + |R|) →
      (∃ d, (if fl (L - R) ≥ fl (konst.ccwerrboundA * detsum) ∨ -fl (L - R) ≥ fl (konst.ccwerrboundA * detsum) then
        Outcome.ok (fl (L - R)) else ccwAdapt sum konst pa pb pc detsum) = .ok d ∧ SameSign d (turn pa pb pc)) ∨
      (¬(IsDouble (pa.x - pc.x) ∧ IsDouble (pa.y - pc.y) ∧ IsDouble (pb.x - pc.x) ∧ IsDouble (pb.y - pc.y)) ∧
      (if fl (L - R) ≥ fl (konst.ccwerrboundA * detsum) ∨ -fl (L - R) ≥ fl (konst.ccwerrboundA * detsum) then
        Outcome.ok (fl (L - R)) else ccwAdapt sum konst pa pb pc detsum) =
      ccwLast sum spl (crossExpansion spl (fl (pa.x - pc.x)) (fl (pb.y - pc.y)) (fl (pa.y - pc.y)) (fl (pb.x - pc.x)))
        (fl (pa.x - pc.x)) (fl (pa.y - pc.y)) (fl (pb.x - pc.x)) (fl (pb.y - pc.y))
        (twoDiffTail pa.x pc.x (fl (pa.x - pc.x))) (twoDiffTail pa.y pc.y (fl (pa.y - pc.y)))
        (twoDiffTail pb.x pc.x (fl (pb.x - pc.x))) (twoDiffTail pb.y pc.y (fl (pb.y - pc.y)))) := by
    intro detsum hS hds
    have mS : MultOf (-880) (|L| + |R|) := by
      refine MultOf.add ?_ ?_
      · rcases abs_choice L with h | h <;> rw [h]; exacts [mL, mL.neg]
      · rcases abs_choice R with h | h <;> rw [h]; exacts [mR, mR.neg]
    have hs : MultOf (-880) detsum := by rw [hds]; exact mS.fl
    have hs0 : 0 ≤ detsum := by rw [hds]; exact fl_nonneg hS.le
    have hr := (low mS).rel
    rw [← hds, abs_of_pos hS, abs_of_nonneg hs0] at hr
    have hsS : |L| + |R| ≤ (1 + uRnd) * detsum := by linarith [(abs_le.1 hr.2).1]
    have hsS' : detsum ≤ (1 + uRnd) * (|L| + |R|) := by linarith [(abs_le.1 hr.1).2]
    have bA := bound_ge multA hs (by norm_num) (by decide +kernel) hs0
    have hkA : konst.ccwerrboundA = (3 + 16 / 9007199254740992) * (1 / 9007199254740992) := rfl
    by_cases hf : fl (L - R) ≥ fl (konst.ccwerrboundA * detsum) ∨ -fl (L - R) ≥ fl (konst.ccwerrboundA * detsum)
    · left
      rw [if_pos hf]
      refine ⟨_, rfl, hdets.trans ?_⟩
      have hge := le_abs_of_filter hf
      apply sameSign_of_close'
      rw [abs_sub_comm]
      have hb := bA.1
      have h2 := abs_sub_abs_le_abs_sub (fl (L - R)) (L - R)
      have h3 := hdet.2
      generalize fl (konst.ccwerrboundA * detsum) = E at *
      rw [hkA] at hb
      generalize |turn pa pb pc - (L - R)| = q at *
      generalize |fl (L - R) - (L - R)| = q' at *
      generalize |L - R| = w at *
      generalize |fl (L - R)| = w' at *
      clear hmain eL eR e1 e2 e3 e4 hdet hD
      generalize |L| + |R| = S at *
      num_u
      linarith
    · rw [if_neg hf]
      have hlt := lt_of_not_filter hf
      refine hmain detsum da db dc ca cb cc rfl rfl hS ?_ hs hs0 hsS
      have hb := bA.2
      have h2 := abs_sub_abs_le_abs_sub (L - R) (fl (L - R))
      rw [abs_sub_comm (L - R)] at h2
      have h3 := hdet.2
      generalize fl (konst.ccwerrboundA * detsum) = E at *
      rw [hkA] at hb
      generalize |fl (L - R) - (L - R)| = q' at *
      generalize |L - R| = w at *
      generalize |fl (L - R)| = w' at *
      clear hmain eL eR e1 e2 e3 e4 hdet hA hD
      generalize |L| + |R| = S at *
      num_u
      linarith
  simp only [Bool.false_eq_true, if_false]
  by_cases hLp : L > 0
  · rw [if_pos hLp]
    by_cases hRp : R ≤ 0
    · left
      rw [if_pos hRp]
      refine ⟨_, rfl, hdets.trans ?_⟩
      have h1 := sgL.1.1 hLp
      have h2 : (pa.y - pc.y) * (pb.x - pc.x) ≤ 0 := by
        by_contra hcon; push Not at hcon
        linarith [sgR.1.2 hcon]
      rw [hD]
      constructor <;> constructor <;> intro <;> linarith
    · rw [if_neg hRp]
      push Not at hRp
      refine rest _ (by rw [abs_of_pos hLp]; positivity) ?_
      rw [abs_of_pos hLp, abs_of_pos hRp]
  · rw [if_neg hLp]
    by_cases hLn : L < 0
    · rw [if_pos hLn]
      by_cases hRn : R ≥ 0
      · left
        rw [if_pos hRn]
        refine ⟨_, rfl, hdets.trans ?_⟩
        have h1 := sgL.2.1 hLn
        have h2 : 0 ≤ (pa.y - pc.y) * (pb.x - pc.x) := by
          by_contra hcon; push Not at hcon
          linarith [sgR.2.2 hcon]
        rw [hD]
        constructor <;> constructor <;> intro <;> linarith
      · rw [if_neg hRn]
        push Not at hRn
        refine rest _ (by rw [abs_of_neg hLn]; have := abs_nonneg R; linarith) ?_
        rw [abs_of_neg hLn, abs_of_neg hRn, sub_eq_add_neg]
    · rw [if_neg hLn]
      left
      refine ⟨_, rfl, hdets.trans ?_⟩
      have h0 : L = 0 := le_antisymm (not_lt.1 hLp) (not_lt.1 hLn)
      have h1 : (pa.x - pc.x) * (pb.y - pc.y) = 0 := by
        refine le_antisymm (not_lt.1 fun h => hLp (sgL.1.2 h)) (not_lt.1 fun h => hLn (sgL.2.2 h))
      rw [hD, h1, h0, zero_sub, zero_sub]
      exact ⟨by simpa using sgR.2, by simpa using sgR.1⟩

end Delynoi.Ex
