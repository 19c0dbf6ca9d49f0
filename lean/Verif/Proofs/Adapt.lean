import Verif.Proofs.AdaptErr
/-! All stages of `incircleadapt`. -/
namespace Delynoi.Ex
set_option linter.unusedVariables false

/-- What `incircle` adds up last for `permanent`. -/
def permSum (ax ay bx by' cx cy : ℚ) : ℚ :=
  fl (fl (fl (|fl (bx * cy)| + |fl (cx * by')|) * fl (fl (ax * ax) + fl (ay * ay))) +
    fl (fl (|fl (cx * ay)| + |fl (ax * cy)|) * fl (fl (bx * bx) + fl (by' * by')))) +
  fl (fl (|fl (ax * by')| + |fl (bx * ay)|) * fl (fl (cx * cx) + fl (cy * cy)))

theorem perm_size {ax ay bx by' cx cy : ℚ} (n1 : Num ax) (n2 : Num ay) (n3 : Num bx) (n4 : Num by') (n5 : Num cx) (n6 : Num cy) :
    MultOf (-960) (permSum ax ay bx by' cx cy) ∧ 0 ≤ permSum ax ay bx by' cx cy ∧
      size6 ax ay bx by' cx cy ≤ (1 + uRnd) ^ 6 * permSum ax ay bx by' cx cy := by
  have u0 := uRnd_pos
  have p0 : ∀ k : Nat, 0 ≤ (1 + uRnd) ^ k := fun k => by positivity
  have pr : ∀ {x y : ℚ}, Num x → Num y → MultOf (-480) (fl (x * y)) ∧ |x| * |y| ≤ (1 + uRnd) * |fl (x * y)| := by
    intro x y hx hy
    have hm : MultOf (-480) (x * y) := mulA hx.m hy.m
    refine ⟨hm.fl, ?_⟩
    rw [← abs_mul, fl_abs]
    exact le_of_rel (low (MultOf.abs hm)) (abs_nonneg _)
  have lift : ∀ {x y : ℚ}, Num x → Num y → MultOf (-480) (fl (fl (x * x) + fl (y * y))) ∧ 0 ≤ fl (fl (x * x) + fl (y * y)) ∧
      |x| * |x| + |y| * |y| ≤ (1 + uRnd) ^ 2 * fl (fl (x * x) + fl (y * y)) := by
    intro x y hx hy
    obtain ⟨a1, a2⟩ := pr hx hx
    obtain ⟨b1, b2⟩ := pr hy hy
    have c1 := fl_nonneg (mul_self_nonneg x)
    have c2 := fl_nonneg (mul_self_nonneg y)
    rw [abs_of_nonneg c1] at a2
    rw [abs_of_nonneg c2] at b2
    have := mul_le_mul_of_nonneg_left (le_of_rel (low (a1.add b1)) (add_nonneg c1 c2)) (show 0 ≤ 1 + uRnd by linarith)
    exact ⟨(a1.add b1).fl, fl_nonneg (add_nonneg c1 c2), by rw [pow_two]; linarith⟩
  have cross : ∀ {x y z t : ℚ}, Num x → Num y → Num z → Num t → MultOf (-480) (fl (|fl (x * y)| + |fl (z * t)|)) ∧
      0 ≤ fl (|fl (x * y)| + |fl (z * t)|) ∧ |x| * |y| + |z| * |t| ≤ (1 + uRnd) ^ 2 * fl (|fl (x * y)| + |fl (z * t)|) := by
    intro x y z t hx hy hz ht
    obtain ⟨a1, a2⟩ := pr hx hy
    obtain ⟨b1, b2⟩ := pr hz ht
    have c0 := add_nonneg (abs_nonneg (fl (x * y))) (abs_nonneg (fl (z * t)))
    have := mul_le_mul_of_nonneg_left (le_of_rel (low ((MultOf.abs a1).add (MultOf.abs b1))) c0) (show 0 ≤ 1 + uRnd by linarith)
    exact ⟨((MultOf.abs a1).add (MultOf.abs b1)).fl, fl_nonneg c0, by rw [pow_two]; linarith⟩
  have term : ∀ {s l S L : ℚ}, MultOf (-480) s → MultOf (-480) l → 0 ≤ s → 0 ≤ l → 0 ≤ S → 0 ≤ L → S ≤ (1 + uRnd) ^ 2 * s →
      L ≤ (1 + uRnd) ^ 2 * l → MultOf (-960) (fl (s * l)) ∧ 0 ≤ fl (s * l) ∧ L * S ≤ (1 + uRnd) ^ 5 * fl (s * l) := by
    intro s l S L ms ml s0 l0 S0 L0 hS hL
    have hm : MultOf (-960) (s * l) := mulA ms ml
    have h0 := mul_nonneg s0 l0
    refine ⟨hm.fl, fl_nonneg h0, ?_⟩
    have h1 := mul_le_mul hL hS S0 (mul_nonneg (p0 2) l0)
    have h2 := mul_le_mul_of_nonneg_left (le_of_rel (low hm) h0) (p0 4)
    have e : (1 + uRnd) ^ 2 * l * ((1 + uRnd) ^ 2 * s) = (1 + uRnd) ^ 4 * (s * l) := by ring
    rw [e] at h1
    have e2 : (1 + uRnd) ^ 4 * ((1 + uRnd) * fl (s * l)) = (1 + uRnd) ^ 5 * fl (s * l) := by ring
    rw [e2] at h2
    exact h1.trans h2
  have fin : ∀ {s1 l1 S1 L1 s2 l2 S2 L2 s3 l3 S3 L3 : ℚ},
      (MultOf (-480) s1 ∧ 0 ≤ s1 ∧ S1 ≤ (1 + uRnd) ^ 2 * s1) → (MultOf (-480) l1 ∧ 0 ≤ l1 ∧ L1 ≤ (1 + uRnd) ^ 2 * l1) →
      (MultOf (-480) s2 ∧ 0 ≤ s2 ∧ S2 ≤ (1 + uRnd) ^ 2 * s2) → (MultOf (-480) l2 ∧ 0 ≤ l2 ∧ L2 ≤ (1 + uRnd) ^ 2 * l2) →
      (MultOf (-480) s3 ∧ 0 ≤ s3 ∧ S3 ≤ (1 + uRnd) ^ 2 * s3) → (MultOf (-480) l3 ∧ 0 ≤ l3 ∧ L3 ≤ (1 + uRnd) ^ 2 * l3) →
      0 ≤ S1 → 0 ≤ L1 → 0 ≤ S2 → 0 ≤ L2 → 0 ≤ S3 → 0 ≤ L3 →
      MultOf (-960) (fl (fl (s1 * l1) + fl (s2 * l2)) + fl (s3 * l3)) ∧ 0 ≤ fl (fl (s1 * l1) + fl (s2 * l2)) + fl (s3 * l3) ∧
      L1 * S1 + L2 * S2 + L3 * S3 ≤ (1 + uRnd) ^ 6 * (fl (fl (s1 * l1) + fl (s2 * l2)) + fl (s3 * l3)) := by
    rintro s1 l1 S1 L1 s2 l2 S2 L2 s3 l3 S3 L3 ⟨a1, a2, a3⟩ ⟨b1, b2, b3⟩ ⟨c1, c2, c3⟩ ⟨d1, d2, d3⟩ ⟨e1, e2, e3⟩ ⟨f1, f2, f3⟩
      q1 q2 q3 q4 q5 q6
    obtain ⟨g1, g2, g3⟩ := term a1 b1 a2 b2 q1 q2 a3 b3
    obtain ⟨h1, h2, h3⟩ := term c1 d1 c2 d2 q3 q4 c3 d3
    obtain ⟨i1, i2, i3⟩ := term e1 f1 e2 f2 q5 q6 e3 f3
    have j0 := add_nonneg g2 h2
    refine ⟨(g1.add h1).fl.add i1, add_nonneg (fl_nonneg j0) i2, ?_⟩
    have k1 := mul_le_mul_of_nonneg_left (le_of_rel (low (g1.add h1)) j0) (p0 5)
    have k2 : (1 + uRnd) ^ 5 * ((1 + uRnd) * fl (fl (s1 * l1) + fl (s2 * l2))) = (1 + uRnd) ^ 6 * fl (fl (s1 * l1) + fl (s2 * l2)) := by
      ring
    rw [k2] at k1
    have k3 : (1 + uRnd) ^ 5 * fl (s3 * l3) ≤ (1 + uRnd) ^ 6 * fl (s3 * l3) :=
      mul_le_mul_of_nonneg_right (pow_le_pow_right₀ (by linarith) (by norm_num)) i2
    linarith
  unfold size6 permSum
  exact fin (cross n3 n6 n5 n4) (lift n1 n2) (cross n5 n2 n1 n6) (lift n3 n4) (cross n1 n4 n3 n2) (lift n5 n6)
    (by positivity) (by positivity) (by positivity) (by positivity) (by positivity) (by positivity)

theorem multIccB : MultOf (-104) konst.iccerrboundB := ⟨9007199254740992 + 12, by unfold konst; norm_num⟩

/-- The first part of the error bound of the third stage, which may be subnormal. -/
theorem boundC {P : ℚ} (hP : MultOf (-960) P) (P0 : 0 ≤ P) : 43 * uRnd ^ 2 * P ≤ (1 + uRnd) * fl (konst.iccerrboundC * P) := by
  have u0 := uRnd_pos
  by_cases hz : P = 0
  · rw [hz, mul_zero, mul_zero, fl_zero, mul_zero]
  have h1 := hP.le_abs hz
  rw [abs_of_nonneg P0] at h1
  have k0 : 0 ≤ konst.iccerrboundC := by unfold konst; norm_num
  have x0 : 0 ≤ konst.iccerrboundC * P := mul_nonneg k0 P0
  have h2 := (abs_le.1 (fl_error_add (konst.iccerrboundC * P))).1
  rw [abs_of_nonneg x0] at h2
  have h3 : etaRnd ≤ 1 / 2 * uRnd ^ 2 * P := by
    refine le_trans ?_ (mul_le_mul_of_nonneg_left h1 (by positivity))
    have e1 : etaRnd = (2 : ℚ) ^ (-1075 : Int) := by unfold etaRnd; rw [zpow_neg, one_div]; rfl
    have e2 : (2 : ℚ) ^ (-960 : Int) = (2 : ℚ) ^ (-1075 : Int) * (2 : ℚ) ^ (115 : Int) := by rw [← two_zpow_add]; norm_num
    rw [e1, e2, uRnd_eq]
    have := two_zpow_pos (-1075)
    have e3 : (2 : ℚ) ^ (115 : Int) = 41538374868278621028243970633760768 := by norm_num
    rw [e3]
    linarith
  have h4 : 0 ≤ fl (konst.iccerrboundC * P) := fl_nonneg x0
  have h5 := mul_nonneg u0.le h4
  have h6 : 87 / 2 * uRnd ^ 2 * P ≤ (1 - uRnd) * (konst.iccerrboundC * P) := by
    rw [← mul_assoc]
    refine mul_le_mul_of_nonneg_right ?_ P0
    unfold konst; rw [uRnd_eq]; norm_num
  linarith

/-- The second stage. -/
theorem stageB {det Dh D S w : ℚ} (h1 : |det - Dh| ≤ 5 / 4 * eta * |Dh|) (h2 : |D - Dh| ≤ ((1 + uRnd) ^ 4 - 1) * S)
    (h3 : S ≤ (1 + uRnd) ^ 6 * w) (w0 : 0 ≤ w) (h4 : konst.iccerrboundB * w ≤ (1 + 15 / 8 * uRnd) * |det|) : SameSign det D := by
  have s1 : SameSign det Dh := by
    by_cases hD : Dh = 0
    · rw [hD, abs_zero, mul_zero, sub_zero] at h1
      rw [hD, abs_nonpos_iff.1 h1]; exact ⟨Iff.rfl, Iff.rfl⟩
    · refine sameSign_of_close (h1.trans_lt ?_)
      have := abs_pos.2 hD
      unfold eta; linarith
  have h5 : |det| ≤ |Dh| + |det - Dh| := by
    have := abs_add_le Dh (det - Dh)
    rwa [show Dh + (det - Dh) = det by ring] at this
  have h6 : |D - Dh| ≤ ((1 + uRnd) ^ 4 - 1) * ((1 + uRnd) ^ 6 * w) :=
    h2.trans (mul_le_mul_of_nonneg_left h3 (by linarith [one_le_pow 4]))
  unfold konst eta at *
  rw [uRnd_eq] at *
  dsimp only at *
  by_cases hD : Dh = 0
  · have hz : |Dh| = 0 := by rw [hD, abs_zero]
    have hw : w = 0 := by linarith
    rw [hw, mul_zero, mul_zero] at h6
    have := abs_nonpos_iff.1 h6
    have : D = Dh := by linarith
    rw [this]; exact s1
  · refine s1.trans (SameSign.symm (sameSign_of_close (h6.trans_lt ?_)))
    have := abs_pos.2 hD
    linarith

/-- The third stage. -/
theorem stageC {det Dh D C1 S w corr E P : ℚ} (h1 : |det - Dh| ≤ 5 / 4 * eta * |Dh|)
    (h2 : |D - Dh - C1| ≤ ((1 + uRnd) ^ 4 - 1 - 4 * uRnd) * S)
    (hc : |corr - C1| ≤ ((1 + uRnd) ^ 9 - 1) * (4 * uRnd * S)) (S0 : 0 ≤ S)
    (h3 : S ≤ (1 + uRnd) ^ 6 * w) (hw : w ≤ (1 + uRnd) * P) (mdc : MultOf (-1074) (det + corr))
    (hE : 43 * uRnd ^ 2 * P + konst.resulterrbound * |det| ≤ (1 + uRnd) ^ 2 * E)
    (h4 : E ≤ |fl (det + corr)|) : SameSign (fl (det + corr)) D := by
  have r := mdc.rel.2
  have a1 : |Dh| ≤ |det| + |det - Dh| := by
    have := abs_add_le det (-(det - Dh))
    rwa [show det + -(det - Dh) = Dh by ring, abs_neg] at this
  have a2 : |fl (det + corr) - D| ≤ |fl (det + corr) - (det + corr)| + |det - Dh| + |corr - C1| + |D - Dh - C1| := by
    rw [show fl (det + corr) - D = (fl (det + corr) - (det + corr)) + (det - Dh) + (corr - C1) + -(D - Dh - C1) by ring]
    have b1 := abs_add_le ((fl (det + corr) - (det + corr)) + (det - Dh) + (corr - C1)) (-(D - Dh - C1))
    have b2 := abs_add_le ((fl (det + corr) - (det + corr)) + (det - Dh)) (corr - C1)
    have b3 := abs_add_le (fl (det + corr) - (det + corr)) (det - Dh)
    rw [abs_neg] at b1
    linarith
  have d0 := abs_nonneg det
  generalize fl (det + corr) = det2 at *
  have h5 : S ≤ (1 + uRnd) ^ 7 * P := by
    refine h3.trans ?_
    have := mul_le_mul_of_nonneg_left hw (show 0 ≤ (1 + uRnd) ^ 6 by have := uRnd_pos; positivity)
    refine this.trans (le_of_eq ?_)
    ring
  unfold konst eta at *
  rw [uRnd_eq] at *
  dsimp only at *
  by_cases hz : |det2| = 0
  · have hS : S = 0 := by linarith
    have hd : |det| = 0 := by linarith
    have : |det2 - D| ≤ 0 := by linarith
    have h6 := abs_nonpos_iff.1 this
    have : D = det2 := by linarith
    rw [this]; exact ⟨Iff.rfl, Iff.rfl⟩
  · have hp : 0 < |det2| := lt_of_le_of_ne (abs_nonneg _) (Ne.symm hz)
    refine sameSign_of_close' ?_
    linarith

/-- A difference and its tail. -/
theorem num_tail {a b : ℚ} (ha : Num a) (hb : Num b) : Num (fl (a - b)) ∧ Num (twoDiffTail a b (fl (a - b))) ∧
    a - b = fl (a - b) + twoDiffTail a b (fl (a - b)) ∧ |twoDiffTail a b (fl (a - b))| ≤ uRnd * |fl (a - b)| := by
  have e := twoDiffTail_exact ha.d hb.d
  have m := ha.m.sub hb.m
  refine ⟨⟨fl_isDouble _, m.fl⟩, ⟨tail_double a b, ?_⟩, by rw [e]; ring, ?_⟩
  · rw [e]; exact m.sub m.fl
  · rw [e, abs_sub_comm]; exact (low m).rel.2

theorem sum_stage {ax ay bx by' cx cy : ℚ} (n1 : Num ax) (n2 : Num ay) (n3 : Num bx) (n4 : Num by') (n5 : Num cx) (n6 : Num cy) :
    ∃ adet bdet cdet abdet fin1 det, liftExpansion laxSum spl ax ay (crossExpansion spl bx cy cx by') = .ok adet ∧
      liftExpansion laxSum spl bx by' (crossExpansion spl cx ay ax cy) = .ok bdet ∧
      liftExpansion laxSum spl cx cy (crossExpansion spl ax by' bx ay) = .ok cdet ∧
      laxSum 32 32 adet bdet = .ok abdet ∧ laxSum 64 32 abdet cdet = .ok fin1 ∧ Fin' (det6 ax ay bx by' cx cy) fin1 ∧
      estimate fin1 = some det ∧ |det - det6 ax ay bx by' cx cy| ≤ 5 / 4 * eta * |det6 ax ay bx by' cx cy| ∧ MultOf (-960) det := by
  obtain ⟨a, ea, ga⟩ := lift_lax n1 n2 (good_cross n3.d n6.d n5.d n4.d n3.m n6.m n5.m n4.m)
  obtain ⟨b, eb, gb⟩ := lift_lax n3 n4 (good_cross n5.d n2.d n1.d n6.d n5.m n2.m n1.m n6.m)
  obtain ⟨c, ec, gc⟩ := lift_lax n5 n6 (good_cross n1.d n4.d n3.d n2.d n1.m n4.m n3.m n2.m)
  obtain ⟨d, ed, gd⟩ := Fin'.add 32 32 ga.1 gb.1
  obtain ⟨f, ef, gf⟩ := Fin'.add 64 32 gd.1 gc.1
  have gf' : Fin' (det6 ax ay bx by' cx cy) f := gf.cast (by unfold det6; ring)
  obtain ⟨q, eq, hq⟩ := estimate_exp gf'.1.e gf'.1.ne
  rw [gf'.1.sum] at hq
  refine ⟨a, b, c, d, f, q, ea, eb, ec, ed, ef, gf', eq, hq, ?_⟩
  have fold : ∀ (xs : List ℚ) (Q : ℚ), MultOf (-960) Q → (∀ x ∈ xs, MultOf (-960) x) →
      MultOf (-960) (xs.foldl (fun q x => fl (q + x)) Q) := by
    intro xs
    induction xs with
    | nil => intro Q h _; exact h
    | cons x xs ih =>
      intro Q h hx
      exact ih _ (h.add (hx x (by simp))).fl fun y hy => hx y (by simp [hy])
  have hm := gf'.1.m
  cases f with
  | nil => simp [estimate] at eq
  | cons x xs =>
    unfold estimate at eq
    rw [Option.some.injEq] at eq
    rw [← eq]
    exact fold xs x (hm x (by simp)) fun y hy => hm y (by simp [hy])

/-- `incircleadapt` is right, on a machine where reading behind an array does no harm. -/
theorem adapt_lax (pa pb pc pd : Pt ℚ) (da : DPt pa) (db : DPt pb) (dc : DPt pc) (dd : DPt pd)
    (ca : Coarse (-240) pa) (cb : Coarse (-240) pb) (cc : Coarse (-240) pc) (cd : Coarse (-240) pd) :
    ∃ d, incircleAdapt laxSum konst pa pb pc pd (incircleParts pa pb pc pd).2 = .ok d ∧ SameSign d (icDet pa pb pc pd) := by
  obtain ⟨n1, m1, e1, t1⟩ := num_tail ⟨da.1, ca.1⟩ ⟨dd.1, cd.1⟩
  obtain ⟨n2, m2, e2, t2⟩ := num_tail ⟨da.2, ca.2⟩ ⟨dd.2, cd.2⟩
  obtain ⟨n3, m3, e3, t3⟩ := num_tail ⟨db.1, cb.1⟩ ⟨dd.1, cd.1⟩
  obtain ⟨n4, m4, e4, t4⟩ := num_tail ⟨db.2, cb.2⟩ ⟨dd.2, cd.2⟩
  obtain ⟨n5, m5, e5, t5⟩ := num_tail ⟨dc.1, cc.1⟩ ⟨dd.1, cd.1⟩
  obtain ⟨n6, m6, e6, t6⟩ := num_tail ⟨dc.2, cc.2⟩ ⟨dd.2, cd.2⟩
  have hD : icDet pa pb pc pd = det6 (pa.x - pd.x) (pa.y - pd.y) (pb.x - pd.x) (pb.y - pd.y) (pc.x - pd.x) (pc.y - pd.y) := rfl
  have hP : (incircleParts pa pb pc pd).2 = fl (permSum (fl (pa.x - pd.x)) (fl (pa.y - pd.y)) (fl (pb.x - pd.x)) (fl (pb.y - pd.y))
      (fl (pc.x - pd.x)) (fl (pc.y - pd.y))) := rfl
  have hs : konst.splitter = spl := rfl
  rw [hD, hP]
  unfold incircleAdapt
  dsimp only
  rw [hs]
  generalize twoDiffTail pa.x pd.x (fl (pa.x - pd.x)) = axt at *
  generalize twoDiffTail pa.y pd.y (fl (pa.y - pd.y)) = ayt at *
  generalize twoDiffTail pb.x pd.x (fl (pb.x - pd.x)) = bxt at *
  generalize twoDiffTail pb.y pd.y (fl (pb.y - pd.y)) = byt at *
  generalize twoDiffTail pc.x pd.x (fl (pc.x - pd.x)) = cxt at *
  generalize twoDiffTail pc.y pd.y (fl (pc.y - pd.y)) = cyt at *
  generalize fl (pa.x - pd.x) = ax at *
  generalize fl (pa.y - pd.y) = ay at *
  generalize fl (pb.x - pd.x) = bx at *
  generalize fl (pb.y - pd.y) = by' at *
  generalize fl (pc.x - pd.x) = cx at *
  generalize fl (pc.y - pd.y) = cy at *
  rw [e1, e2, e3, e4, e5, e6]
  have exp := det_expand t1 t2 t3 t4 t5 t6
  have cor := corrections_err n1.m n2.m m1.m m2.m n3.m n4.m m3.m m4.m n5.m n6.m m5.m m6.m t1 t2 t3 t4 t5 t6
  obtain ⟨mw, w0, hw⟩ := perm_size n1 n2 n3 n4 n5 n6
  obtain ⟨adet, bdet, cdet, abdet, fin1, det, ea, eb, ec, ed, ef, gf, eq, hq, mq⟩ := sum_stage n1 n2 n3 n4 n5 n6
  obtain ⟨dl, el, hl⟩ := last_lax n1 n2 n3 n4 n5 n6 m1 m2 m3 m4 m5 m6 gf
  have hB := boundB mw w0
  have S0 := size6_nonneg ax ay bx by' cx cy
  have u0 := uRnd_pos
  rw [ea, Outcome.bind_ok, eb, Outcome.bind_ok, ec, Outcome.bind_ok, ed, Outcome.bind_ok, ef, Outcome.bind_ok, eq]
  dsimp only
  have P0 : 0 ≤ fl (permSum ax ay bx by' cx cy) := fl_nonneg w0
  have hwP : permSum ax ay bx by' cx cy ≤ (1 + uRnd) * fl (permSum ax ay bx by' cx cy) := le_of_rel (low mw) w0
  have mP : MultOf (-960) (fl (permSum ax ay bx by' cx cy)) := mw.fl
  generalize fl (permSum ax ay bx by' cx cy) = P at *
  split_ifs with c1 c2 c3
  · -- second stage
    refine ⟨det, rfl, stageB hq ?_ hw w0 (hB.trans (mul_le_mul_of_nonneg_left (le_abs_of_filter c1) (by linarith)))⟩
    have a1 := exp.r
    have a2 := exp.f
    have a3 := abs_add_le (det6 (ax + axt) (ay + ayt) (bx + bxt) (by' + byt) (cx + cxt) (cy + cyt) - det6 ax ay bx by' cx cy -
      first18 ax ay axt ayt bx by' bxt byt cx cy cxt cyt) (first18 ax ay axt ayt bx by' bxt byt cx cy cxt cyt)
    rw [sub_add_cancel] at a3
    push_cast at a1 a2
    linarith
  · -- no tails
    obtain ⟨z1, z2, z3, z4, z5, z6⟩ := c2
    refine ⟨det, rfl, ?_⟩
    rw [z1, z2, z3, z4, z5, z6]
    simp only [add_zero]
    by_cases hz : det6 ax ay bx by' cx cy = 0
    · rw [hz, abs_zero, mul_zero, sub_zero] at hq
      rw [hz, abs_nonpos_iff.1 hq]; exact ⟨Iff.rfl, Iff.rfl⟩
    · refine sameSign_of_close (hq.trans_lt ?_)
      have := abs_pos.2 hz
      unfold eta; linarith
  · -- third stage
    refine ⟨_, rfl, ?_⟩
    have mc := cor.gr
    have hc := cor.e
    generalize fl (fl (correction ax ay axt ayt bx by' bxt byt cx cy cxt cyt + correction bx by' bxt byt cx cy cxt cyt ax ay axt ayt) +
      correction cx cy cxt cyt ax ay axt ayt bx by' bxt byt) = corr at *
    have a1 := exp.r
    push_cast at a1
    refine stageC hq a1 hc S0 hw hwP (low (mq.add mc)) ?_ (le_abs_of_filter c3)
    -- roundings of the error bound
    have b1 : MultOf (-1074) (fl (konst.iccerrboundC * P)) := (fl_isDouble _).mult1074
    have b2 : MultOf (-1074) (konst.resulterrbound * |det|) := multR.const (MultOf.abs mq) (by norm_num)
    have k1 := boundC mP P0
    have k2 := le_of_rel b2 (mul_nonneg (by unfold konst; norm_num) (abs_nonneg det))
    have i1 := fl_nonneg (mul_nonneg (show 0 ≤ konst.iccerrboundC by unfold konst; norm_num) P0)
    have i2 := fl_nonneg (mul_nonneg (show 0 ≤ konst.resulterrbound by unfold konst; norm_num) (abs_nonneg det))
    have b3 : MultOf (-1074) (fl (konst.iccerrboundC * P) + fl (konst.resulterrbound * |det|)) := b1.add b2.fl
    have k3 := mul_le_mul_of_nonneg_left (le_of_rel b3 (add_nonneg i1 i2)) (show 0 ≤ 1 + uRnd by linarith)
    rw [pow_two]
    linarith
  · exact ⟨dl, el, hl⟩

end Delynoi.Ex
