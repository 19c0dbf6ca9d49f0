import Verif.Proofs.ErCalc
import Verif.Proofs.ExactIncircle
/-! The error bounds of `incircleadapt`. -/
namespace Delynoi.Ex
set_option linter.unusedVariables false

/-- The sizes of the terms of the determinant. -/
def size6 (ax ay bx by' cx cy : ℚ) : ℚ :=
  (|ax| * |ax| + |ay| * |ay|) * (|bx| * |cy| + |cx| * |by'|) + (|bx| * |bx| + |by'| * |by'|) * (|cx| * |ay| + |ax| * |cy|) +
    (|cx| * |cx| + |cy| * |cy|) * (|ax| * |by'| + |bx| * |ay|)

/-- The terms of first order in the tails. -/
def first6 (ax ay axt ayt bx by' bxt byt cx cy cxt cyt : ℚ) : ℚ :=
  (ax * ax + ay * ay) * ((bx * cyt + cy * bxt) - (by' * cxt + cx * byt)) + 2 * (ax * axt + ay * ayt) * (bx * cy - by' * cx)

def first18 (ax ay axt ayt bx by' bxt byt cx cy cxt cyt : ℚ) : ℚ :=
  first6 ax ay axt ayt bx by' bxt byt cx cy cxt cyt + first6 bx by' bxt byt cx cy cxt cyt ax ay axt ayt +
    first6 cx cy cxt cyt ax ay axt ayt bx by' bxt byt

theorem size6_nonneg (ax ay bx by' cx cy : ℚ) : 0 ≤ size6 ax ay bx by' cx cy := by
  unfold size6; positivity

/-- The exact determinant against that of the rounded differences. -/
theorem det_expand {ax ay bx by' cx cy axt ayt bxt byt cxt cyt : ℚ} (h1 : |axt| ≤ uRnd * |ax|) (h2 : |ayt| ≤ uRnd * |ay|)
    (h3 : |bxt| ≤ uRnd * |bx|) (h4 : |byt| ≤ uRnd * |by'|) (h5 : |cxt| ≤ uRnd * |cx|) (h6 : |cyt| ≤ uRnd * |cy|) :
    Er2 4 (det6 (ax + axt) (ay + ayt) (bx + bxt) (by' + byt) (cx + cxt) (cy + cyt)) (det6 ax ay bx by' cx cy)
      (first18 ax ay axt ayt bx by' bxt byt cx cy cxt cyt) (size6 ax ay bx by' cx cy) := by
  have a := Er2.one h1
  have b := Er2.one h2
  have c := Er2.one h3
  have d := Er2.one h4
  have e := Er2.one h5
  have f := Er2.one h6
  have := ((((a.mul a).add (b.mul b)).mul ((c.mul f).sub (e.mul d))).add
    (((c.mul c).add (d.mul d)).mul ((e.mul b).sub (a.mul f)))).add
    (((e.mul e).add (f.mul f)).mul ((a.mul d).sub (c.mul b)))
  unfold det6 size6 first18 first6
  convert this using 1
  ring

/-- The computed correction. -/
theorem correction_err {x y xt yt bx by' bxt byt cx cy cxt cyt : ℚ} (n1 : MultOf (-240) x) (n2 : MultOf (-240) y)
    (n3 : MultOf (-240) xt) (n4 : MultOf (-240) yt) (n5 : MultOf (-240) bx) (n6 : MultOf (-240) by') (n7 : MultOf (-240) bxt)
    (n8 : MultOf (-240) byt) (n9 : MultOf (-240) cx) (n10 : MultOf (-240) cy) (n11 : MultOf (-240) cxt) (n12 : MultOf (-240) cyt)
    (h1 : |xt| ≤ uRnd * |x|) (h2 : |yt| ≤ uRnd * |y|)
    (h3 : |bxt| ≤ uRnd * |bx|) (h4 : |byt| ≤ uRnd * |by'|) (h5 : |cxt| ≤ uRnd * |cx|) (h6 : |cyt| ≤ uRnd * |cy|) :
    Er (-960) 7 (correction x y xt yt bx by' bxt byt cx cy cxt cyt) (first6 x y xt yt bx by' bxt byt cx cy cxt cyt)
      (4 * uRnd * ((|x| * |x| + |y| * |y|) * (|bx| * |cy| + |cx| * |by'|))) := by
  have ex : ∀ {c : ℚ}, MultOf (-240) c → Er (-240) 0 c c |c| := fun h => Er.exact h (le_refl _)
  have pr : ∀ {a b m n : ℚ}, Er (-240) 0 a a m → Er (-240) 0 b b n → Er (-480) 1 (fl (a * b)) (a * b) (m * n) := by
    intro a b m n ha hb
    exact (ha.mul hb).fl (by norm_num)
  have X := ex n1
  have Y := ex n2
  have BX := ex n5
  have BY := ex n6
  have CX := ex n9
  have CY := ex n10
  have XT := Er.exact n3 h1
  have YT := Er.exact n4 h2
  have BXT := Er.exact n7 h3
  have BYT := Er.exact n8 h4
  have CXT := Er.exact n11 h5
  have CYT := Er.exact n12 h6
  have lift := ((pr X X).add (pr Y Y)).fl (by norm_num)
  have t1 := ((pr BX CYT).add (pr CY BXT)).fl (by norm_num)
  have t2 := ((pr BY CXT).add (pr CX BYT)).fl (by norm_num)
  have t3 := (t1.sub t2).fl (by norm_num)
  have p1 := (lift.mul t3).fl (by norm_num)
  have s1 := ((pr X XT).add (pr Y YT)).fl (by norm_num)
  have dbl : fl (2 * fl (fl (x * xt) + fl (y * yt))) = 2 * fl (fl (x * xt) + fl (y * yt)) := fl_of_double (fl_isDouble _).two_mul
  have s2 := s1.two
  have c1 := ((pr BX CY).sub (pr BY CX)).fl (by norm_num)
  have p2 := (s2.mul c1).fl (by norm_num)
  have tot := (p1.add (p2.mono (k := 6) (by norm_num))).fl (by norm_num)
  unfold correction
  rw [dbl]
  refine tot.cast (by norm_num) rfl rfl ?_
  ring

/-- The sum of the corrections. -/
theorem corrections_err {x y xt yt bx by' bxt byt cx cy cxt cyt : ℚ} (n1 : MultOf (-240) x) (n2 : MultOf (-240) y)
    (n3 : MultOf (-240) xt) (n4 : MultOf (-240) yt) (n5 : MultOf (-240) bx) (n6 : MultOf (-240) by') (n7 : MultOf (-240) bxt)
    (n8 : MultOf (-240) byt) (n9 : MultOf (-240) cx) (n10 : MultOf (-240) cy) (n11 : MultOf (-240) cxt) (n12 : MultOf (-240) cyt)
    (h1 : |xt| ≤ uRnd * |x|) (h2 : |yt| ≤ uRnd * |y|)
    (h3 : |bxt| ≤ uRnd * |bx|) (h4 : |byt| ≤ uRnd * |by'|) (h5 : |cxt| ≤ uRnd * |cx|) (h6 : |cyt| ≤ uRnd * |cy|) :
    Er (-960) 9 (fl (fl (correction x y xt yt bx by' bxt byt cx cy cxt cyt + correction bx by' bxt byt cx cy cxt cyt x y xt yt) +
      correction cx cy cxt cyt x y xt yt bx by' bxt byt))
      (first18 x y xt yt bx by' bxt byt cx cy cxt cyt) (4 * uRnd * size6 x y bx by' cx cy) := by
  have a := correction_err n1 n2 n3 n4 n5 n6 n7 n8 n9 n10 n11 n12 h1 h2 h3 h4 h5 h6
  have b := correction_err n5 n6 n7 n8 n9 n10 n11 n12 n1 n2 n3 n4 h3 h4 h5 h6 h1 h2
  have c := correction_err n9 n10 n11 n12 n1 n2 n3 n4 n5 n6 n7 n8 h5 h6 h1 h2 h3 h4
  have := (((a.add b).fl (by norm_num)).add (c.mono (k := 8) (by norm_num))).fl (by norm_num)
  refine this.cast rfl rfl rfl ?_
  unfold size6; ring

/-- The last rounding of `permanent` together with that of the error bound of the second stage. -/
theorem boundB {w : ℚ} (hw : MultOf (-960) w) (w0 : 0 ≤ w) :
    konst.iccerrboundB * w ≤ (1 + 15 / 8 * uRnd) * fl (konst.iccerrboundB * fl w) := by
  have P0 : 0 ≤ fl w := fl_nonneg w0
  by_cases hP : fl w = 0
  · have := (low hw).rel.2
    rw [hP, abs_zero, mul_zero] at this
    have h1 := abs_nonpos_iff.1 this
    have h2 : w = 0 := by linarith
    rw [h2, fl_zero, mul_zero, fl_zero, mul_zero]
  have dP := fl_isDouble w
  obtain ⟨A, e, hA1, hA2, hA⟩ := dP.normal hP
  have te := two_zpow_pos e
  have A0 : 0 < A := by
    by_contra hc
    push Not at hc
    have hc' : (A : ℚ) ≤ 0 := by exact_mod_cast hc
    have := mul_nonpos_of_nonpos_of_nonneg hc' te.le
    exact hP (by linarith)
  rw [abs_of_pos A0] at hA1 hA2
  have q1 : (4503599627370496 : ℚ) ≤ A := by exact_mod_cast hA1
  have q2 : (A : ℚ) ≤ 9007199254740991 := by exact_mod_cast (show A ≤ 9007199254740991 by omega)
  have el : -1013 ≤ e := by
    have h1 := hw.fl.le_abs hP
    rw [abs_of_nonneg P0, hA] at h1
    have h2 : (2 : ℚ) ^ (-960 : Int) < (2 : ℚ) ^ (53 + e) := by
      rw [two_zpow_add]
      refine h1.trans_lt (mul_lt_mul_of_pos_right (lt_of_le_of_lt q2 (by norm_num)) te)
    have := two_zpow_lt.1 h2
    omega
  -- the last rounding of `permanent`
  have hw1 : w ≤ (A + 1 / 2) * (2 : ℚ) ^ e := by
    have hle : w ≤ (2 : ℚ) ^ (e + 53) := by
      by_contra hcon
      push Not at hcon
      have hd : IsDouble ((2 : ℚ) ^ (e + 53)) := ⟨1, e + 53, by omega, by norm_num, by push_cast; ring⟩
      have := le_fl_of_double hd hcon.le
      rw [hA, add_comm, two_zpow_add] at this
      have := le_of_mul_le_mul_right this te
      norm_num at this
      linarith
    have := fl_grid_err (e := e) (by omega) (by rw [abs_of_nonneg w0]; exact hle)
    rw [hA] at this
    have := (abs_le.1 this).1
    linarith
  -- the error bound
  have z51 : (2 : ℚ) ^ e = 2251799813685248 * (2 : ℚ) ^ (e - 51) := by
    rw [show e = (e - 51) + 51 by ring, two_zpow_add, show e - 51 + 51 - 51 = e - 51 by ring]; norm_num; ring
  have tf := two_zpow_pos (e - 51)
  have hy : konst.iccerrboundB * fl w = (A + 12 * A / 9007199254740992) * (2 : ℚ) ^ (e - 51) := by
    rw [hA, z51]; unfold konst; ring
  rw [hy]
  set f := e - 51 with hf
  have fe : -1074 ≤ f := by omega
  have goal : ∀ E' : ℚ, E' * (2 : ℚ) ^ f ≤ fl ((A + 12 * A / 9007199254740992) * (2 : ℚ) ^ f) →
      (1 + 12 / 9007199254740992) * (A + 1 / 2) ≤ (1 + 15 / 8 * uRnd) * E' →
      konst.iccerrboundB * w ≤ (1 + 15 / 8 * uRnd) * fl ((A + 12 * A / 9007199254740992) * (2 : ℚ) ^ f) := by
    intro E' h1 h2
    have h3 : konst.iccerrboundB * w ≤ konst.iccerrboundB * ((A + 1 / 2) * (2 : ℚ) ^ e) :=
      mul_le_mul_of_nonneg_left hw1 (by unfold konst; norm_num)
    have h4 : konst.iccerrboundB * ((A + 1 / 2) * (2 : ℚ) ^ e) = (1 + 12 / 9007199254740992) * (A + 1 / 2) * (2 : ℚ) ^ f := by
      rw [z51]; unfold konst; ring
    rw [h4] at h3
    have h5 := mul_le_mul_of_nonneg_right h2 tf.le
    have h6 := mul_le_mul_of_nonneg_left h1 (show 0 ≤ 1 + 15 / 8 * uRnd by have := uRnd_pos; linarith)
    linarith
  have pos : 0 ≤ (A + 12 * A / 9007199254740992) * (2 : ℚ) ^ f := by
    have : (0 : ℚ) ≤ A := by linarith
    positivity
  rw [uRnd_eq] at goal ⊢
  by_cases c1 : (A : ℚ) ≤ 4503599627370496 * (13 / 12)
  · refine goal (A + 6) ?_ (by linarith)
    have hd : IsDouble ((A + 6) * (2 : ℚ) ^ f) := by
      refine isDouble_of_multOf fe ⟨A + 6, by push_cast; ring⟩ ?_
      rw [abs_of_nonneg (by have : (0 : ℚ) ≤ A := by linarith
                            positivity)]
      refine mul_le_mul_of_nonneg_right ?_ tf.le
      linarith
    refine le_fl_of_double hd (mul_le_mul_of_nonneg_right ?_ tf.le)
    linarith
  · push Not at c1
    by_cases c2 : (A : ℚ) + 12 * A / 9007199254740992 ≤ 9007199254740992
    · refine goal (A + 12 * A / 9007199254740992 - 1 / 2) ?_ (by linarith)
      have := fl_grid_err (x := (A + 12 * A / 9007199254740992) * (2 : ℚ) ^ f) (e := f) fe (by
        rw [abs_of_nonneg pos, add_comm f 53, two_zpow_add]
        refine mul_le_mul_of_nonneg_right (c2.trans (by norm_num)) tf.le)
      have := (abs_le.1 this).1
      linarith
    · push Not at c2
      refine goal (A + 12 * A / 9007199254740992 - 1) ?_ (by linarith)
      have := fl_grid_err (x := (A + 12 * A / 9007199254740992) * (2 : ℚ) ^ f) (e := f + 1) (by omega) (by
        rw [abs_of_nonneg pos, show f + 1 + 53 = 54 + f by ring, two_zpow_add]
        refine mul_le_mul_of_nonneg_right ?_ tf.le
        norm_num
        linarith)
      have := (abs_le.1 this).1
      rw [two_zpow_succ] at this
      linarith

end Delynoi.Ex
