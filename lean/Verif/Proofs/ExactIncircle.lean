import Verif.Proofs.ExactCcw2
import Mathlib.Tactic.LinearCombination
/-!
# The filter of `incircle`
-/
set_option linter.unusedSectionVars false
namespace Delynoi.Ex

/-- Rounded products of rounded differences. -/
theorem prod3 {X x Y y p : ℚ} (hX : |X - x| ≤ uRnd * |x|) (hY : |Y - y| ≤ uRnd * |y|) (hp : |p - x * y| ≤ uRnd * |p|) :
    |X * Y - p| ≤ (3 * uRnd + 4 * uRnd ^ 2) * |p| := by
  have e1 := mul_close hX hY
  have g1 : |x * y| ≤ (1 + uRnd) * |p| := by
    have := abs_sub_abs_le_abs_sub (x * y) p
    rw [abs_sub_comm] at this; linarith
  have f2 : |X * Y - p| ≤ |X * Y - x * y| + |x * y - p| := abs_sub_le _ _ _
  rw [abs_sub_comm (x * y)] at f2
  have := abs_nonneg p
  num_u
  linarith

/-- A rounded sum of two squares. -/
theorem lift4 {X x Y y p q s : ℚ} (hX : |X - x| ≤ uRnd * |x|) (hY : |Y - y| ≤ uRnd * |y|)
    (hp : |p - x * x| ≤ uRnd * |p|) (hq : |q - y * y| ≤ uRnd * |q|) (p0 : 0 ≤ p) (q0 : 0 ≤ q) (s0 : 0 ≤ s)
    (hs : |s - (p + q)| ≤ uRnd * |s|) :
    |X * X + Y * Y - s| ≤ (4 * uRnd + 8 * uRnd ^ 2) * s := by
  have e1 := prod3 hX hX hp
  have e2 := prod3 hY hY hq
  rw [abs_of_nonneg p0] at e1
  rw [abs_of_nonneg q0] at e2
  rw [abs_of_nonneg s0] at hs
  have f : |X * X + Y * Y - s| ≤ |X * X - p| + |Y * Y - q| + |s - (p + q)| := by
    rw [show X * X + Y * Y - s = (X * X - p) + (Y * Y - q) - (s - (p + q)) by ring]
    refine (abs_sub_le' _ _).trans (add_le_add_left (abs_add_le _ _) _)
  obtain ⟨g1, g2⟩ := abs_le.1 hs
  generalize |X * X + Y * Y - s| = w at *
  num_u
  linarith

/-- One of the three terms of the determinant. -/
theorem term9 {A a M N m n d t : ℚ} (a0 : 0 ≤ a) (hA : |A - a| ≤ (4 * uRnd + 8 * uRnd ^ 2) * a)
    (hM : |M - m| ≤ (3 * uRnd + 4 * uRnd ^ 2) * |m|) (hN : |N - n| ≤ (3 * uRnd + 4 * uRnd ^ 2) * |n|)
    (hd : |d - (m - n)| ≤ uRnd * |m - n|) (ht : |t - a * d| ≤ uRnd * |a * d|) :
    |A * (M - N) - t| ≤ (9 * uRnd + 30 * uRnd ^ 2) * (a * (|m| + |n|)) ∧ |t| ≤ (1 + 3 * uRnd) * (a * (|m| + |n|)) := by
  have h1 : |M - N - (m - n)| ≤ (3 * uRnd + 4 * uRnd ^ 2) * (|m| + |n|) := by
    rw [show M - N - (m - n) = (M - m) - (N - n) by ring]
    refine (abs_sub_le' _ _).trans ?_
    linarith
  have h2 := abs_sub_le' m n
  have h3 : |M - N| ≤ (1 + 4 * uRnd) * (|m| + |n|) := by
    have := abs_sub_abs_le_abs_sub (M - N) (m - n)
    have hs := add_nonneg (abs_nonneg m) (abs_nonneg n)
    generalize |m| + |n| = s at *
    num_u
    linarith
  have h4 : |d| ≤ (1 + uRnd) * (|m| + |n|) := by
    have := abs_sub_abs_le_abs_sub d (m - n)
    have := mul_le_mul_of_nonneg_left h2 uRnd_pos.le
    linarith
  have h5 : |M - N - d| ≤ (4 * uRnd + 4 * uRnd ^ 2) * (|m| + |n|) := by
    have : |M - N - d| ≤ |M - N - (m - n)| + |d - (m - n)| := by
      rw [abs_sub_comm d]; exact abs_sub_le _ _ _
    have := mul_le_mul_of_nonneg_left h2 uRnd_pos.le
    linarith
  have hs := add_nonneg (abs_nonneg m) (abs_nonneg n)
  generalize |m| + |n| = s at *
  have has := mul_nonneg a0 hs
  have h6 : |(A - a) * (M - N)| ≤ (4 * uRnd + 8 * uRnd ^ 2) * (1 + 4 * uRnd) * (a * s) := by
    rw [abs_mul]
    calc |A - a| * |M - N| ≤ ((4 * uRnd + 8 * uRnd ^ 2) * a) * ((1 + 4 * uRnd) * s) :=
          mul_le_mul hA h3 (abs_nonneg _) (by have := uRnd_pos; positivity)
      _ = _ := by ring
  have h7 : |a * (M - N - d)| ≤ (4 * uRnd + 4 * uRnd ^ 2) * (a * s) := by
    rw [abs_mul, abs_of_nonneg a0]
    calc a * |M - N - d| ≤ a * ((4 * uRnd + 4 * uRnd ^ 2) * s) := mul_le_mul_of_nonneg_left h5 a0
      _ = _ := by ring
  have h8 : |a * d| ≤ (1 + uRnd) * (a * s) := by
    rw [abs_mul, abs_of_nonneg a0]
    calc a * |d| ≤ a * ((1 + uRnd) * s) := mul_le_mul_of_nonneg_left h4 a0
      _ = _ := by ring
  have h9 : |A * (M - N) - t| ≤ |(A - a) * (M - N)| + |a * (M - N - d)| + |t - a * d| := by
    rw [show A * (M - N) - t = (A - a) * (M - N) + a * (M - N - d) - (t - a * d) by ring]
    refine (abs_sub_le' _ _).trans (add_le_add_left (abs_add_le _ _) _)
  have h10 := abs_sub_abs_le_abs_sub t (a * d)
  generalize a * s = z at *
  constructor
  · num_u
    linarith
  · num_u
    linarith

/-- What the decision of the filter means: bounds for the terms and the permanent. -/
theorem filter10 {T1 T2 T3 t1 t2 t3 z1 z2 z3 w det : ℚ} (z10 : 0 ≤ z1) (z20 : 0 ≤ z2) (z30 : 0 ≤ z3)
    (h1 : |T1 - t1| ≤ (9 * uRnd + 30 * uRnd ^ 2) * z1 ∧ |t1| ≤ (1 + 3 * uRnd) * z1)
    (h2 : |T2 - t2| ≤ (9 * uRnd + 30 * uRnd ^ 2) * z2 ∧ |t2| ≤ (1 + 3 * uRnd) * z2)
    (h3 : |T3 - t3| ≤ (9 * uRnd + 30 * uRnd ^ 2) * z3 ∧ |t3| ≤ (1 + 3 * uRnd) * z3)
    (hw : |w - (t1 + t2)| ≤ uRnd * |t1 + t2|) (hdet : |det - (w + t3)| ≤ uRnd * |det|)
    {P E : ℚ} (hP : z1 + z2 + z3 ≤ (1 + 4 * uRnd + 7 * uRnd ^ 2) * P) (hE : (10 + 96 * uRnd) * uRnd * P ≤ (1 + uRnd) * E)
    (hf : E < |det|) : |det - (T1 + T2 + T3)| < |det| := by
  have g1 := abs_add_le t1 t2
  have g2 : |det - (T1 + T2 + T3)| ≤ |det - (w + t3)| + |w - (t1 + t2)| + |T1 - t1| + |T2 - t2| + |T3 - t3| := by
    rw [show det - (T1 + T2 + T3) = (det - (w + t3)) + (w - (t1 + t2)) - (T1 - t1) - (T2 - t2) - (T3 - t3) by ring]
    refine (abs_sub_le' _ _).trans (add_le_add_left ?_ _)
    refine (abs_sub_le' _ _).trans (add_le_add_left ?_ _)
    refine (abs_sub_le' _ _).trans (add_le_add_left (abs_add_le _ _) _)
  obtain ⟨a1, b1⟩ := h1
  obtain ⟨a2, b2⟩ := h2
  obtain ⟨a3, -⟩ := h3
  generalize |det - (T1 + T2 + T3)| = q at *
  generalize |det - (w + t3)| = q1 at *
  generalize |w - (t1 + t2)| = q2 at *
  generalize |t1 + t2| = q3 at *
  generalize |det| = ad at *
  num_u
  linarith

/-- The permanent. -/
theorem permanent_ge {a b c m1 n1 m2 n2 m3 n3 s1 s2 s3 v1 v2 v3 w P : ℚ} (a0 : 0 ≤ a) (b0 : 0 ≤ b) (c0 : 0 ≤ c)
    (hs1 : |m1| + |n1| ≤ (1 + uRnd) * s1) (hs2 : |m2| + |n2| ≤ (1 + uRnd) * s2) (hs3 : |m3| + |n3| ≤ (1 + uRnd) * s3)
    (hv1 : s1 * a ≤ (1 + uRnd) * v1) (hv2 : s2 * b ≤ (1 + uRnd) * v2) (hv3 : s3 * c ≤ (1 + uRnd) * v3)
    (hw : v1 + v2 ≤ (1 + uRnd) * w) (hP : w + v3 ≤ (1 + uRnd) * P) (v0 : 0 ≤ v3) :
    a * (|m1| + |n1|) + b * (|m2| + |n2|) + c * (|m3| + |n3|) ≤ (1 + 4 * uRnd + 7 * uRnd ^ 2) * P := by
  have k1 := mul_le_mul_of_nonneg_left hs1 a0
  have k2 := mul_le_mul_of_nonneg_left hs2 b0
  have k3 := mul_le_mul_of_nonneg_left hs3 c0
  have r1 : a * ((1 + uRnd) * s1) = (1 + uRnd) * (s1 * a) := by ring
  have r2 : b * ((1 + uRnd) * s2) = (1 + uRnd) * (s2 * b) := by ring
  have r3 : c * ((1 + uRnd) * s3) = (1 + uRnd) * (s3 * c) := by ring
  rw [r1] at k1
  rw [r2] at k2
  rw [r3] at k3
  have z1 : 0 ≤ a * (|m1| + |n1|) := by positivity
  have z2 : 0 ≤ b * (|m2| + |n2|) := by positivity
  have z3 : 0 ≤ c * (|m3| + |n3|) := by positivity
  generalize a * (|m1| + |n1|) = y1 at *
  generalize b * (|m2| + |n2|) = y2 at *
  generalize c * (|m3| + |n3|) = y3 at *
  num_u
  linarith

/-- The exact determinant. -/
def icDet (a b c d : Pt ℚ) : ℚ :=
  ((a.x - d.x) * (a.x - d.x) + (a.y - d.y) * (a.y - d.y)) * ((b.x - d.x) * (c.y - d.y) - (c.x - d.x) * (b.y - d.y)) +
  ((b.x - d.x) * (b.x - d.x) + (b.y - d.y) * (b.y - d.y)) * ((c.x - d.x) * (a.y - d.y) - (a.x - d.x) * (c.y - d.y)) +
  ((c.x - d.x) * (c.x - d.x) + (c.y - d.y) * (c.y - d.y)) * ((a.x - d.x) * (b.y - d.y) - (b.x - d.x) * (a.y - d.y))

/-- The determinant and the circle. -/
theorem icDet_eq (a b c d o : Pt ℚ) (h1 : sqDist o a = sqDist o b) (h2 : sqDist o a = sqDist o c) :
    icDet a b c d = turn a b c * (sqDist o a - sqDist o d) := by
  unfold icDet turn
  unfold sqDist at *
  linear_combination ((c.x - d.x) * (a.y - d.y) - (a.x - d.x) * (c.y - d.y)) * (-h1) +
    ((a.x - d.x) * (b.y - d.y) - (b.x - d.x) * (a.y - d.y)) * (-h2)

theorem multIcc : MultOf (-101) konst.iccerrboundA := ⟨2814749767106563, by decide +kernel⟩

theorem le_of_rel {x : ℚ} (h : MultOf (-1074) x) (h0 : 0 ≤ x) : x ≤ (1 + uRnd) * fl x := by
  have := h.rel.2
  rw [abs_of_nonneg (fl_nonneg h0)] at this
  linarith [(abs_le.1 this).1]

theorem MultOf.abs {e : Int} {x : ℚ} (h : MultOf e x) : MultOf e |x| := by
  rcases abs_choice x with h' | h' <;> rw [h']; exacts [h, h.neg]

theorem mulA {e f g : Int} {x y : ℚ} (hx : MultOf e x) (hy : MultOf f y) (h : g = e + f := by norm_num) : MultOf g (x * y) :=
  h ▸ hx.mul hy

/-- The filter of `incircle`. -/
theorem incircle_filter (pa pb pc pd : Pt ℚ) (ca : Coarse (-240) pa) (cb : Coarse (-240) pb) (cc : Coarse (-240) pc)
    (cd : Coarse (-240) pd)
    (hf : (incircleParts pa pb pc pd).1 > fl (konst.iccerrboundA * (incircleParts pa pb pc pd).2) ∨
      -(incircleParts pa pb pc pd).1 > fl (konst.iccerrboundA * (incircleParts pa pb pc pd).2)) :
    SameSign (incircleParts pa pb pc pd).1 (icDet pa pb pc pd) := by
  have hf' : fl (konst.iccerrboundA * (incircleParts pa pb pc pd).2) < |(incircleParts pa pb pc pd).1| := by
    rcases hf with h | h
    · exact h.trans_le (le_abs_self _)
    · exact h.trans_le (neg_le_abs _)
  apply sameSign_of_close'
  unfold icDet
  unfold incircleParts at hf' ⊢
  dsimp only at hf' ⊢
  clear hf
  have dif : ∀ {x y : ℚ}, MultOf (-240) x → MultOf (-240) y →
      MultOf (-240) (fl (x - y)) ∧ |x - y - fl (x - y)| ≤ uRnd * |fl (x - y)| := by
    intro x y hx hy
    refine ⟨(hx.sub hy).fl, ?_⟩
    rw [abs_sub_comm]; exact (low (hx.sub hy)).rel.2
  obtain ⟨m1, e1⟩ := dif ca.1 cd.1
  obtain ⟨m2, e2⟩ := dif cb.1 cd.1
  obtain ⟨m3, e3⟩ := dif cc.1 cd.1
  obtain ⟨m4, e4⟩ := dif ca.2 cd.2
  obtain ⟨m5, e5⟩ := dif cb.2 cd.2
  obtain ⟨m6, e6⟩ := dif cc.2 cd.2
  generalize fl (pa.x - pd.x) = adx at *
  generalize fl (pb.x - pd.x) = bdx at *
  generalize fl (pc.x - pd.x) = cdx at *
  generalize fl (pa.y - pd.y) = ady at *
  generalize fl (pb.y - pd.y) = bdy at *
  generalize fl (pc.y - pd.y) = cdy at *
  generalize pa.x - pd.x = Adx at *
  generalize pb.x - pd.x = Bdx at *
  generalize pc.x - pd.x = Cdx at *
  generalize pa.y - pd.y = Ady at *
  generalize pb.y - pd.y = Bdy at *
  generalize pc.y - pd.y = Cdy at *
  have pr : ∀ {x y : ℚ}, MultOf (-240) x → MultOf (-240) y →
      MultOf (-480) (fl (x * y)) ∧ |fl (x * y) - x * y| ≤ uRnd * |fl (x * y)| := by
    intro x y hx hy
    have hm : MultOf (-480) (x * y) := mulA hx hy
    exact ⟨hm.fl, (low hm).rel.2⟩
  have lift : ∀ {X x Y y : ℚ}, MultOf (-240) x → MultOf (-240) y → |X - x| ≤ uRnd * |x| → |Y - y| ≤ uRnd * |y| →
      0 ≤ fl (fl (x * x) + fl (y * y)) ∧ MultOf (-480) (fl (fl (x * x) + fl (y * y))) ∧
      |X * X + Y * Y - fl (fl (x * x) + fl (y * y))| ≤ (4 * uRnd + 8 * uRnd ^ 2) * fl (fl (x * x) + fl (y * y)) := by
    intro X x Y y hx hy hX hY
    obtain ⟨q1, r1⟩ := pr hx hx
    obtain ⟨q2, r2⟩ := pr hy hy
    have p0 : 0 ≤ fl (x * x) := fl_nonneg (mul_self_nonneg x)
    have q0 : 0 ≤ fl (y * y) := fl_nonneg (mul_self_nonneg y)
    have s0 : 0 ≤ fl (fl (x * x) + fl (y * y)) := fl_nonneg (add_nonneg p0 q0)
    exact ⟨s0, (q1.add q2).fl, lift4 hX hY r1 r2 p0 q0 s0 (low (q1.add q2)).rel.2⟩
  obtain ⟨a0, ma, la⟩ := lift m1 m4 e1 e4
  obtain ⟨b0, mb, lb⟩ := lift m2 m5 e2 e5
  obtain ⟨c0, mc, lc⟩ := lift m3 m6 e3 e6
  generalize fl (fl (adx * adx) + fl (ady * ady)) = al at *
  generalize fl (fl (bdx * bdx) + fl (bdy * bdy)) = bl at *
  generalize fl (fl (cdx * cdx) + fl (cdy * cdy)) = cl at *
  obtain ⟨n1, r1⟩ := pr m2 m6
  obtain ⟨n2, r2⟩ := pr m3 m5
  obtain ⟨n3, r3⟩ := pr m3 m4
  obtain ⟨n4, r4⟩ := pr m1 m6
  obtain ⟨n5, r5⟩ := pr m1 m5
  obtain ⟨n6, r6⟩ := pr m2 m4
  have k1 := prod3 e2 e6 r1
  have k2 := prod3 e3 e5 r2
  have k3 := prod3 e3 e4 r3
  have k4 := prod3 e1 e6 r4
  have k5 := prod3 e1 e5 r5
  have k6 := prod3 e2 e4 r6
  generalize fl (bdx * cdy) = v1 at *
  generalize fl (cdx * bdy) = v2 at *
  generalize fl (cdx * ady) = v3 at *
  generalize fl (adx * cdy) = v4 at *
  generalize fl (adx * bdy) = v5 at *
  generalize fl (bdx * ady) = v6 at *
  have tm : ∀ {a m n : ℚ}, MultOf (-480) a → MultOf (-480) m → MultOf (-480) n →
      |fl (m - n) - (m - n)| ≤ uRnd * |m - n| ∧
      |fl (a * fl (m - n)) - a * fl (m - n)| ≤ uRnd * |a * fl (m - n)| ∧ MultOf (-960) (fl (a * fl (m - n))) := by
    intro a m n ha hm hn
    have h1 := hm.sub hn
    have h2 : MultOf (-960) (a * fl (m - n)) := mulA ha h1.fl
    exact ⟨(low h1).rel.1, (low h2).rel.1, h2.fl⟩
  obtain ⟨i1, j1, o1⟩ := tm ma n1 n2
  obtain ⟨i2, j2, o2⟩ := tm mb n3 n4
  obtain ⟨i3, j3, o3⟩ := tm mc n5 n6
  have t1 := term9 a0 la k1 k2 i1 j1
  have t2 := term9 b0 lb k3 k4 i2 j2
  have t3 := term9 c0 lc k5 k6 i3 j3
  have pm : ∀ {a m n : ℚ}, 0 ≤ a → MultOf (-480) a → MultOf (-480) m → MultOf (-480) n →
      |m| + |n| ≤ (1 + uRnd) * fl (|m| + |n|) ∧
      fl (|m| + |n|) * a ≤ (1 + uRnd) * fl (fl (|m| + |n|) * a) ∧ MultOf (-960) (fl (fl (|m| + |n|) * a)) ∧
      0 ≤ fl (fl (|m| + |n|) * a) := by
    intro a m n ha0 ha hm hn
    have h0 := add_nonneg (abs_nonneg m) (abs_nonneg n)
    have h1 := (MultOf.abs hm).add (MultOf.abs hn)
    have h2 : MultOf (-960) (fl (|m| + |n|) * a) := mulA h1.fl ha
    have h3 := mul_nonneg (fl_nonneg h0) ha0
    exact ⟨le_of_rel (low h1) h0, le_of_rel (low h2) h3, h2.fl, fl_nonneg h3⟩
  obtain ⟨x1, y1, w1, u1⟩ := pm a0 ma n1 n2
  obtain ⟨x2, y2, w2, u2⟩ := pm b0 mb n3 n4
  obtain ⟨x3, y3, w3, u3⟩ := pm c0 mc n5 n6
  have g1 := le_of_rel (low (w1.add w2)) (add_nonneg u1 u2)
  have u12 := fl_nonneg (add_nonneg u1 u2)
  have g2 := le_of_rel (low ((w1.add w2).fl.add w3)) (add_nonneg u12 u3)
  have hP := permanent_ge a0 b0 c0 x1 x2 x3 y1 y2 y3 g1 g2 u3
  have hE := le_of_rel (MultOf.const multIcc ((w1.add w2).fl.add w3).fl (by norm_num))
    (mul_nonneg (by decide +kernel) (fl_nonneg (add_nonneg u12 u3)))
  refine filter10 (by positivity) (by positivity) (by positivity) t1 t2 t3 (low (o1.add o2)).rel.1
    (low ((o1.add o2).fl.add o3)).rel.2 hP ?_ hf'
  have hk : konst.iccerrboundA = (10 + 96 * uRnd) * uRnd := by
    have : konst.iccerrboundA = (10 + 96 / 9007199254740992) * (1 / 9007199254740992) := rfl
    rw [this, uRnd_eq]; norm_num
  rw [hk] at hE ⊢
  exact hE

end Delynoi.Ex
