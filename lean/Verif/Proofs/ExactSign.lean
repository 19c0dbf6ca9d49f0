import Verif.Proofs.ExactMul
/-!
# Signs that survive rounding: the stages of Triangle's orientation test
-/
set_option linter.unusedSectionVars false
namespace Delynoi

theorem uRnd_eq : uRnd = 1 / 9007199254740992 := by unfold uRnd; norm_num

/-- Rounding without underflow has a small relative error, of the number and of the result. -/
theorem fl_rel {x : ℚ} (h : MultOf (-1074) x) : |fl x - x| ≤ uRnd * |x| ∧ |fl x - x| ≤ uRnd * |fl x| := by
  by_cases hx : x = 0
  · rw [hx, fl_zero]; simp
  rcases max_choice (Int.log 2 |x| - 52) (-1074) with h1 | h1
  · have h2 := fl_half_ulp x
    have hu : ulpExp x = Int.log 2 |x| - 52 := h1
    rw [hu] at h2
    have hl := log_part x hx
    refine ⟨h2.trans hl, ?_⟩
    have hp : IsDouble ((2 : ℚ) ^ Int.log 2 |x|) := by
      have : -1074 ≤ Int.log 2 |x| - 52 := by rw [← h1]; exact le_max_right _ _
      refine ⟨1, Int.log 2 |x|, by omega, by norm_num, by push_cast; ring⟩
    have h3 : (2 : ℚ) ^ Int.log 2 |x| ≤ |fl x| := by
      rw [fl_abs]; exact le_fl_of_double hp (log_le x hx)
    refine h2.trans ?_
    rw [show Int.log 2 |x| - 52 = -52 + Int.log 2 |x| by ring, two_zpow_add]
    have : (2 : ℚ) ^ (-52 : Int) / 2 = uRnd := by rw [uRnd_eq]; norm_num
    rw [mul_comm, mul_div_assoc, this, mul_comm]
    exact mul_le_mul_of_nonneg_left h3 uRnd_pos.le
  · obtain ⟨k, hk⟩ := h
    have hu : ulpExp x = -1074 := h1
    have : fl x = x := fl_of_multiple _ k (by rw [hu]; exact hk)
    rw [this, sub_self, abs_zero]
    exact ⟨mul_nonneg uRnd_pos.le (abs_nonneg _), mul_nonneg uRnd_pos.le (abs_nonneg _)⟩

theorem MultOf.rel {x : ℚ} (h : MultOf (-1074) x) :
    |Delynoi.fl x - x| ≤ uRnd * |x| ∧ |Delynoi.fl x - x| ≤ uRnd * |Delynoi.fl x| := fl_rel h

/-- A large binary64 number is a multiple of its last place. -/
theorem IsDouble.multOf_of_le {x : ℚ} {e : Int} (hx : IsDouble x) (h : (2 : ℚ) ^ (e + 52) ≤ |x|) : MultOf e x := by
  have := fl_grid_mult h
  rwa [fl_of_double hx] at this

theorem SameSign.trans {a b c : ℚ} (h : SameSign a b) (g : SameSign b c) : SameSign a c :=
  ⟨h.1.trans g.1, h.2.trans g.2⟩

theorem SameSign.symm {a b : ℚ} (h : SameSign a b) : SameSign b a := ⟨h.1.symm, h.2.symm⟩

theorem sameSign_of_close {a b : ℚ} (h : |a - b| < |b|) : SameSign a b := by
  rw [abs_lt] at h
  rcases abs_cases b with ⟨hb, -⟩ | ⟨hb, -⟩ <;> rw [hb] at h <;> constructor <;> constructor <;> intro <;> linarith

theorem sameSign_of_close' {a b : ℚ} (h : |a - b| < |a|) : SameSign a b := by
  rw [abs_sub_comm] at h; exact (sameSign_of_close h).symm

theorem sameSign_mul {a b c d : ℚ} (h : SameSign a b) (g : SameSign c d) : SameSign (a * c) (b * d) := by
  unfold SameSign
  rw [mul_pos_iff, mul_pos_iff, mul_neg_iff, mul_neg_iff, h.1, h.2, g.1, g.2]
  exact ⟨Iff.rfl, Iff.rfl⟩

theorem MultOf.sign {x : ℚ} (h : MultOf (-1074) x) : SameSign (Delynoi.fl x) x := by
  by_cases hx : x = 0
  · rw [hx, fl_zero]; exact ⟨Iff.rfl, Iff.rfl⟩
  refine sameSign_of_close (h.rel.1.trans_lt ?_)
  have := abs_pos.2 hx
  rw [uRnd_eq]; linarith

theorem mul_close {X x Y y : ℚ} (hX : |X - x| ≤ uRnd * |x|) (hY : |Y - y| ≤ uRnd * |y|) :
    |X * Y - x * y| ≤ (2 * uRnd + uRnd ^ 2) * |x * y| := by
  have e : X * Y - x * y = (X - x) * y + x * (Y - y) + (X - x) * (Y - y) := by ring
  have h1 : |(X - x) * y| ≤ uRnd * |x| * |y| := by rw [abs_mul]; exact mul_le_mul_of_nonneg_right hX (abs_nonneg y)
  have h2 : |x * (Y - y)| ≤ |x| * (uRnd * |y|) := by rw [abs_mul]; exact mul_le_mul_of_nonneg_left hY (abs_nonneg x)
  have h3 : |(X - x) * (Y - y)| ≤ uRnd * |x| * (uRnd * |y|) := by
    rw [abs_mul]; exact mul_le_mul hX hY (abs_nonneg _) (mul_nonneg uRnd_pos.le (abs_nonneg x))
  rw [e, abs_mul x y]
  refine (abs_add_le _ _).trans ?_
  have := abs_add_le ((X - x) * y) (x * (Y - y))
  nlinarith

/-- Multiplication by a constant. -/
theorem MultOf.const {e f : Int} {c x : ℚ} (hc : MultOf e c) (hx : MultOf f x) (h : -1074 ≤ e + f) : MultOf (-1074) (c * x) :=
  (hc.mul hx).mono h

namespace Ex

/-- The constants of `exactinit`. -/
def konst : Consts where
  epsilon := 1 / 9007199254740992
  splitter := 134217729
  resulterrbound := (3 + 8 / 9007199254740992) * (1 / 9007199254740992)
  ccwerrboundA := (3 + 16 / 9007199254740992) * (1 / 9007199254740992)
  ccwerrboundB := (2 + 12 / 9007199254740992) * (1 / 9007199254740992)
  ccwerrboundC := (9 + 64 / 9007199254740992) * (1 / 9007199254740992) ^ 2
  iccerrboundA := (10 + 96 / 9007199254740992) * (1 / 9007199254740992)
  iccerrboundB := (4 + 48 / 9007199254740992) * (1 / 9007199254740992)
  iccerrboundC := (44 + 576 / 9007199254740992) * (1 / 9007199254740992) ^ 2

theorem exactinit_eq : exactinit 54 = some konst := by decide +kernel

/-- The parts of `Two_Two_Diff`. -/
structure TTD (a1 a0 b1 b0 i1 x0 j o i x1 x3 x2 : ℚ) : Prop where
  e_i1 : i1 = fl (a0 - b0)
  e_x0 : x0 = a0 - b0 - i1
  e_j : j = fl (a1 + i1)
  e_o : o = a1 + i1 - j
  e_i : i = fl (o - b1)
  e_x1 : x1 = o - b1 - i
  e_x3 : x3 = fl (j + i)
  e_x2 : x2 = j + i - x3

theorem twoTwoDiff_parts {a1 a0 b1 b0 : ℚ} (h1 : IsDouble a1) (h0 : IsDouble a0) (g1 : IsDouble b1) (g0 : IsDouble b0) :
    ∃ i1 x0 j o i x1 x3 x2, twoTwoDiff a1 a0 b1 b0 = [x0, x1, x2, x3] ∧ TTD a1 a0 b1 b0 i1 x0 j o i x1 x3 x2 := by
  have e1 := twoDiff_exact h0 g0
  have d1 : IsDouble (twoDiff a0 b0).1 := fl_isDouble _
  have e2 := twoSum_exact h1 d1
  have d2 : IsDouble (twoSum a1 (twoDiff a0 b0).1).1 := fl_isDouble _
  have d3 : IsDouble (twoSum a1 (twoDiff a0 b0).1).2 := by rw [e2]; exact isDouble_add_err h1 d1
  have e4 := twoDiff_exact d3 g1
  have d4 : IsDouble (twoDiff (twoSum a1 (twoDiff a0 b0).1).2 b1).1 := fl_isDouble _
  have e5 := twoSum_exact d2 d4
  exact ⟨_, _, _, _, _, _, _, _, rfl, ⟨rfl, e1, rfl, e2, rfl, e4, rfl, e5⟩⟩

theorem TTD.sum {a1 a0 b1 b0 i1 x0 j o i x1 x3 x2 : ℚ} (h : TTD a1 a0 b1 b0 i1 x0 j o i x1 x3 x2) :
    x0 + x1 + x2 + x3 = a1 + a0 - b1 - b0 := by
  rw [h.e_x2, h.e_x1, h.e_o, h.e_x0]; ring

theorem twoTwoDiff_sum {a1 a0 b1 b0 : ℚ} (h1 : IsDouble a1) (h0 : IsDouble a0) (g1 : IsDouble b1) (g0 : IsDouble b0) :
    (twoTwoDiff a1 a0 b1 b0).sum = a1 + a0 - b1 - b0 := by
  obtain ⟨_, x0, _, _, _, x1, x3, x2, hl, h⟩ := twoTwoDiff_parts h1 h0 g1 g0
  rw [hl, ← h.sum]; simp; ring

/-- The roundoff of the third addition of `Two_Two_Diff` against the leading component, when the
two cancel. -/
theorem cancel_grid {v j x3 : ℚ} (hv : MultOf (-1000) v) (hj : IsDouble j) (h3 : x3 = j + fl v) (h0 : x3 ≠ 0)
    (hc : |x3| ≤ |fl v| / 4) :
    (|v - fl v| ≤ |x3| / 2 ∨ 0 < (v - fl v) * x3) ∧ |fl v| ≤ 2 ^ 54 * |x3| := by
  -- by symmetry `v` is positive
  wlog hp : 0 ≤ v generalizing v j x3
  · have := this hv.neg hj.neg (x3 := -x3) (by rw [fl_neg, h3]; ring) (by simpa using h0)
      (by rw [fl_neg, abs_neg, abs_neg]; exact hc) (by linarith)
    rw [fl_neg, abs_neg, abs_neg, show -v - -fl v = -(v - fl v) by ring, abs_neg, neg_mul_neg] at this
    exact this
  have hid := fl_isDouble v
  have hi0 : 0 ≤ fl v := fl_nonneg hp
  have him : MultOf (-1000) (fl v) := hv.fl
  have hine : fl v ≠ 0 := by
    intro h; rw [h, abs_zero] at hc
    exact h0 (abs_nonpos_iff.1 (by linarith))
  generalize hi : fl v = i at *
  have hlow := him.le_abs hine
  have hE1 := log_le i hine
  have hE2 := lt_log i
  rw [abs_of_nonneg hi0] at hE1 hE2 hc hlow ⊢
  generalize Int.log 2 i = E at *
  have hE : -1000 ≤ E := by
    have := (zpow_lt_zpow_iff_right₀ (by norm_num : (1 : ℚ) < 2)).1 (hlow.trans_lt hE2)
    omega
  obtain ⟨e, rfl⟩ : ∃ e, E = e + 52 := ⟨E - 52, by ring⟩
  have hpe := two_zpow_pos e
  have z1 : (2 : ℚ) ^ (e + 52) = 4503599627370496 * (2 : ℚ) ^ e := by rw [two_zpow_add]; norm_num; ring
  have z2 : (2 : ℚ) ^ (e + 52 + 1) = 9007199254740992 * (2 : ℚ) ^ e := by
    rw [add_assoc, two_zpow_add]; norm_num; ring
  have z3 : (2 : ℚ) ^ (e - 1) = (2 : ℚ) ^ e / 2 := by
    rw [show e = (e - 1) + 1 by ring, two_zpow_add, show e - 1 + 1 - 1 = e - 1 by ring]; norm_num
  have z4 : (2 : ℚ) ^ (e + 53) = 9007199254740992 * (2 : ℚ) ^ e := by rw [two_zpow_add]; norm_num; ring
  have z5 : (2 : ℚ) ^ (e - 1 + 53) = 4503599627370496 * (2 : ℚ) ^ e := by
    rw [show e - 1 + 53 = e + 52 by ring, z1]
  have hm : MultOf e i := hid.multOf_of_le (by rw [abs_of_nonneg hi0]; exact hE1)
  have hvle : v ≤ (2 : ℚ) ^ (e + 53) := by
    by_contra hcon
    push Not at hcon
    have hd : IsDouble ((2 : ℚ) ^ (e + 53)) := ⟨1, e + 53, by omega, by norm_num, by push_cast; ring⟩
    have := le_fl_of_double hd hcon.le
    rw [hi, z4] at this
    rw [z2] at hE2
    linarith
  have hx1 : |v - i| ≤ (2 : ℚ) ^ e / 2 := by
    have := fl_grid_err (e := e) (by omega) (by rw [abs_of_nonneg hp]; exact hvle)
    rwa [hi, abs_sub_comm] at this
  have hj1 : |j| ≥ 3 / 4 * i := by
    have : i - |x3| ≤ |j| := by
      have e1 : j = -(i - x3) := by rw [h3]; ring
      rw [e1, abs_neg]
      have := abs_sub_abs_le_abs_sub i x3
      rw [abs_of_nonneg hi0] at this; exact this
    linarith
  have hjm : MultOf (e - 1) j := by
    apply hj.multOf_of_le
    rw [show e - 1 + 52 = (e + 52) - 1 by ring]
    have : (2 : ℚ) ^ (e + 52 - 1) = (2 : ℚ) ^ (e + 52) / 2 := by
      rw [show e + 52 = (e + 51) + 1 by ring, two_zpow_add, show e + 51 + 1 - 1 = e + 51 by ring]; norm_num
    rw [this]
    have := two_zpow_pos (e + 52)
    linarith
  have hx3m : MultOf (e - 1) x3 := by rw [h3]; exact hjm.add (hm.mono (by omega))
  have hx3 : (2 : ℚ) ^ e / 2 ≤ |x3| := by rw [← z3]; exact hx3m.le_abs h0
  refine ⟨?_, ?_⟩
  · by_cases hbig : (2 : ℚ) ^ e ≤ |x3|
    · left; linarith
    push Not at hbig
    have hjs : |j| < (2 : ℚ) ^ (e + 52) := by
      by_contra hcon
      push Not at hcon
      have hjm' : MultOf e j := hj.multOf_of_le hcon
      have : MultOf e x3 := by rw [h3]; exact hjm'.add hm
      linarith [this.le_abs h0]
    -- opposite signs
    have hjneg : j < 0 := by
      by_contra hcon
      push Not at hcon
      have : |x3| = j + i := by rw [h3, abs_of_nonneg (by linarith)]
      have hi1 : 0 < i := lt_of_le_of_ne hi0 (Ne.symm hine)
      linarith
    rw [abs_of_neg hjneg] at hjs
    have hx3p : 0 < x3 := by rw [h3]; linarith
    rw [abs_of_pos hx3p] at hbig hx3 ⊢
    have hieq : i = (2 : ℚ) ^ (e + 52) := by
      obtain ⟨k, hk⟩ := hm
      have h1 : i < (2 : ℚ) ^ (e + 52) + (2 : ℚ) ^ e := by linarith
      rw [z1, hk] at h1
      rw [z1, hk] at hE1
      have h2 : (k : ℚ) < 4503599627370497 := by
        by_contra hcon; push Not at hcon
        have := mul_le_mul_of_nonneg_right hcon hpe.le
        linarith
      have h3 : (4503599627370496 : ℚ) ≤ k := le_of_mul_le_mul_right hE1 hpe
      have h4 : k < 4503599627370497 := by exact_mod_cast h2
      have h5 : 4503599627370496 ≤ k := by exact_mod_cast h3
      have : k = 4503599627370496 := by omega
      rw [hk, this, z1]; norm_num
    rcases le_or_gt v i with hvi | hvi
    · left
      have := fl_grid_err (x := v) (e := e - 1) (by omega) (by rw [abs_of_nonneg hp, z5]; rw [hieq, z1] at hvi; exact hvi)
      rw [hi, abs_sub_comm, z3] at this
      linarith
    · right
      exact mul_pos (by linarith) hx3p
  · rw [z2] at hE2
    have : (2 : ℚ) ^ 54 = 18014398509481984 := by norm_num
    rw [this]; linarith

end Ex
end Delynoi
