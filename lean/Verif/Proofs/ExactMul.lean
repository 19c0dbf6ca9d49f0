import Verif.Proofs.Exact
import Mathlib.Tactic.GCongr
/-!
# Exact products of binary64 numbers
-/
set_option linter.unusedSectionVars false
namespace Delynoi

theorem abs_scaled (k : Int) (e : Int) : |(k : ℚ) * (2 : ℚ) ^ e| = ((|k| : Int) : ℚ) * (2 : ℚ) ^ e := by
  rw [abs_mul, abs_of_pos (two_zpow_pos e)]; push_cast; rfl

theorem ulpExp_le_of_lt {x : ℚ} {e : Int} (he : -1074 ≤ e) (h : |x| < (2 : ℚ) ^ (e + 53)) (h0 : x ≠ 0) : ulpExp x ≤ e := by
  unfold ulpExp
  refine max_le ?_ he
  have h1 := (log_le x h0).trans_lt h
  have := (zpow_lt_zpow_iff_right₀ (by norm_num : (1 : ℚ) < 2)).1 h1
  omega

theorem le_ulpExp {x : ℚ} {e : Int} (h : (2 : ℚ) ^ (e + 52) ≤ |x|) : e ≤ ulpExp x := by
  unfold ulpExp
  refine le_max_of_le_left ?_
  have h1 := h.trans_lt (lt_log x)
  have := (zpow_lt_zpow_iff_right₀ (by norm_num : (1 : ℚ) < 2)).1 h1
  omega

/-- The error of rounding a number of known size. -/
theorem fl_grid_err {x : ℚ} {e : Int} (he : -1074 ≤ e) (h : |x| ≤ (2 : ℚ) ^ (e + 53)) : |fl x - x| ≤ (2 : ℚ) ^ e / 2 := by
  by_cases h0 : x = 0
  · rw [h0, fl_zero, sub_self, abs_zero]; have := two_zpow_pos e; linarith
  rcases h.lt_or_eq with h1 | h1
  · refine (fl_half_ulp x).trans ?_
    have := two_zpow_mono (ulpExp_le_of_lt he h1 h0)
    linarith
  · have hm : IsDouble |x| := by
      rw [h1, two_zpow_add]
      refine isDouble_of_multOf he ⟨2 ^ 53, by push_cast; norm_num; ring⟩ ?_
      rw [abs_of_pos (by have := two_zpow_pos e; positivity), mul_comm]; norm_num
    have hx : IsDouble x := by
      rcases abs_choice x with h | h
      · rwa [h] at hm
      · rw [h] at hm; simpa using hm.neg
    rw [fl_of_double hx, sub_self, abs_zero]; have := two_zpow_pos e; linarith

theorem fl_grid_mult {x : ℚ} {e : Int} (h : (2 : ℚ) ^ (e + 52) ≤ |x|) : MultOf e (fl x) :=
  MultOf.mono ⟨roundHE (x / (2 : ℚ) ^ ulpExp x), rfl⟩ (le_ulpExp h)

/-- Integers times a power of two: exact up to 53 bits. -/
theorem fl_scaled {e : Int} (he : -1074 ≤ e) (i : Nat) (k : Int) (hk : |k| ≤ 9007199254740992) :
    fl (((2 ^ i * k : Int) : ℚ) * (2 : ℚ) ^ e) = ((2 ^ i * k : Int) : ℚ) * (2 : ℚ) ^ e := by
  refine fl_of_multOf (e := e + i) (by omega) ⟨k, ?_⟩ ?_
  · rw [two_zpow_add, zpow_natCast]; push_cast; ring
  · have e1 : ((2 ^ i * k : Int) : ℚ) * (2 : ℚ) ^ e = (k : ℚ) * (2 : ℚ) ^ (e + i) := by
      rw [two_zpow_add, zpow_natCast]; push_cast; ring
    rw [e1, abs_scaled]
    have : ((|k| : Int) : ℚ) ≤ 2 ^ 53 := by
      have : ((|k| : Int) : ℚ) ≤ ((9007199254740992 : Int) : ℚ) := by exact_mod_cast hk
      refine this.trans (by norm_num)
    exact mul_le_mul_of_nonneg_right this (two_zpow_pos _).le

/-- Integers times a power of two: the rounded value, when the size is known. -/
theorem fl_scaled_round {e : Int} (he : -1074 ≤ e) (i j : Nat) (k : Int) (h1 : 2 ^ (52 + i) ≤ |k|)
    (h2 : |k| ≤ 2 ^ (53 + j)) :
    ∃ q : Int, fl ((k : ℚ) * (2 : ℚ) ^ e) = ((2 ^ i * q : Int) : ℚ) * (2 : ℚ) ^ e ∧ 2 * |2 ^ i * q - k| ≤ 2 ^ j := by
  have hm : MultOf (e + i) (fl ((k : ℚ) * (2 : ℚ) ^ e)) := by
    apply fl_grid_mult
    rw [abs_scaled, show e + (i : Int) + 52 = ((52 + i : Nat) : Int) + e by push_cast; ring, two_zpow_add,
      zpow_natCast]
    refine mul_le_mul_of_nonneg_right ?_ (two_zpow_pos _).le
    exact_mod_cast h1
  obtain ⟨q, hq⟩ := hm
  have hq' : fl ((k : ℚ) * (2 : ℚ) ^ e) = ((2 ^ i * q : Int) : ℚ) * (2 : ℚ) ^ e := by
    rw [hq, two_zpow_add, zpow_natCast]; push_cast; ring
  refine ⟨q, hq', ?_⟩
  have he' : |fl ((k : ℚ) * (2 : ℚ) ^ e) - (k : ℚ) * (2 : ℚ) ^ e| ≤ (2 : ℚ) ^ (e + (j : Int)) / 2 := by
    apply fl_grid_err (by omega)
    rw [abs_scaled, show e + (j : Int) + 53 = ((53 + j : Nat) : Int) + e by push_cast; ring, two_zpow_add,
      zpow_natCast]
    refine mul_le_mul_of_nonneg_right ?_ (two_zpow_pos _).le
    exact_mod_cast h2
  rw [hq', ← sub_mul, ← Int.cast_sub, abs_scaled, two_zpow_add, zpow_natCast] at he'
  have hp := two_zpow_pos e
  have h3 : (((2 * |2 ^ i * q - k| : Int)) : ℚ) * (2 : ℚ) ^ e ≤ ((2 ^ j : Int) : ℚ) * (2 : ℚ) ^ e := by
    push_cast at he' ⊢; linarith
  have := le_of_mul_le_mul_right h3 hp
  exact_mod_cast this

/-- A binary64 number with a full significand. -/
theorem IsDouble.normal {a : ℚ} (ha : IsDouble a) (h0 : a ≠ 0) :
    ∃ A e : Int, 4503599627370496 ≤ |A| ∧ |A| < 9007199254740992 ∧ a = (A : ℚ) * (2 : ℚ) ^ e := by
  obtain ⟨m, f, -, hm, hx⟩ := ha
  have hlog : Int.log 2 |a| - 52 ≤ f := by
    have h1 : |a| < (2 : ℚ) ^ (f + 53) := by
      rw [hx, abs_scaled, add_comm, two_zpow_add]
      refine mul_lt_mul_of_pos_right ?_ (two_zpow_pos f)
      have : ((|m| : Int) : ℚ) < ((2 ^ 53 : Int) : ℚ) := by exact_mod_cast hm
      refine this.trans_eq (by norm_num)
    have := (zpow_lt_zpow_iff_right₀ (by norm_num : (1 : ℚ) < 2)).1 ((log_le a h0).trans_lt h1)
    omega
  obtain ⟨k, hk⟩ := MultOf.mono ⟨m, hx⟩ hlog
  refine ⟨k, _, ?_, ?_, hk⟩
  · have := log_le a h0
    nth_rewrite 2 [hk] at this
    rw [abs_scaled, show Int.log 2 |a| = 52 + (Int.log 2 |a| - 52) by ring, two_zpow_add,
      show 52 + (Int.log 2 |a| - 52) - 52 = Int.log 2 |a| - 52 by ring] at this
    have := le_of_mul_le_mul_right this (two_zpow_pos _)
    have h2 : ((4503599627370496 : Int) : ℚ) ≤ ((|k| : Int) : ℚ) := by
      refine le_trans (by norm_num) this
    exact_mod_cast h2
  · have := lt_log a
    nth_rewrite 1 [hk] at this
    rw [abs_scaled, show Int.log 2 |a| + 1 = 53 + (Int.log 2 |a| - 52) by ring, two_zpow_add] at this
    have := lt_of_mul_lt_mul_right this (two_zpow_pos _).le
    have h2 : ((|k| : Int) : ℚ) < ((9007199254740992 : Int) : ℚ) := by
      refine lt_of_lt_of_le this (by norm_num)
    exact_mod_cast h2

namespace Ex

/-- The splitter. -/
abbrev spl : ℚ := 134217729

/-- `Split` cuts a significand in two halves. -/
theorem split_spec {e : Int} (he : -1074 ≤ e) (A : Int) (h1 : 4503599627370496 ≤ |A|)
    (h2 : |A| < 9007199254740992) :
    ∃ h l : Int, split spl ((A : ℚ) * (2 : ℚ) ^ e) =
      (((2 ^ 27 * h : Int) : ℚ) * (2 : ℚ) ^ e, (l : ℚ) * (2 : ℚ) ^ e) ∧ |h| ≤ 67108864 ∧ |l| ≤ 67108864 ∧
      A = 134217728 * h + l := by
  have key : ∀ C : Int, fl (spl * ((A : ℚ) * (2 : ℚ) ^ e)) = ((2 ^ 27 * C : Int) : ℚ) * (2 : ℚ) ^ e →
      |134217728 * C - 134217729 * A| ≤ 134217728 → 2 ^ (52 + 27) ≤ |134217728 * C - A| →
      ∃ h l : Int, split spl ((A : ℚ) * (2 : ℚ) ^ e) =
        (((2 ^ 27 * h : Int) : ℚ) * (2 : ℚ) ^ e, (l : ℚ) * (2 : ℚ) ^ e) ∧ |h| ≤ 67108864 ∧ |l| ≤ 67108864 ∧
        A = 134217728 * h + l := by
    intro C hC hCe hCb
    obtain ⟨q, hq, hqe⟩ := fl_scaled_round he 27 27 (134217728 * C - A) hCb (by
      norm_num; rw [abs_le] at *
      rcases abs_cases A with ⟨h, -⟩ | ⟨h, -⟩ <;> rw [h] at h1 h2 <;> constructor <;> omega)
    norm_num at hqe
    have hqe' : |134217728 * q - (134217728 * C - A)| ≤ 67108864 := by omega
    clear hqe hCb
    have hb1 : |C - q| ≤ 67108864 := by
      rw [abs_le] at *
      rcases abs_cases A with ⟨h, -⟩ | ⟨h, -⟩ <;> rw [h] at h1 h2 <;> constructor <;> omega
    have hb2 : |A - 134217728 * (C - q)| ≤ 67108864 := by
      rw [abs_le] at *; constructor <;> omega
    refine ⟨C - q, A - 134217728 * (C - q), ?_, hb1, hb2, by ring⟩
    unfold split
    dsimp only
    rw [hC, show ((2 ^ 27 * C : Int) : ℚ) * (2 : ℚ) ^ e - (A : ℚ) * (2 : ℚ) ^ e =
      ((134217728 * C - A : Int) : ℚ) * (2 : ℚ) ^ e by push_cast; norm_num; ring, hq,
      show ((2 ^ 27 * C : Int) : ℚ) * (2 : ℚ) ^ e - ((2 ^ 27 * q : Int) : ℚ) * (2 : ℚ) ^ e =
        ((2 ^ 27 * (C - q) : Int) : ℚ) * (2 : ℚ) ^ e by push_cast; ring,
      fl_scaled he 27 (C - q) (by omega),
      show (A : ℚ) * (2 : ℚ) ^ e - ((2 ^ 27 * (C - q) : Int) : ℚ) * (2 : ℚ) ^ e =
        ((2 ^ 0 * (A - 134217728 * (C - q)) : Int) : ℚ) * (2 : ℚ) ^ e by push_cast; norm_num; ring,
      fl_scaled he 0 _ (by omega)]
    norm_num
  have hsA : spl * ((A : ℚ) * (2 : ℚ) ^ e) = ((134217729 * A : Int) : ℚ) * (2 : ℚ) ^ e := by
    push_cast; unfold spl; ring
  by_cases hA : |A| = 4503599627370496
  · -- a power of two
    have hA' : ∃ t : Int, |t| ≤ 33554432 ∧ A = 134217728 * t ∧ 33554432 ≤ |t| := by
      rcases abs_cases A with ⟨h, -⟩ | ⟨h, -⟩
      · exact ⟨33554432, by norm_num, by omega, by norm_num⟩
      · exact ⟨-33554432, by norm_num, by omega, by norm_num⟩
    obtain ⟨t, ht, hAt, ht'⟩ := hA'
    refine key (134217729 * t) ?_ ?_ ?_
    · rw [hsA, show (134217729 * A : Int) = 2 ^ 27 * (134217729 * t) by rw [hAt]; ring]
      refine fl_scaled he 27 (134217729 * t) ?_
      rw [abs_mul]; norm_num; omega
    · rw [hAt, show (134217728 * (134217729 * t) - 134217729 * (134217728 * t) : Int) = 0 by ring]; norm_num
    · rw [hAt, show (134217728 * (134217729 * t) - 134217728 * t : Int) = 18014398509481984 * t by ring, abs_mul]
      norm_num; omega
  · obtain ⟨C, hC, hCe⟩ := fl_scaled_round he 27 28 (134217729 * A)
      (by rw [abs_mul]; norm_num; omega) (by rw [abs_mul]; norm_num; omega)
    norm_num at hCe
    have hCe' : |134217728 * C - 134217729 * A| ≤ 134217728 := by omega
    refine key C (by rw [hsA, hC]) hCe' ?_
    norm_num
    clear hCe hC hsA key
    rcases abs_cases A with ⟨h, h'⟩ | ⟨h, h'⟩ <;> rw [h] at h1 h2 hA <;> rw [abs_le] at hCe'
    · exact le_trans (by omega) (le_abs_self _)
    · exact le_trans (by omega) (neg_le_abs _)

/-- `Two_Product` on full significands. -/
theorem productTail_spec {e f : Int} (he : -1074 ≤ e) (hf : -1074 ≤ f) (hef : -1074 ≤ e + f) (A B : Int)
    (hA1 : 4503599627370496 ≤ |A|) (hA2 : |A| < 9007199254740992) (hB1 : 4503599627370496 ≤ |B|)
    (hB2 : |B| < 9007199254740992) :
    (twoProduct spl ((A : ℚ) * (2 : ℚ) ^ e) ((B : ℚ) * (2 : ℚ) ^ f)).2 =
      (A : ℚ) * (2 : ℚ) ^ e * ((B : ℚ) * (2 : ℚ) ^ f) - fl ((A : ℚ) * (2 : ℚ) ^ e * ((B : ℚ) * (2 : ℚ) ^ f)) := by
  obtain ⟨h, l, hs, hh, hl, hAe⟩ := split_spec he A hA1 hA2
  obtain ⟨h', l', hs', hh', hl', hBe⟩ := split_spec hf B hB1 hB2
  have hP : ∀ x y : Int, (x : ℚ) * (2 : ℚ) ^ e * ((y : ℚ) * (2 : ℚ) ^ f) = ((x * y : Int) : ℚ) * (2 : ℚ) ^ (e + f) := by
    intro x y; rw [two_zpow_add]; push_cast; ring
  have hsub : ∀ x y : Int, (x : ℚ) * (2 : ℚ) ^ (e + f) - (y : ℚ) * (2 : ℚ) ^ (e + f) = ((x - y : Int) : ℚ) * (2 : ℚ) ^ (e + f) := by
    intro x y; push_cast; ring
  obtain ⟨X, hX, hXe⟩ := fl_scaled_round hef 52 53 (A * B)
    (by rw [abs_mul]; norm_num
        calc (20282409603651670423947251286016 : Int) = 4503599627370496 * 4503599627370496 := by norm_num
          _ ≤ |A| * |B| := by gcongr)
    (by rw [abs_mul]; norm_num
        calc |A| * |B| ≤ 9007199254740992 * 9007199254740992 := by gcongr
          _ = 81129638414606681695789005144064 := by norm_num)
  have bnd : ∀ x y : Int, |x| ≤ 67108864 → |y| ≤ 67108864 → |x * y| ≤ 4503599627370496 := by
    intro x y hx hy
    rw [abs_mul]
    calc |x| * |y| ≤ 67108864 * 67108864 := by gcongr
      _ = _ := by norm_num
  have b1 := bnd h h' hh hh'
  have b2 := bnd l h' hl hh'
  have b3 := bnd h l' hh hl'
  have b4 := bnd l l' hl hl'
  have hAB : A * B = 18014398509481984 * (h * h') + 134217728 * (l * h') + 134217728 * (h * l') + l * l' := by
    rw [hAe, hBe]; ring
  unfold twoProduct productTail
  dsimp only
  rw [hs, hs']
  dsimp only
  rw [hP A B, hX, hP (2 ^ 27 * h) (2 ^ 27 * h'), hP l (2 ^ 27 * h'), hP (2 ^ 27 * h) l', hP l l']
  norm_num at hXe
  generalize hg : A * B = AB at *
  generalize e1 : h * h' = u1 at *
  generalize e2 : l * h' = u2 at *
  generalize e3 : h * l' = u3 at *
  generalize e4 : l * l' = u4 at *
  have hXe' : |4503599627370496 * X - AB| ≤ 4503599627370496 := by omega
  clear hXe
  rw [show (2 ^ 27 * h * (2 ^ 27 * h') : Int) = 2 ^ 54 * u1 by rw [← e1]; ring,
    show (l * (2 ^ 27 * h') : Int) = 2 ^ 27 * u2 by rw [← e2]; ring,
    show (2 ^ 27 * h * l' : Int) = 2 ^ 27 * u3 by rw [← e3]; ring]
  rw [fl_scaled hef 54 u1 (by omega), fl_scaled hef 27 u2 (by omega), fl_scaled hef 27 u3 (by omega)]
  have f0 : ∀ k : Int, |k| ≤ 9007199254740992 → fl ((k : ℚ) * (2 : ℚ) ^ (e + f)) = (k : ℚ) * (2 : ℚ) ^ (e + f) := by
    intro k hk
    have := fl_scaled hef 0 k hk
    simpa using this
  rw [f0 u4 (by omega), hsub]
  have g1 : |X - 4 * u1| ≤ 9007199254740992 := by rw [abs_le] at *; constructor <;> omega
  have g2 : |33554432 * (X - 4 * u1) - u2| ≤ 9007199254740992 := by rw [abs_le] at *; constructor <;> omega
  have g3 : |134217728 * (33554432 * (X - 4 * u1) - u2 - u3)| ≤ 9007199254740992 := by
    rw [abs_le] at *; constructor <;> omega
  have g4 : |u4 - 134217728 * (33554432 * (X - 4 * u1) - u2 - u3)| ≤ 9007199254740992 := by
    rw [abs_le] at *; constructor <;> omega
  rw [show (2 ^ 52 * X - 2 ^ 54 * u1 : Int) = 2 ^ 52 * (X - 4 * u1) by ring, fl_scaled hef 52 _ g1, hsub,
    show (2 ^ 52 * (X - 4 * u1) - 2 ^ 27 * u2 : Int) = 2 ^ 27 * (33554432 * (X - 4 * u1) - u2) by ring,
    fl_scaled hef 27 _ g2, hsub,
    show (2 ^ 27 * (33554432 * (X - 4 * u1) - u2) - 2 ^ 27 * u3 : Int) =
      134217728 * (33554432 * (X - 4 * u1) - u2 - u3) by ring, f0 _ g3, hsub, f0 _ g4, hsub]
  congr 2
  rw [hAB]; ring

/-- `Two_Product` computes the error of the product, if nothing underflows: the factors are
multiples of `2 ^ e` and `2 ^ f`, high enough above the smallest exponent. -/
theorem twoProduct_exact {a b : ℚ} {e f : Int} (ha : IsDouble a) (hb : IsDouble b) (hae : MultOf e a) (hbf : MultOf f b)
    (he : -1022 ≤ e) (hf : -1022 ≤ f) (hef : -970 ≤ e + f) :
    (twoProduct spl a b).2 = a * b - fl (a * b) := by
  have hz : ∀ x : ℚ, split spl x = split spl x := fun _ => rfl
  have h0 : split spl 0 = (0, 0) := by
    unfold split; simp [fl_zero]
  by_cases ha0 : a = 0
  · subst ha0
    unfold twoProduct productTail
    simp [h0, fl_zero]
  by_cases hb0 : b = 0
  · subst hb0
    unfold twoProduct productTail
    simp [h0, fl_zero]
  obtain ⟨A, ea, hA1, hA2, hA⟩ := ha.normal ha0
  obtain ⟨B, eb, hB1, hB2, hB⟩ := hb.normal hb0
  have low : ∀ (x : ℚ) (X g k : Int), x ≠ 0 → MultOf g x → |X| < 9007199254740992 → x = (X : ℚ) * (2 : ℚ) ^ k → g ≤ k + 52 := by
    intro x X g k hx hm hX hxe
    have h1 := hm.le_abs hx
    rw [hxe, abs_scaled] at h1
    have h2 : ((|X| : Int) : ℚ) < ((9007199254740992 : Int) : ℚ) := by exact_mod_cast hX
    have h3 : (2 : ℚ) ^ g < (2 : ℚ) ^ (53 + k) := by
      rw [two_zpow_add]
      refine h1.trans_lt (mul_lt_mul_of_pos_right (h2.trans_le (by norm_num)) (two_zpow_pos k))
    have := (zpow_lt_zpow_iff_right₀ (by norm_num : (1 : ℚ) < 2)).1 h3
    omega
  have l1 := low a A e ea ha0 hae hA2 hA
  have l2 := low b B f eb hb0 hbf hB2 hB
  rw [hA, hB]
  exact productTail_spec (by omega) (by omega) (by omega) A B hA1 hA2 hB1 hB2

end Ex
end Delynoi
