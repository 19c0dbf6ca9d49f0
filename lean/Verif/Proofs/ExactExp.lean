import Verif.Proofs.ExactSum
/-!
# Sums of expansions keep their form

A component may be followed only by components whose last bit is above it, and the sum of all
components before one is less than three quarters of its last bit.  `fast_expansion_sum_zeroelim`
keeps this form (with ties to even).
-/
set_option linter.unusedSectionVars false
namespace Delynoi
open Ex

theorem two_zpow_lt {a b : Int} : (2 : ℚ) ^ a < (2 : ℚ) ^ b ↔ a < b := zpow_lt_zpow_iff_right₀ (by norm_num)

theorem two_zpow_succ (a : Int) : (2 : ℚ) ^ (a + 1) = 2 * (2 : ℚ) ^ a := by rw [two_zpow_add]; ring

theorem zpow_half {a b : Int} (h : a < b) : (2 : ℚ) ^ a ≤ (2 : ℚ) ^ b / 2 := by
  have := two_zpow_mono (show a + 1 ≤ b by omega)
  rw [two_zpow_succ] at this; linarith

theorem zpow_quarter {a b : Int} (h : a + 2 ≤ b) : (2 : ℚ) ^ a ≤ (2 : ℚ) ^ b / 4 := by
  have := two_zpow_mono h
  rw [show a + 2 = a + 1 + 1 by ring, two_zpow_succ, two_zpow_succ] at this; linarith

theorem MultOf.gap {k : Int} {a b : ℚ} (ha : MultOf k a) (hb : MultOf k b) (h : a < b) : a + (2 : ℚ) ^ k ≤ b := by
  have := (hb.sub ha).le_abs (by intro h'; linarith)
  rw [abs_of_pos (by linarith)] at this
  linarith

theorem MultOf.pow {k l : Int} (h : k ≤ l) : MultOf k ((2 : ℚ) ^ l) := by
  obtain ⟨j, hj⟩ := zpow_nat_mul h
  exact ⟨j, hj⟩

namespace Lsb
variable {l j : Int} {x : ℚ}

theorem mult (h : Lsb l x) : MultOf l x := by
  obtain ⟨k, -, hk⟩ := h; exact ⟨k, hk⟩

theorem ne (h : Lsb l x) : x ≠ 0 := by
  obtain ⟨k, ho, rfl⟩ := h
  have : (k : ℚ) ≠ 0 := by
    have : k ≠ 0 := by rintro rfl; simp at ho
    exact_mod_cast this
  exact mul_ne_zero this (two_zpow_pos l).ne'

theorem pow_le (h : Lsb l x) : (2 : ℚ) ^ l ≤ |x| := h.mult.le_abs h.ne

theorem le (h : Lsb l x) (hj : MultOf j x) : j ≤ l := by
  by_contra hlt
  push Not at hlt
  obtain ⟨k, ho, hk⟩ := h
  obtain ⟨i, hi⟩ := hj
  obtain ⟨n, hn⟩ : ∃ n : Nat, j = l + 1 + n := ⟨(j - l - 1).toNat, by omega⟩
  have h1 : (k : ℚ) = ((i * (2 * 2 ^ n) : Int) : ℚ) := by
    have : (k : ℚ) * (2 : ℚ) ^ l = ((i * (2 * 2 ^ n) : Int) : ℚ) * (2 : ℚ) ^ l := by
      rw [← hk, hi, hn, two_zpow_add, two_zpow_succ, zpow_natCast]; push_cast; ring
    exact mul_right_cancel₀ (two_zpow_pos l).ne' this
  have h2 : k = i * (2 * 2 ^ n) := by exact_mod_cast h1
  rw [h2, show i * (2 * 2 ^ n) = 2 * (i * 2 ^ n) by ring] at ho
  omega

theorem neg (h : Lsb l x) : Lsb l (-x) := by
  obtain ⟨k, ho, rfl⟩ := h
  exact ⟨-k, by omega, by push_cast; ring⟩

theorem lt (h : Lsb l x) (hd : IsDouble x) : |x| < (2 : ℚ) ^ (l + 53) := by
  obtain ⟨e, -, hm, hx⟩ := hd.multOf
  have := two_zpow_mono (h.le hm)
  rw [two_zpow_add]
  have e53 : (2 : ℚ) ^ (53 : Int) = 2 ^ 53 := by norm_num
  rw [e53]
  nlinarith

end Lsb

theorem exists_odd (k : Int) (h : k ≠ 0) : ∃ (n : Nat) (i : Int), i % 2 = 1 ∧ k = i * 2 ^ n := by
  induction hn : k.natAbs using Nat.strong_induction_on generalizing k with
  | _ m ih =>
    by_cases ho : k % 2 = 1
    · exact ⟨0, k, ho, by simp⟩
    · obtain ⟨j, hj⟩ : ∃ j, k = 2 * j := ⟨k / 2, by omega⟩
      obtain ⟨n, i, hi, he⟩ := ih j.natAbs (by omega) j (by omega) rfl
      exact ⟨n + 1, i, hi, by rw [hj, he]; ring⟩

theorem exists_lsb {j : Int} {x : ℚ} (hx : MultOf j x) (h0 : x ≠ 0) : ∃ l, j ≤ l ∧ Lsb l x := by
  obtain ⟨k, rfl⟩ := hx
  have hk : k ≠ 0 := by rintro rfl; simp at h0
  obtain ⟨n, i, hi, he⟩ := exists_odd k hk
  refine ⟨j + n, by omega, i, hi, ?_⟩
  rw [he, two_zpow_add, zpow_natCast]; push_cast; ring

theorem IsDouble.mult1074 {x : ℚ} (h : IsDouble x) : MultOf (-1074) x := by
  obtain ⟨e, he, hm, -⟩ := h.multOf
  exact hm.mono he

/-- A rounding error: half a unit in the last place, and the result is even if it is exactly that. -/
theorem fl_err {X : ℚ} (hX : MultOf (-1074) X) (h : X - fl X ≠ 0) :
    ∃ w : Int, (2 : ℚ) ^ (w + 52) ≤ |X| ∧ |X| < (2 : ℚ) ^ (w + 53) ∧ MultOf w (fl X) ∧ |X - fl X| ≤ (2 : ℚ) ^ w / 2 ∧
      (|X - fl X| = (2 : ℚ) ^ w / 2 → MultOf (w + 1) (fl X)) := by
  have hX0 : X ≠ 0 := by rintro rfl; rw [fl_zero] at h; simp at h
  have hw : ulpExp X = Int.log 2 |X| - 52 := by
    rcases max_choice (Int.log 2 |X| - 52) (-1074) with h1 | h1
    · exact h1
    · exfalso
      obtain ⟨k, hk⟩ := hX
      refine h ?_
      rw [fl_of_multiple X k (by unfold ulpExp; rw [h1]; exact hk), sub_self]
  refine ⟨ulpExp X, ?_, ?_, ⟨_, rfl⟩, ?_, ?_⟩
  · rw [hw, show Int.log 2 |X| - 52 + 52 = Int.log 2 |X| by ring]; exact log_le X hX0
  · rw [hw, show Int.log 2 |X| - 52 + 53 = Int.log 2 |X| + 1 by ring]; exact lt_log X
  · rw [abs_sub_comm]; exact fl_half_ulp X
  · intro ht
    have hs := two_zpow_pos (ulpExp X)
    unfold fl at ht ⊢
    generalize ulpExp X = w at *
    set q := X / (2 : ℚ) ^ w with hq
    have e1 : X = q * (2 : ℚ) ^ w := by rw [hq, div_mul_cancel₀ _ hs.ne']
    have e2 : |q - roundHE q| = 1 / 2 := by
      have : |q - roundHE q| * (2 : ℚ) ^ w = 1 / 2 * (2 : ℚ) ^ w := by
        rw [← abs_of_pos hs, ← abs_mul, sub_mul, ← e1, abs_of_pos hs, ht]; ring
      exact mul_right_cancel₀ hs.ne' this
    have e3 : ∃ j : Int, roundHE q = 2 * j := by
      have f1 := Int.floor_le q
      have f2 := Int.lt_floor_add_one q
      rcases lt_trichotomy (q - ⌊q⌋) (1 / 2) with h1 | h1 | h1
      · rw [roundHE_below q h1, abs_of_nonneg (by linarith)] at e2
        linarith
      · rw [roundHE_half q h1]
        split_ifs with he
        · exact ⟨⌊q⌋ / 2, by omega⟩
        · exact ⟨(⌊q⌋ + 1) / 2, by omega⟩
      · rw [roundHE_above q h1] at e2
        push_cast at e2
        rw [abs_of_nonpos (by linarith)] at e2
        linarith
    obtain ⟨j, hj⟩ := e3
    exact ⟨j, by rw [hj, two_zpow_succ]; push_cast; ring⟩

end Delynoi
