import Verif.Model.Exact
import Verif.Spec.Double
import Verif.Proofs.Double
import Mathlib.Tactic.Linarith
import Mathlib.Tactic.Ring
import Mathlib.Tactic.NormNum
import Mathlib.Tactic.Push
/-!
# Error-free transformations
-/
set_option linter.unusedSectionVars false
namespace Delynoi

namespace MultOf
variable {e f : Int} {x y : ℚ}

theorem zero : MultOf e 0 := ⟨0, by simp⟩

theorem mono (h : MultOf f x) (hef : e ≤ f) : MultOf e x := by
  obtain ⟨k, rfl⟩ := h
  obtain ⟨j, hj⟩ := zpow_nat_mul hef
  exact ⟨k * j, by rw [hj]; push_cast; ring⟩

theorem add (h : MultOf e x) (g : MultOf e y) : MultOf e (x + y) := by
  obtain ⟨k, rfl⟩ := h; obtain ⟨j, rfl⟩ := g
  exact ⟨k + j, by push_cast; ring⟩

theorem neg (h : MultOf e x) : MultOf e (-x) := by
  obtain ⟨k, rfl⟩ := h
  exact ⟨-k, by push_cast; ring⟩

theorem sub (h : MultOf e x) (g : MultOf e y) : MultOf e (x - y) := by
  rw [sub_eq_add_neg]; exact h.add g.neg

theorem mul (h : MultOf e x) (g : MultOf f y) : MultOf (e + f) (x * y) := by
  obtain ⟨k, rfl⟩ := h; obtain ⟨j, rfl⟩ := g
  exact ⟨k * j, by rw [two_zpow_add]; push_cast; ring⟩

theorem fl (h : MultOf e x) : MultOf e (fl x) := by
  rcases le_total (ulpExp x) e with hu | hu
  · obtain ⟨k, hk⟩ := h.mono hu
    rw [fl_of_multiple x k hk]; exact h
  · exact MultOf.mono ⟨roundHE (x / (2 : ℚ) ^ ulpExp x), rfl⟩ hu

/-- Non-zero multiples are large. -/
theorem le_abs (h : MultOf e x) (hx : x ≠ 0) : (2 : ℚ) ^ e ≤ |x| := by
  obtain ⟨k, rfl⟩ := h
  have hk : k ≠ 0 := by rintro rfl; simp at hx
  rw [abs_mul, abs_of_pos (two_zpow_pos e)]
  have : (1 : ℚ) ≤ |(k : ℚ)| := by exact_mod_cast Int.one_le_abs hk
  nlinarith [two_zpow_pos e]

end MultOf

theorem IsDouble.multOf {x : ℚ} (h : IsDouble x) : ∃ e, -1074 ≤ e ∧ MultOf e x ∧ |x| < 2 ^ 53 * (2 : ℚ) ^ e := by
  obtain ⟨m, e, he, hm, hx⟩ := h
  refine ⟨e, he, ⟨m, hx⟩, ?_⟩
  rw [hx, abs_mul, abs_of_pos (two_zpow_pos e)]
  have : |(m : ℚ)| < 2 ^ 53 := by exact_mod_cast hm
  exact mul_lt_mul_of_pos_right this (two_zpow_pos e)

theorem isDouble_of_multOf {e : Int} {x : ℚ} (he : -1074 ≤ e) (h : MultOf e x) (hx : |x| ≤ 2 ^ 53 * (2 : ℚ) ^ e) :
    IsDouble x := by
  obtain ⟨k, rfl⟩ := h
  rw [abs_mul, abs_of_pos (two_zpow_pos e)] at hx
  have h1 := le_of_mul_le_mul_right hx (two_zpow_pos e)
  have h2 : |k| ≤ 2 ^ 53 := by exact_mod_cast h1
  rcases h2.lt_or_eq with h | h
  · exact ⟨k, e, he, h, rfl⟩
  · rcases abs_cases k with ⟨h3, -⟩ | ⟨h3, -⟩
    · refine ⟨2 ^ 52, e + 1, by omega, by norm_num, ?_⟩
      rw [two_zpow_add, show k = 2 ^ 53 by omega]; push_cast; norm_num; ring
    · refine ⟨-2 ^ 52, e + 1, by omega, by norm_num, ?_⟩
      rw [two_zpow_add, show k = -2 ^ 53 by omega]; push_cast; norm_num; ring

/-- A small multiple of a power of two is left alone. -/
theorem fl_of_multOf {e : Int} {x : ℚ} (he : -1074 ≤ e) (h : MultOf e x) (hx : |x| ≤ 2 ^ 53 * (2 : ℚ) ^ e) :
    fl x = x := fl_of_double (isDouble_of_multOf he h hx)

/-- The error of a sum is a binary64 number. -/
theorem isDouble_add_err {a b : ℚ} (ha : IsDouble a) (hb : IsDouble b) : IsDouble (a + b - fl (a + b)) := by
  obtain ⟨e, he, hae, hal⟩ := ha.multOf
  obtain ⟨f, hf, hbf, hbl⟩ := hb.multOf
  have h1 : |a + b - fl (a + b)| ≤ |b| := by
    have := fl_nearest (a + b) a ha
    rw [abs_sub_comm]; refine this.trans_eq ?_
    rw [show a - (a + b) = -b by ring, abs_neg]
  have h2 : |a + b - fl (a + b)| ≤ |a| := by
    have := fl_nearest (a + b) b hb
    rw [abs_sub_comm]; refine this.trans_eq ?_
    rw [show b - (a + b) = -a by ring, abs_neg]
  rcases le_total e f with h | h
  · have hs : MultOf e (a + b) := hae.add (hbf.mono h)
    exact isDouble_of_multOf he (hs.sub hs.fl) (h2.trans hal.le)
  · have hs : MultOf f (a + b) := (hae.mono h).add hbf
    exact isDouble_of_multOf hf (hs.sub hs.fl) (h1.trans hbl.le)

theorem isDouble_sub_err {a b : ℚ} (ha : IsDouble a) (hb : IsDouble b) : IsDouble (a - b - fl (a - b)) := by
  have := isDouble_add_err ha hb.neg
  rwa [← sub_eq_add_neg] at this

/-- Taking the larger summand off a rounded sum is exact. -/
theorem isDouble_sum_sub {a b : ℚ} (ha : IsDouble a) (hb : IsDouble b) (h : |b| ≤ |a|) :
    IsDouble (fl (a + b) - a) := by
  wlog hp : 0 ≤ a generalizing a b
  · have := this ha.neg hb.neg (by simpa using h) (by linarith)
    rw [show -a + -b = -(a + b) by ring, fl_neg, show -fl (a + b) - -a = -(fl (a + b) - a) by ring] at this
    simpa using this.neg
  rw [abs_of_nonneg hp] at h
  obtain ⟨h1, h2⟩ := abs_le.1 h
  have hx := fl_isDouble (a + b)
  rcases le_total 0 b with hb0 | hb0
  · have l1 : a ≤ fl (a + b) := le_fl_of_double ha (by linarith)
    have l2 : fl (a + b) ≤ 2 * a := fl_le_of_double ha.two_mul (by linarith)
    refine isDouble_sub hx ha ?_ ?_
    · rw [abs_of_nonneg (by linarith), abs_of_nonneg (by linarith)]; linarith
    · rw [abs_of_nonneg (by linarith), abs_of_nonneg (by linarith)]; linarith
  · by_cases hs : a ≤ 2 * -b
    · have : IsDouble (a + b) := by
        have := isDouble_sub ha hb.neg (by rw [abs_of_nonneg (by linarith), abs_of_nonneg hp]; linarith)
          (by rw [abs_of_nonneg (by linarith), abs_of_nonneg (by linarith)]; linarith)
        rwa [sub_neg_eq_add] at this
      rw [fl_of_double this, add_sub_cancel_left]; exact hb
    · push Not at hs
      have l1 : fl (a + b) ≤ a := fl_le_of_double ha (by linarith)
      have l2 : a ≤ 2 * fl (a + b) := by
        have hm := fl_mono (show a / 2 ≤ a + b by linarith)
        by_cases hh : IsDouble (a / 2)
        · rw [fl_of_double hh] at hm; linarith
        · -- `a` is odd and tiny: the sum is exact
          obtain ⟨k, hk⟩ := ha.multiple
          obtain ⟨j, hj⟩ := hb.multiple
          have hex : IsDouble (a + b) := by
            by_cases hbig : |a| ≤ 2 ^ 53 * (2 : ℚ) ^ (-1074 : Int)
            · refine isDouble_of_multOf le_rfl (MultOf.add ⟨k, hk⟩ ⟨j, hj⟩) (le_trans ?_ hbig)
              rw [abs_of_nonneg (by linarith), abs_of_nonneg hp]; linarith
            · exfalso; apply hh
              obtain ⟨m, e, he, hm', hx'⟩ := ha
              push Not at hbig
              have : -1074 < e := by
                by_contra hc
                have : e = -1074 := by omega
                rw [hx', this, abs_mul, abs_of_pos (two_zpow_pos _)] at hbig
                have h3 := lt_of_mul_lt_mul_right hbig (two_zpow_pos _).le
                have h4 : (2 : Int) ^ 53 < |m| := by exact_mod_cast h3
                omega
              refine ⟨m, e - 1, by omega, hm', ?_⟩
              rw [hx', show e = (e - 1) + 1 by ring, two_zpow_add, show e - 1 + 1 - 1 = e - 1 by ring]
              norm_num; ring
          rw [fl_of_double hex]; linarith
      refine isDouble_sub hx ha ?_ ?_
      · rw [abs_sub_comm, abs_of_nonneg (by linarith), abs_of_nonneg (by linarith)]; linarith
      · rw [abs_sub_comm, abs_of_nonneg (by linarith), abs_of_nonneg (by linarith)]; linarith

namespace Ex

/-- If taking `a` off the rounded sum is exact, `Fast_Two_Sum` is exact. -/
theorem fastTwoSum_exact' {a b : ℚ} (ha : IsDouble a) (hb : IsDouble b) (h : IsDouble (fl (a + b) - a)) :
    (fastTwoSum a b).2 = a + b - fl (a + b) := by
  unfold fastTwoSum fastTwoSumTail
  dsimp only
  rw [fl_of_double h, show b - (fl (a + b) - a) = a + b - fl (a + b) by ring]
  exact fl_of_double (isDouble_add_err ha hb)

theorem fastTwoSum_exact {a b : ℚ} (ha : IsDouble a) (hb : IsDouble b) (h : |b| ≤ |a|) :
    (fastTwoSum a b).2 = a + b - fl (a + b) := fastTwoSum_exact' ha hb (isDouble_sum_sub ha hb h)

theorem fastTwoSum_exact_zero {b : ℚ} (hb : IsDouble b) : (fastTwoSum 0 b).2 = 0 + b - fl (0 + b) := by
  refine fastTwoSum_exact' isDouble_zero hb ?_
  rw [sub_zero]; exact fl_isDouble _

/-- `Two_Sum_Tail` computes the error of the sum. -/
theorem twoSumTail_exact {a b : ℚ} (ha : IsDouble a) (hb : IsDouble b) :
    twoSumTail a b (fl (a + b)) = a + b - fl (a + b) := by
  have hx := fl_isDouble (a + b)
  have herr := isDouble_add_err ha hb
  have easy : IsDouble (fl (a + b) - a) → twoSumTail a b (fl (a + b)) = a + b - fl (a + b) := by
    intro h
    unfold twoSumTail
    dsimp only
    rw [fl_of_double h, show fl (a + b) - (fl (a + b) - a) = a by ring, fl_of_double ha, sub_self, fl_zero,
      zero_add, show b - (fl (a + b) - a) = a + b - fl (a + b) by ring, fl_of_double herr, fl_of_double herr]
  rcases le_total |b| |a| with hab | hab
  · exact easy (isDouble_sum_sub ha hb hab)
  · have hs : |fl (a + b) - (a + b)| ≤ uRnd * |a + b| := fl_add_error ha hb
    have hd : |fl (fl (a + b) - a) - (fl (a + b) - a)| ≤ uRnd * |fl (a + b) - a| := fl_sub_error hx ha
    have hsum : |a + b| ≤ 2 * |b| := (abs_add_le a b).trans (by linarith)
    have hu : uRnd = 1 / 9007199254740992 := by unfold uRnd; norm_num
    by_cases hxa : |a| ≤ |fl (a + b)|
    · -- the roundoff of `x - a`
      generalize hX : fl (a + b) = X at *
      generalize hV : fl (X - a) = V at *
      have hVd : IsDouble V := hV ▸ fl_isDouble _
      have e1 : IsDouble (X - V) := by
        have := isDouble_sum_sub hx ha.neg (by rwa [abs_neg])
        rw [← sub_eq_add_neg, hV] at this
        have := this.neg
        rwa [neg_sub] at this
      have e2 : IsDouble (a - (X - V)) := by
        have := (isDouble_sub_err hx ha).neg
        rwa [hV, show -(X - a - V) = a - (X - V) by ring] at this
      have hXa : |X - a| ≤ |b| + uRnd * (2 * |b|) := by
        calc |X - a| = |b + (X - (a + b))| := by ring_nf
          _ ≤ |b| + |X - (a + b)| := abs_add_le _ _
          _ ≤ _ := by
            have := mul_le_mul_of_nonneg_left hsum uRnd_pos.le
            linarith
      have hVb : |b - V| ≤ uRnd * (|b| + uRnd * (2 * |b|)) + uRnd * (2 * |b|) := by
        calc |b - V| = |(-(V - (X - a))) + -(X - (a + b))| := by ring_nf
          _ ≤ |V - (X - a)| + |X - (a + b)| := (abs_add_le _ _).trans (by rw [abs_neg, abs_neg])
          _ ≤ _ := by
            have i1 := mul_le_mul_of_nonneg_left hsum uRnd_pos.le
            have i2 := mul_le_mul_of_nonneg_left hXa uRnd_pos.le
            linarith
      have hb0 := abs_nonneg b
      have e3 : IsDouble (b - V) := by
        have i1 : |b - V| ≤ |b| / 2 := by rw [hu] at hVb; linarith
        refine isDouble_sub hb hVd (by linarith) ?_
        have : |b| - |V| ≤ |b - V| := abs_sub_abs_le_abs_sub b V
        linarith
      unfold twoSumTail
      dsimp only
      rw [hV, fl_of_double e1, fl_of_double e3, fl_of_double e2, show a - (X - V) + (b - V) = a + b - X by ring]
      exact fl_of_double herr
    · -- heavy cancellation: the sum is exact
      push Not at hxa
      have hex : IsDouble (a + b) := by
        have h1 : |a + b| * (1 - uRnd) ≤ |fl (a + b)| := by
          have := abs_sub_abs_le_abs_sub (a + b) (fl (a + b))
          rw [abs_sub_comm] at this
          nlinarith
        by_contra hne
        -- some representable number lies between
        have h2 : |a + b| ≤ |a| ∨ |a| < |a + b| := le_or_gt _ _
        rcases h2 with h2 | h2
        · apply hne
          have := isDouble_sub hb ha.neg (by rw [sub_neg_eq_add, add_comm]; linarith)
            (by rw [sub_neg_eq_add, add_comm, abs_neg]; linarith)
          rwa [sub_neg_eq_add, add_comm] at this
        · have hA : IsDouble |a| := by
            rcases abs_choice a with h | h <;> rw [h]
            · exact ha
            · exact ha.neg
          have := le_fl_of_double hA h2.le
          rw [← fl_abs] at this
          linarith
      refine easy ?_
      rw [fl_of_double hex, add_sub_cancel_left]; exact hb

theorem twoSum_exact {a b : ℚ} (ha : IsDouble a) (hb : IsDouble b) :
    (twoSum a b).2 = a + b - fl (a + b) := twoSumTail_exact ha hb

theorem twoDiffTail_eq (a b x : ℚ) : twoDiffTail a b x = twoSumTail a (-b) x := by
  unfold twoDiffTail twoSumTail
  dsimp only
  rw [show a - x = -(x - a) by ring, fl_neg, show x + -fl (x - a) = x - fl (x - a) by ring,
    show -fl (x - a) - b = -b - fl (x - a) by ring]

theorem twoDiffTail_exact {a b : ℚ} (ha : IsDouble a) (hb : IsDouble b) :
    twoDiffTail a b (fl (a - b)) = a - b - fl (a - b) := by
  rw [twoDiffTail_eq, sub_eq_add_neg a b]
  exact twoSumTail_exact ha hb.neg

theorem twoDiff_eq (a b : ℚ) : twoDiff a b = twoSum a (-b) := by
  unfold twoDiff twoSum
  dsimp only
  rw [twoDiffTail_eq, sub_eq_add_neg a b]

theorem twoDiff_exact {a b : ℚ} (ha : IsDouble a) (hb : IsDouble b) :
    (twoDiff a b).2 = a - b - fl (a - b) := twoDiffTail_exact ha hb

end Ex
end Delynoi
