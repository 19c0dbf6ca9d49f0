import Verif.Proofs.ExpLast
/-! How far `estimate` is from the sum of an expansion. -/
namespace Delynoi.Ex
set_option linter.unusedVariables false

/-- `2⁻⁵²`. -/
abbrev eta : ℚ := 1 / 4503599627370496

/-- The roundoff of a number of given size. -/
theorem fl_err_pow {x : ℚ} {L : Int} (hx : MultOf (-1074) x) (h : |x| ≤ (2 : ℚ) ^ L) : |fl x - x| ≤ eta / 4 * (2 : ℚ) ^ L := by
  have e : (2 : ℚ) ^ L = 9007199254740992 * (2 : ℚ) ^ (L - 53) := by
    rw [show L = (L - 53) + 53 by ring, two_zpow_add, show L - 53 + 53 - 53 = L - 53 by ring]; norm_num; ring
  have hp := two_zpow_pos (L - 53)
  by_cases hL : -1074 ≤ L - 53
  · have := fl_grid_err hL (by rw [show L - 53 + 53 = L by ring]; exact h)
    rw [e]; unfold eta; linarith
  · have : IsDouble x := by
      refine isDouble_of_multOf (le_refl _) hx (h.trans ?_)
      have h1 := two_zpow_mono (show L ≤ -1074 + 53 by omega)
      refine h1.trans (le_of_eq ?_)
      rw [two_zpow_add]; norm_num; ring
    rw [fl_of_double this, sub_self, abs_zero]
    rw [e]; unfold eta; linarith

/-- The state of `estimate`: what it has, the sum so far, the last component taken. -/
structure Est (Q S p : ℚ) : Prop where
  dQ : IsDouble Q
  r : |Q - S| ≤ 5 / 4 * eta * |S|
  g : ∀ l : Int, |S| < 3 / 4 * (2 : ℚ) ^ l → |p| < (2 : ℚ) ^ l → |Q - S| ≤ 5 / 4 * eta * ((2 : ℚ) ^ l - |S|)
  q : ∀ l : Int, (|S| < 1 / 2 * (2 : ℚ) ^ l ∨ |Q| < 1 / 2 * (2 : ℚ) ^ l) → |p| < (2 : ℚ) ^ l →
    |Q - S| ≤ eta * (3 / 4 * (2 : ℚ) ^ l - 5 / 4 * |S|)

theorem Est.init : Est 0 0 0 where
  dQ := isDouble_zero
  r := by simp
  g := by
    intro l _ _
    have := two_zpow_pos l
    rw [sub_zero, abs_zero, sub_zero]; unfold eta; linarith
  q := by
    intro l _ _
    have := two_zpow_pos l
    rw [sub_zero, abs_zero]; unfold eta; linarith

theorem Est.neg {Q S p : ℚ} (h : Est Q S p) : Est (-Q) (-S) (-p) := by
  have e : |-Q - -S| = |Q - S| := by rw [← abs_neg]; congr 1; ring
  refine ⟨h.dQ.neg, ?_, ?_, ?_⟩
  · rw [e, abs_neg]; exact h.r
  · intro l; rw [e, abs_neg, abs_neg]; exact h.g l
  · intro l; rw [e, abs_neg, abs_neg, abs_neg]; exact h.q l

theorem Est.step_pos {Q S p x : ℚ} {l : Int} (s : Est Q S p) (dx : IsDouble x) (hl : Lsb l x) (hp : |p| < (2 : ℚ) ^ l)
    (hS : |S| < 3 / 4 * (2 : ℚ) ^ l) (x0 : 0 < x) : Est (fl (Q + x)) (S + x) x := by
  have g1 := s.g l hS hp
  have q1 := s.q l
  have r1 := s.r
  have t0 := two_zpow_pos l
  have xt : (2 : ℚ) ^ l ≤ x := by have := hl.pow_le; rwa [abs_of_pos x0] at this
  have mX : MultOf (-1074) (Q + x) := s.dQ.mult1074.add dx.mult1074
  have dQ := s.dQ
  have err : ∀ L : Int, |Q + x| ≤ (2 : ℚ) ^ L → |fl (Q + x) - (Q + x)| ≤ eta / 4 * (2 : ℚ) ^ L := fun L h => fl_err_pow mX h
  have rel := mX.rel.1
  rw [uRnd_eq] at rel
  have tri : |fl (Q + x) - (S + x)| ≤ |fl (Q + x) - (Q + x)| + |Q - S| := by
    rw [show fl (Q + x) - (S + x) = (fl (Q + x) - (Q + x)) + (Q - S) by ring]; exact abs_add_le _ _
  -- sizes
  have sig : |Q - S| ≤ 5 / 8 * eta * (2 : ℚ) ^ l := by
    unfold eta at *; linarith
  have hQS := abs_le.1 (le_refl |Q - S|)
  have hSS := abs_le.1 (le_refl |S|)
  have aS := abs_nonneg S
  have Qt : |Q| < (2 : ℚ) ^ l := by
    unfold eta at *
    rw [abs_lt]; constructor <;> linarith
  have Qt' := abs_lt.1 Qt
  have S'0 : 0 < S + x := by linarith
  have Qx0 : 0 < Q + x := by linarith
  have aX : |Q + x| = Q + x := abs_of_pos Qx0
  have aS' : |S + x| = S + x := abs_of_pos S'0
  have ax : |x| = x := abs_of_pos x0
  have sgn : (0 ≤ S → 0 ≤ Q) ∧ (S ≤ 0 → Q ≤ 0) := by
    unfold eta at *
    constructor
    · intro h; rw [abs_of_nonneg h] at r1; linarith
    · intro h; rw [abs_of_nonpos h] at r1; linarith
  -- `x` is the power of two, or much larger
  have xcase : x = (2 : ℚ) ^ l ∨ 3 * (2 : ℚ) ^ l ≤ x := by
    obtain ⟨k, ko, hk⟩ := hl
    have h1 : (0 : ℚ) < k := by
      by_contra hc
      push Not at hc
      have := mul_nonpos_of_nonpos_of_nonneg hc t0.le
      linarith
    have h2 : 0 < k := by exact_mod_cast h1
    have h3 : k = 1 ∨ 3 ≤ k := by omega
    rcases h3 with h | h
    · left; rw [hk, h]; norm_num
    · right; rw [hk]
      have : (3 : ℚ) ≤ k := by exact_mod_cast h
      exact mul_le_mul_of_nonneg_right this t0.le
  have mx := hl.mult
  refine ⟨fl_isDouble _, ?_, ?_, ?_⟩
  · -- relative error
    rw [aS']
    rcases xcase with hx | hx
    · rcases le_or_gt 0 S with h0 | h0
      · have := err (l + 1) (by rw [aX, two_zpow_succ]; linarith)
        rw [two_zpow_succ] at this
        unfold eta at *; linarith
      · rw [abs_of_neg h0] at *
        rcases lt_or_ge |Q| (1 / 2 * (2 : ℚ) ^ l) with hq | hq
        · have h1 := q1 (Or.inr hq) hp
          have h2 := err l (by rw [aX]; have := sgn.2 h0.le; linarith)
          unfold eta at *; linarith
        · have hQ0 := sgn.2 h0.le
          rw [abs_of_nonpos hQ0] at hq
          have hd : IsDouble (Q + x) := by
            have e1 : |x - -Q| = Q + x := by rw [show x - -Q = Q + x by ring]; exact aX
            have := isDouble_sub (a := x) (b := -Q) dx dQ.neg (by rw [e1, ax]; linarith)
              (by rw [e1, abs_neg, abs_of_nonpos hQ0]; linarith)
            rw [show Q + x = x - -Q by ring]; exact this
          rw [fl_of_double hd, show Q + x - (S + x) = Q - S by ring]
          unfold eta at *; linarith
    · rw [aX] at rel
      unfold eta at *; linarith
  · -- against the next last bit
    intro l' h1 h2
    rw [aS'] at h1 ⊢
    rw [ax] at h2
    have hlt := two_zpow_lt.1 (xt.trans_lt h2)
    rcases (show l' = l + 1 ∨ l + 2 ≤ l' by omega) with h | h
    · subst h
      have hx : x = (2 : ℚ) ^ l := by
        rcases xcase with h | h
        · exact h
        · rw [two_zpow_succ] at h2; linarith
      have h3 := err (l + 1) (by rw [aX, two_zpow_succ]; linarith)
      rw [two_zpow_succ] at h1 h3 ⊢
      rcases le_or_gt 0 S with h0 | h0
      · rw [abs_of_nonneg h0] at *
        have h4 := q1 (Or.inl (by linarith)) hp
        unfold eta at *; linarith
      · rw [abs_of_neg h0] at *
        unfold eta at *; linarith
    · have hxT : x + (2 : ℚ) ^ l ≤ (2 : ℚ) ^ l' := MultOf.gap mx (MultOf.pow hlt.le) h2
      have h3 := err l' (by rw [aX]; linarith)
      have T4 : (2 : ℚ) ^ l' = 4 * (2 : ℚ) ^ (l' - 2) := by
        rw [show l' = (l' - 2) + 2 by ring, two_zpow_add, show l' - 2 + 2 - 2 = l' - 2 by ring]; norm_num; ring
      have m34 : MultOf l (3 / 4 * (2 : ℚ) ^ l') := by
        rw [T4, show 3 / 4 * (4 * (2 : ℚ) ^ (l' - 2)) = ((2 : ℚ) ^ (l' - 2) + (2 : ℚ) ^ (l' - 2)) + (2 : ℚ) ^ (l' - 2) by ring]
        have := MultOf.pow (k := l) (l := l' - 2) (by omega)
        exact (this.add this).add this
      have T0 := two_zpow_pos l'
      rcases le_or_gt 0 S with h0 | h0
      · have h4 : x + (2 : ℚ) ^ l ≤ 3 / 4 * (2 : ℚ) ^ l' := MultOf.gap mx m34 (by linarith)
        rw [abs_of_nonneg h0] at *
        unfold eta at *; linarith
      · have h4 : x ≤ 3 / 4 * (2 : ℚ) ^ l' := by
          by_contra hc
          push Not at hc
          have := MultOf.gap m34 mx hc
          rw [abs_of_neg h0] at *
          linarith
        rw [abs_of_neg h0] at *
        unfold eta at *; linarith
  · -- below half of it
    intro l' h1 h2
    rw [aS'] at h1 ⊢
    rw [ax] at h2
    have hlt := two_zpow_lt.1 (xt.trans_lt h2)
    have hT : (2 : ℚ) ^ l' = 2 * (2 : ℚ) ^ (l' - 1) := by
      rw [← two_zpow_succ]; congr 1; ring
    have h1' : S + x < 1 / 2 * (2 : ℚ) ^ l' ∨ Q + x < 1 / 2 * (2 : ℚ) ^ l' := by
      refine h1.imp_right fun h => ?_
      by_contra hc
      push Not at hc
      by_cases hlow : -1074 ≤ l' - 1
      · have hd : IsDouble ((2 : ℚ) ^ (l' - 1)) := ⟨1, l' - 1, hlow, by norm_num, by push_cast; ring⟩
        have := le_fl_of_double hd (x := Q + x) (by linarith)
        have h3 := (le_abs_self (fl (Q + x))).trans_lt h
        linarith
      · have h3 := dx.mult1074.le_abs x0.ne'
        have h4 := two_zpow_lt.1 (h3.trans_lt (by rw [ax]; exact h2))
        have h5 := hl.le dx.mult1074
        omega
    rcases (show l' = l + 1 ∨ l + 2 ≤ l' by omega) with h | h
    · subst h
      have hx : x = (2 : ℚ) ^ l := by
        rcases xcase with h | h
        · exact h
        · rw [two_zpow_succ] at h2; linarith
      rw [two_zpow_succ] at h1' ⊢
      have h0 : S < 0 := by
        by_contra hc
        push Not at hc
        have := sgn.1 hc
        rcases h1' with h | h <;> linarith
      have h3 := err l (by rw [aX]; have := sgn.2 h0.le; linarith)
      rw [abs_of_neg h0] at *
      unfold eta at *; linarith
    · have hm : MultOf l ((2 : ℚ) ^ (l' - 1)) := MultOf.pow (by omega)
      have h4 : x + (2 : ℚ) ^ l ≤ (2 : ℚ) ^ (l' - 1) := by
        rcases lt_trichotomy x ((2 : ℚ) ^ (l' - 1)) with h5 | h5 | h5
        · exact MultOf.gap mx hm h5
        · have := hl.le (j := l' - 1) (by rw [h5]; exact MultOf.pow (le_refl _))
          omega
        · have := MultOf.gap hm mx h5
          rcases h1' with h | h <;> linarith
      have h3 := err (l' - 1) (by rw [aX]; linarith)
      rw [hT]
      rcases le_or_gt 0 S with h0 | h0
      · rw [abs_of_nonneg h0] at *
        unfold eta at *; linarith
      · rw [abs_of_neg h0] at *
        unfold eta at *; linarith

theorem Est.step {Q S p x : ℚ} {l : Int} (s : Est Q S p) (dx : IsDouble x) (hl : Lsb l x) (hp : |p| < (2 : ℚ) ^ l)
    (hS : |S| < 3 / 4 * (2 : ℚ) ^ l) : Est (fl (Q + x)) (S + x) x := by
  rcases lt_or_gt_of_ne hl.ne with h | h
  · have := s.neg.step_pos dx.neg hl.neg (by rwa [abs_neg]) (by rwa [abs_neg]) (by linarith)
    have := this.neg
    rw [← fl_neg] at this
    convert this using 1 <;> ring_nf
  · exact s.step_pos dx hl hp hS h

theorem est_fold : ∀ (xs : List ℚ) (Q S p : ℚ), Est Q S p → Expansion S p xs →
    |xs.foldl (fun q x => fl (q + x)) Q - (S + xs.sum)| ≤ 5 / 4 * eta * |S + xs.sum| := by
  intro xs
  induction xs with
  | nil => intro Q S p s _; simpa using s.r
  | cons x xs ih =>
    intro Q S p s h
    rw [List.foldl_cons, List.sum_cons, ← add_assoc]
    obtain ⟨dx, h⟩ := h
    rcases h with ⟨h0, h⟩ | ⟨l, hl, h1, h2, h⟩
    · subst h0
      rw [add_zero, add_zero, fl_of_double s.dQ]
      exact ih Q S p s h
    · exact ih _ _ _ (s.step dx hl h1 h2) h

/-- `estimate` of an expansion has a relative error of at most `2.5 ε`. -/
theorem estimate_exp {h : List ℚ} (he : Expansion 0 0 h) (hn : h ≠ []) :
    ∃ q, estimate h = some q ∧ |q - h.sum| ≤ 5 / 4 * eta * |h.sum| := by
  have := est_fold h 0 0 0 Est.init he
  rw [zero_add] at this
  cases h with
  | nil => exact absurd rfl hn
  | cons x xs =>
    refine ⟨_, rfl, ?_⟩
    rw [List.foldl_cons, zero_add, fl_of_double he.1] at this
    exact this

end Delynoi.Ex
