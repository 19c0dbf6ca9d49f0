import Verif.Spec.Partition
import Mathlib.Tactic.Ring
import Mathlib.Tactic.Linarith
import Mathlib.Tactic.LinearCombination
import Mathlib.Tactic.Positivity
import Mathlib.Algebra.Order.BigOperators.Group.List
/-!
Helper lemmas: signed crossings of a horizontal ray, which count triangles that contain a point.
-/
set_option linter.unusedSectionVars false
namespace Delynoi
variable {K : Type} [Field K] [LinearOrder K] [IsStrictOrderedRing K]

/-- Whether `u` is above `x`. -/
def hgt (x u : Pt K) : K := if x.y < u.y then 1 else 0

/-- Signed crossing of the ray going right from `x` by the segment `uv`. -/
def wnd (x u v : Pt K) : K := if 0 < (v.y - u.y) * turn u v x then hgt x v - hgt x u else 0

/-- Signed crossings of a triangle: 1 or 0 depending on whether it contains `x`. -/
def cov (x a b c : Pt K) : K := wnd x a b + wnd x b c + wnd x c a

theorem wnd_swap (x u v : Pt K) : wnd x u v = -wnd x v u := by
  unfold wnd
  have : (u.y - v.y) * turn v u x = (v.y - u.y) * turn u v x := by unfold turn; ring
  rw [this]
  split <;> ring

theorem wnd_self (x u : Pt K) : wnd x u u = 0 := by unfold wnd; simp

private theorem wnd_scale (x u v : Pt K) (C : Prop) [Decidable C] (h : v.y ≠ u.y → (0 < (v.y - u.y) * turn u v x ↔ C)) :
    wnd x u v = if C then hgt x v - hgt x u else 0 := by
  by_cases hv : v.y = u.y
  · have e : hgt x v = hgt x u := by unfold hgt; rw [hv]
    unfold wnd
    rw [e, sub_self]; simp
  · unfold wnd
    by_cases hC : C
    · rw [if_pos ((h hv).2 hC), if_pos hC]
    · rw [if_neg (fun hh => hC ((h hv).1 hh)), if_neg hC]

private theorem same_sign {p q : K} (k : K) (hk : 0 < k) (h : p * k = q) : 0 < p ↔ 0 < q := by
  subst h
  exact (mul_pos_iff_of_pos_right hk).symm

/-- Crossings add up along a line. -/
theorem wnd_line (x : Pt K) {u m v : Pt K} (h : turn u m v = 0) : wnd x u v = wnd x u m + wnd x m v := by
  -- the sign of the product depends on the line only
  have main : ∀ u m v : Pt K, turn u m v = 0 → u.y ≠ v.y → wnd x u v = wnd x u m + wnd x m v := by
    intro u m v h hne
    have huv : v.y - u.y ≠ 0 := fun hh => hne (sub_eq_zero.1 hh).symm
    have sq : ∀ {a : K}, a ≠ 0 → 0 < a * a := fun ha => mul_self_pos.2 ha
    have hx : (m.x - u.x) * (v.y - u.y) = (v.x - u.x) * (m.y - u.y) := by
      have := h; unfold turn at this; linear_combination this
    have e1 : wnd x u m = if 0 < (v.y - u.y) * turn u v x then hgt x m - hgt x u else 0 := by
      apply wnd_scale
      intro hm
      have hm' : m.y - u.y ≠ 0 := fun hh => hm (sub_eq_zero.1 hh)
      rw [same_sign ((v.y - u.y) * (v.y - u.y)) (sq huv) rfl,
        same_sign (p := (v.y - u.y) * turn u v x) ((m.y - u.y) * (m.y - u.y)) (sq hm') rfl]
      have : (m.y - u.y) * turn u m x * ((v.y - u.y) * (v.y - u.y)) =
          (v.y - u.y) * turn u v x * ((m.y - u.y) * (m.y - u.y)) := by
        unfold turn
        linear_combination ((m.y - u.y) * (v.y - u.y) * (x.y - u.y)) * hx
      rw [this]
    have e2 : wnd x m v = if 0 < (v.y - u.y) * turn u v x then hgt x v - hgt x m else 0 := by
      apply wnd_scale
      intro hm
      have hm' : v.y - m.y ≠ 0 := fun hh => hm (sub_eq_zero.1 hh)
      rw [same_sign ((v.y - u.y) * (v.y - u.y)) (sq huv) rfl,
        same_sign (p := (v.y - u.y) * turn u v x) ((v.y - m.y) * (v.y - m.y)) (sq hm') rfl]
      have : (v.y - m.y) * turn m v x * ((v.y - u.y) * (v.y - u.y)) =
          (v.y - u.y) * turn u v x * ((v.y - m.y) * (v.y - m.y)) := by
        unfold turn
        linear_combination ((v.y - u.y) * (v.y - m.y) * (v.y - x.y)) * hx
      rw [this]
    rw [e1, e2]
    unfold wnd
    split <;> ring
  by_cases h1 : u.y = v.y
  · by_cases h2 : u.y = m.y
    · have flat : ∀ a b : Pt K, a.y = b.y → wnd x a b = 0 := by
        intro a b hab
        unfold wnd hgt
        rw [hab]; simp
      rw [flat u v h1, flat u m h2, flat m v (h2.symm.trans h1)]; ring
    · have := main u v m (by unfold turn at h ⊢; linear_combination -h) h2
      rw [this, wnd_swap x m v]; ring
  · exact main u m v h h1

theorem cov_rot (x a b c : Pt K) : cov x b c a = cov x a b c := by unfold cov; ring

theorem cov_flat (x : Pt K) {a b c : Pt K} (h : turn a b c = 0) : cov x a b c = 0 := by
  unfold cov
  rw [← wnd_line x h, wnd_swap x c a]; ring

/-- Being left of all sides, and sums. -/
theorem turn_sum (a b c x : Pt K) : turn b c x + turn c a x + turn a b x = turn a b c := by unfold turn; ring

theorem turn_height (a b c x : Pt K) :
    turn b c x * (a.y - x.y) + turn c a x * (b.y - x.y) + turn a b x * (c.y - x.y) = 0 := by
  unfold turn; ring

private theorem cov_one {x a b c : Pt K} (h : 0 < turn a b c)
    (hh : (x.y < a.y ∧ b.y ≤ x.y ∧ c.y ≤ x.y) ∨ (a.y ≤ x.y ∧ x.y < b.y ∧ x.y < c.y)) :
    (cov x a b c = 0 ∨ cov x a b c = 1) ∧ (InOpenTri (a, b, c) x → cov x a b c = 1) ∧
    (cov x a b c = 1 → InTri (a, b, c) x) := by
  have hs := turn_sum a b c x
  have hy := turn_height a b c x
  rcases hh with ⟨ha, hb, hc⟩ | ⟨ha, hb, hc⟩
  · have wbc : wnd x b c = 0 := by
      unfold wnd hgt; rw [if_neg (not_lt.2 hb), if_neg (not_lt.2 hc)]; simp
    have wab : wnd x a b = if turn a b x < 0 then -1 else 0 := by
      unfold wnd hgt
      rw [if_pos ha, if_neg (not_lt.2 hb)]
      by_cases ht : turn a b x < 0
      · rw [if_pos ht, if_pos (mul_pos_of_neg_of_neg (by linarith) ht)]; ring
      · rw [if_neg ht, if_neg (not_lt.2 (mul_nonpos_of_nonpos_of_nonneg (by linarith) (not_lt.1 ht)))]
    have wca : wnd x c a = if 0 < turn c a x then 1 else 0 := by
      unfold wnd hgt
      rw [if_pos ha, if_neg (not_lt.2 hc)]
      by_cases ht : 0 < turn c a x
      · rw [if_pos ht, if_pos (mul_pos (by linarith) ht)]; ring
      · rw [if_neg ht, if_neg (not_lt.2 (mul_nonpos_of_nonneg_of_nonpos (by linarith) (not_lt.1 ht)))]
    have hcov : cov x a b c = (if turn a b x < 0 then -1 else 0) + (if 0 < turn c a x then 1 else 0) := by
      unfold cov; rw [wab, wbc, wca]; ring
    have himp : turn a b x < 0 → 0 < turn c a x := by
      intro h1
      by_contra h2
      push Not at h2
      have h3 := mul_nonneg_of_nonpos_of_nonpos h2 (show b.y - x.y ≤ 0 by linarith)
      have h4 := mul_nonneg_of_nonpos_of_nonpos h1.le (show c.y - x.y ≤ 0 by linarith)
      have h5 : turn b c x ≤ 0 := by
        by_contra h6
        push Not at h6
        have := mul_pos h6 (show 0 < a.y - x.y by linarith)
        linarith
      linarith
    rw [hcov]
    refine ⟨?_, ?_, ?_⟩
    · by_cases h1 : turn a b x < 0
      · left; rw [if_pos h1, if_pos (himp h1)]; ring
      · rw [if_neg h1]
        by_cases h2 : 0 < turn c a x
        · right; rw [if_pos h2]; ring
        · left; rw [if_neg h2]; ring
    · rintro ⟨h1, h2, h3⟩
      simp only at h1 h2 h3
      rw [if_neg (not_lt.2 h1.le), if_pos h3]; ring
    · intro h1
      by_cases h2 : turn a b x < 0
      · rw [if_pos h2, if_pos (himp h2)] at h1; norm_num at h1
      · rw [if_neg h2] at h1
        by_cases h3 : 0 < turn c a x
        · push Not at h2
          refine ⟨h2, ?_, h3.le⟩
          simp only
          have h4 := mul_nonpos_of_nonneg_of_nonpos h3.le (show b.y - x.y ≤ 0 by linarith)
          have h5 := mul_nonpos_of_nonneg_of_nonpos h2 (show c.y - x.y ≤ 0 by linarith)
          by_contra h6
          push Not at h6
          have := mul_neg_of_neg_of_pos h6 (show 0 < a.y - x.y by linarith)
          linarith
        · rw [if_neg h3] at h1; norm_num at h1
  · have wbc : wnd x b c = 0 := by
      unfold wnd hgt; rw [if_pos hb, if_pos hc]; simp
    have wab : wnd x a b = if 0 < turn a b x then 1 else 0 := by
      unfold wnd hgt
      rw [if_neg (not_lt.2 ha), if_pos hb]
      by_cases ht : 0 < turn a b x
      · rw [if_pos ht, if_pos (mul_pos (by linarith) ht)]; ring
      · rw [if_neg ht, if_neg (not_lt.2 (mul_nonpos_of_nonneg_of_nonpos (by linarith) (not_lt.1 ht)))]
    have wca : wnd x c a = if turn c a x < 0 then -1 else 0 := by
      unfold wnd hgt
      rw [if_neg (not_lt.2 ha), if_pos hc]
      by_cases ht : turn c a x < 0
      · rw [if_pos ht, if_pos (mul_pos_of_neg_of_neg (by linarith) ht)]; ring
      · rw [if_neg ht, if_neg (not_lt.2 (mul_nonpos_of_nonpos_of_nonneg (by linarith) (not_lt.1 ht)))]
    have hcov : cov x a b c = (if 0 < turn a b x then 1 else 0) + (if turn c a x < 0 then -1 else 0) := by
      unfold cov; rw [wab, wbc, wca]; ring
    -- here `b` and `c` are strictly above, `a` is not
    have himp : turn c a x < 0 → 0 < turn a b x := by
      intro h1
      by_contra h2
      push Not at h2
      have h3 := mul_neg_of_neg_of_pos h1 (show 0 < b.y - x.y by linarith)
      have h4 := mul_nonpos_of_nonpos_of_nonneg h2 (show 0 ≤ c.y - x.y by linarith)
      have h5 : turn b c x < 0 := by
        by_contra h6
        push Not at h6
        have := mul_nonpos_of_nonneg_of_nonpos h6 (show a.y - x.y ≤ 0 by linarith)
        linarith
      linarith
    rw [hcov]
    refine ⟨?_, ?_, ?_⟩
    · by_cases h1 : turn c a x < 0
      · left; rw [if_pos h1, if_pos (himp h1)]; ring
      · rw [if_neg h1]
        by_cases h2 : 0 < turn a b x
        · right; rw [if_pos h2]; ring
        · left; rw [if_neg h2]; ring
    · rintro ⟨h1, h2, h3⟩
      simp only at h1 h2 h3
      rw [if_neg (not_lt.2 h3.le), if_pos h1]; ring
    · intro h1
      by_cases h2 : turn c a x < 0
      · rw [if_pos h2, if_pos (himp h2)] at h1; norm_num at h1
      · rw [if_neg h2] at h1
        by_cases h3 : 0 < turn a b x
        · push Not at h2
          refine ⟨h3.le, ?_, h2⟩
          simp only
          have h4 := mul_nonneg h2 (show 0 ≤ b.y - x.y by linarith)
          have h5 := mul_pos h3 (show 0 < c.y - x.y by linarith)
          by_contra h6
          push Not at h6
          have := mul_nonneg_of_nonpos_of_nonpos h6.le (show a.y - x.y ≤ 0 by linarith)
          linarith
        · rw [if_neg h3] at h1; norm_num at h1

/-- The count of a counter-clockwise triangle is 0 or 1; it is 1 for inner points, and only for points
of the triangle. -/
theorem cov_spec {x a b c : Pt K} (h : 0 < turn a b c) :
    (cov x a b c = 0 ∨ cov x a b c = 1) ∧ (InOpenTri (a, b, c) x → cov x a b c = 1) ∧
    (cov x a b c = 1 → InTri (a, b, c) x) := by
  have rot : ∀ {a b c : Pt K}, 0 < turn a b c → 0 < turn b c a := by
    intro a b c h; have : turn b c a = turn a b c := by unfold turn; ring
    rwa [this]
  have lift : ∀ {a b c : Pt K}, ((cov x b c a = 0 ∨ cov x b c a = 1) ∧ (InOpenTri (b, c, a) x → cov x b c a = 1) ∧
    (cov x b c a = 1 → InTri (b, c, a) x)) → ((cov x a b c = 0 ∨ cov x a b c = 1) ∧
      (InOpenTri (a, b, c) x → cov x a b c = 1) ∧ (cov x a b c = 1 → InTri (a, b, c) x)) := by
    intro a b c
    rw [cov_rot]
    rintro ⟨h1, h2, h3⟩
    refine ⟨h1, fun hh => h2 ⟨hh.2.1, hh.2.2, hh.1⟩, fun hh => ?_⟩
    obtain ⟨k1, k2, k3⟩ := h3 hh
    exact ⟨k3, k1, k2⟩
  have hy := turn_height a b c x
  have hs := turn_sum a b c x
  have all : (x.y < a.y ∧ x.y < b.y ∧ x.y < c.y) ∨ (a.y ≤ x.y ∧ b.y ≤ x.y ∧ c.y ≤ x.y) →
      cov x a b c = 0 ∧ ¬ InOpenTri (a, b, c) x := by
    intro hh
    refine ⟨?_, ?_⟩
    · have : hgt x a = hgt x b ∧ hgt x b = hgt x c := by
        unfold hgt
        rcases hh with ⟨h1, h2, h3⟩ | ⟨h1, h2, h3⟩
        · rw [if_pos h1, if_pos h2, if_pos h3]; exact ⟨rfl, rfl⟩
        · rw [if_neg (not_lt.2 h1), if_neg (not_lt.2 h2), if_neg (not_lt.2 h3)]; exact ⟨rfl, rfl⟩
      unfold cov wnd
      rw [this.1, this.2]; simp
    · rintro ⟨h1, h2, h3⟩
      simp only at h1 h2 h3
      rcases hh with ⟨g1, g2, g3⟩ | ⟨g1, g2, g3⟩
      · have k1 := mul_pos h2 (show 0 < a.y - x.y by linarith)
        have k2 := mul_pos h3 (show 0 < b.y - x.y by linarith)
        have k3 := mul_pos h1 (show 0 < c.y - x.y by linarith)
        linarith
      · have k1 := mul_nonpos_of_nonneg_of_nonpos h2.le (show a.y - x.y ≤ 0 by linarith)
        have k2 := mul_nonpos_of_nonneg_of_nonpos h3.le (show b.y - x.y ≤ 0 by linarith)
        have k3 := mul_nonpos_of_nonneg_of_nonpos h1.le (show c.y - x.y ≤ 0 by linarith)
        have z : ∀ {p q : K}, 0 < p → p * q = 0 → q = 0 := fun hp hpq =>
          (mul_eq_zero.1 hpq).resolve_left hp.ne'
        have z1 := z h2 (le_antisymm k1 (by linarith))
        have z2 := z h3 (le_antisymm k2 (by linarith))
        have z3 := z h1 (le_antisymm k3 (by linarith))
        have : turn a b c = 0 := by
          unfold turn
          rw [show b.y - a.y = 0 by linarith, show c.y - a.y = 0 by linarith]; ring
        linarith
  rcases lt_or_ge x.y a.y with h1 | h1 <;> rcases lt_or_ge x.y b.y with h2 | h2 <;>
    rcases lt_or_ge x.y c.y with h3 | h3
  · obtain ⟨e1, e2⟩ := all (Or.inl ⟨h1, h2, h3⟩)
    rw [e1]; exact ⟨Or.inl rfl, fun hh => absurd hh e2, fun hh => absurd hh.symm one_ne_zero⟩
  · exact lift (lift (cov_one (rot (rot h)) (Or.inr ⟨h3, h1, h2⟩)))
  · exact lift (cov_one (rot h) (Or.inr ⟨h2, h3, h1⟩))
  · exact cov_one h (Or.inl ⟨h1, h2, h3⟩)
  · exact cov_one h (Or.inr ⟨h1, h2, h3⟩)
  · exact lift (cov_one (rot h) (Or.inl ⟨h2, h3, h1⟩))
  · exact lift (lift (cov_one (rot (rot h)) (Or.inl ⟨h3, h1, h2⟩)))
  · obtain ⟨e1, e2⟩ := all (Or.inr ⟨h1, h2, h3⟩)
    rw [e1]; exact ⟨Or.inl rfl, fun hh => absurd hh e2, fun hh => absurd hh.symm one_ne_zero⟩

/-! ### limits -/

/-- The point between `x` and `y`. -/
def between (x y : Pt K) (ε : K) : Pt K := ⟨x.x + ε * (y.x - x.x), x.y + ε * (y.y - x.y)⟩

theorem turn_between (u v x y : Pt K) (ε : K) :
    turn u v (between x y ε) = turn u v x + ε * (turn u v y - turn u v x) := by
  unfold turn between; simp only; ring

private theorem stays_neg (A B : K) (h : A < 0) : ∃ δ : K, 0 < δ ∧ ∀ ε, 0 < ε → ε ≤ δ → A + ε * (B - A) < 0 := by
  have hp : 0 < 2 * (|B| + |A| + 1) := by positivity
  refine ⟨-A / (2 * (|B| + |A| + 1)), div_pos (by linarith) hp, fun ε h0 h1 => ?_⟩
  rw [le_div_iff₀ hp] at h1
  have h2 : B - A ≤ |B| + |A| := by linarith [le_abs_self B, neg_abs_le A]
  have h3 := mul_le_mul_of_nonneg_left h2 h0.le
  nlinarith

/-- Finitely many triangles that contain points near `x` contain `x`. -/
theorem limit_tri (Q : List (Pt K × Pt K × Pt K)) (x y : Pt K)
    (h : ∀ ε, 0 < ε → ε ≤ 1 → ∃ t ∈ Q, InTri t (between x y ε)) : ∃ t ∈ Q, InTri t x := by
  by_contra hc
  push Not at hc
  have single : ∀ t : Pt K × Pt K × Pt K, ¬ InTri t x →
      ∃ δ : K, 0 < δ ∧ ∀ ε, 0 < ε → ε ≤ δ → ¬ InTri t (between x y ε) := by
    intro t ht
    have key : ∀ u v : Pt K, turn u v x < 0 →
        ∃ δ : K, 0 < δ ∧ ∀ ε, 0 < ε → ε ≤ δ → turn u v (between x y ε) < 0 := by
      intro u v huv
      obtain ⟨δ, h1, h2⟩ := stays_neg (turn u v x) (turn u v y) huv
      exact ⟨δ, h1, fun ε h3 h4 => by rw [turn_between]; exact h2 ε h3 h4⟩
    by_cases h1 : turn t.1 t.2.1 x < 0
    · obtain ⟨δ, k1, k2⟩ := key _ _ h1
      exact ⟨δ, k1, fun ε e1 e2 hh => absurd hh.1 (not_le.2 (k2 ε e1 e2))⟩
    by_cases h2 : turn t.2.1 t.2.2 x < 0
    · obtain ⟨δ, k1, k2⟩ := key _ _ h2
      exact ⟨δ, k1, fun ε e1 e2 hh => absurd hh.2.1 (not_le.2 (k2 ε e1 e2))⟩
    by_cases h3 : turn t.2.2 t.1 x < 0
    · obtain ⟨δ, k1, k2⟩ := key _ _ h3
      exact ⟨δ, k1, fun ε e1 e2 hh => absurd hh.2.2 (not_le.2 (k2 ε e1 e2))⟩
    exact absurd ⟨not_lt.1 h1, not_lt.1 h2, not_lt.1 h3⟩ ht
  have all : ∀ R : List (Pt K × Pt K × Pt K), (∀ t ∈ R, ¬ InTri t x) →
      ∃ δ : K, 0 < δ ∧ δ ≤ 1 ∧ ∀ ε, 0 < ε → ε ≤ δ → ∀ t ∈ R, ¬ InTri t (between x y ε) := by
    intro R
    induction R with
    | nil => exact fun _ => ⟨1, one_pos, le_refl _, fun _ _ _ t ht => by cases ht⟩
    | cons t R ih =>
      intro hR
      obtain ⟨δ, h1, h2, h3⟩ := ih (fun t' ht' => hR t' (List.mem_cons_of_mem _ ht'))
      obtain ⟨δ', k1, k2⟩ := single t (hR t List.mem_cons_self)
      refine ⟨min δ δ', lt_min h1 k1, (min_le_left _ _).trans h2, fun ε e1 e2 t' ht' => ?_⟩
      rcases List.mem_cons.1 ht' with rfl | ht'
      · exact k2 ε e1 (e2.trans (min_le_right _ _))
      · exact h3 ε e1 (e2.trans (min_le_left _ _)) t' ht'
  obtain ⟨δ, h1, h2, h3⟩ := all Q hc
  obtain ⟨t, ht, hq⟩ := h δ h1 h2
  exact h3 δ h1 (le_refl _) t ht hq

/-- If the inner points of some triangles are covered, all their points are. -/
theorem cover_closure (P Q : List (Pt K × Pt K × Pt K)) (hP : ∀ t ∈ P, 0 < turn t.1 t.2.1 t.2.2)
    (h : ∀ x, (∃ t ∈ P, InOpenTri t x) → ∃ t ∈ Q, InTri t x) (x : Pt K) (hx : ∃ t ∈ P, InTri t x) :
    ∃ t ∈ Q, InTri t x := by
  obtain ⟨⟨a, b, c⟩, ht, h1, h2, h3⟩ := hx
  have hp := hP _ ht
  simp only at h1 h2 h3 hp
  refine limit_tri Q x ⟨(a.x + b.x + c.x) / 3, (a.y + b.y + c.y) / 3⟩ (fun ε e1 e2 => h _ ⟨_, ht, ?_⟩)
  have m1 : turn a b (⟨(a.x + b.x + c.x) / 3, (a.y + b.y + c.y) / 3⟩ : Pt K) = turn a b c / 3 := by
    unfold turn; simp only; ring
  have m2 : turn b c (⟨(a.x + b.x + c.x) / 3, (a.y + b.y + c.y) / 3⟩ : Pt K) = turn a b c / 3 := by
    unfold turn; simp only; ring
  have m3 : turn c a (⟨(a.x + b.x + c.x) / 3, (a.y + b.y + c.y) / 3⟩ : Pt K) = turn a b c / 3 := by
    unfold turn; simp only; ring
  have pos : ∀ A : K, 0 ≤ A → 0 < A + ε * (turn a b c / 3 - A) := by
    intro A hA
    have k1 : 0 < ε * (turn a b c / 3) := mul_pos e1 (by linarith)
    have k2 : 0 ≤ (1 - ε) * A := mul_nonneg (by linarith) hA
    nlinarith
  refine ⟨?_, ?_, ?_⟩ <;> simp only <;> rw [turn_between]
  · rw [m1]; exact pos _ h1
  · rw [m2]; exact pos _ h2
  · rw [m3]; exact pos _ h3

/-- Lists of triangles that count every point equally often have the same points. -/
theorem same_points (P Q : List (Pt K × Pt K × Pt K)) (hP : ∀ t ∈ P, 0 < turn t.1 t.2.1 t.2.2)
    (hQ : ∀ t ∈ Q, 0 ≤ turn t.1 t.2.1 t.2.2)
    (h : ∀ x, (P.map (fun t => cov x t.1 t.2.1 t.2.2)).sum = (Q.map (fun t => cov x t.1 t.2.1 t.2.2)).sum)
    (x : Pt K) : (∃ t ∈ P, InTri t x) ↔ ∃ t ∈ Q, 0 < turn t.1 t.2.1 t.2.2 ∧ InTri t x := by
  -- counts are not negative
  have nn : ∀ (R : List (Pt K × Pt K × Pt K)), (∀ t ∈ R, 0 ≤ turn t.1 t.2.1 t.2.2) → ∀ x, ∀ t ∈ R,
      0 ≤ cov x t.1 t.2.1 t.2.2 := by
    intro R hR x t ht
    rcases (hR t ht).eq_or_lt with h0 | h0
    · rw [cov_flat x h0.symm]
    · rcases (cov_spec (x := x) h0).1 with h1 | h1 <;> rw [h1]
      exact zero_le_one
  have pick : ∀ (R : List (Pt K × Pt K × Pt K)), (∀ t ∈ R, 0 ≤ turn t.1 t.2.1 t.2.2) → ∀ x,
      0 < (R.map (fun t => cov x t.1 t.2.1 t.2.2)).sum → ∃ t ∈ R, 0 < turn t.1 t.2.1 t.2.2 ∧ InTri t x := by
    intro R hR x hs
    by_contra hc
    push Not at hc
    refine absurd hs (not_lt.2 (le_of_eq (List.sum_eq_zero ?_)))
    intro k hk
    obtain ⟨t, ht, rfl⟩ := List.mem_map.1 hk
    rcases (hR t ht).eq_or_lt with h0 | h0
    · exact cov_flat x h0.symm
    · obtain ⟨h1, _, h3⟩ := cov_spec (x := x) h0
      rcases h1 with h1 | h1
      · exact h1
      · exact absurd (h3 h1) (hc t ht h0)
  have big : ∀ (R : List (Pt K × Pt K × Pt K)), (∀ t ∈ R, 0 ≤ turn t.1 t.2.1 t.2.2) → ∀ x,
      (∃ t ∈ R, 0 < turn t.1 t.2.1 t.2.2 ∧ InOpenTri t x) → 0 < (R.map (fun t => cov x t.1 t.2.1 t.2.2)).sum := by
    intro R hR x ⟨t, ht, hp, ho⟩
    refine lt_of_lt_of_le ?_ (List.single_le_sum ?_ _ (List.mem_map.2 ⟨t, ht, rfl⟩))
    · rw [(cov_spec (x := x) hp).2.1 ho]; exact one_pos
    · intro k hk
      obtain ⟨t', ht', rfl⟩ := List.mem_map.1 hk
      exact nn R hR x t' ht'
  have hP' : ∀ t ∈ P, 0 ≤ turn t.1 t.2.1 t.2.2 := fun t ht => (hP t ht).le
  classical
  have hf : ∀ t, t ∈ Q.filter (fun t => decide (0 < turn t.1 t.2.1 t.2.2)) ↔ t ∈ Q ∧ 0 < turn t.1 t.2.1 t.2.2 := by
    intro t; simp
  constructor
  · intro hx
    obtain ⟨t, ht, hi⟩ := cover_closure P (Q.filter (fun t => decide (0 < turn t.1 t.2.1 t.2.2))) hP (by
      rintro x ⟨t, ht, ho⟩
      have := big P hP' x ⟨t, ht, hP t ht, ho⟩
      rw [h] at this
      obtain ⟨s, hs, hs1, hs2⟩ := pick Q hQ x this
      exact ⟨s, (hf s).2 ⟨hs, hs1⟩, hs2⟩) x hx
    obtain ⟨k1, k2⟩ := (hf t).1 ht
    exact ⟨t, k1, k2, hi⟩
  · rintro ⟨t, ht, hp, hi⟩
    refine cover_closure (Q.filter (fun t => decide (0 < turn t.1 t.2.1 t.2.2))) P
      (fun t ht => ((hf t).1 ht).2) (by
        rintro x ⟨t, ht, ho⟩
        obtain ⟨k1, k2⟩ := (hf t).1 ht
        have := big Q hQ x ⟨t, k1, k2, ho⟩
        rw [← h] at this
        obtain ⟨s, hs, _, hs2⟩ := pick P hP' x this
        exact ⟨s, hs, hs2⟩) x ⟨t, (hf t).2 ⟨ht, hp⟩, hi⟩

end Delynoi
