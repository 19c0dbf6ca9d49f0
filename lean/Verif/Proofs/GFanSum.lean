import Mathlib.Algebra.BigOperators.Intervals
import Mathlib.Algebra.Order.BigOperators.Group.Finset
import Verif.Proofs.GFan
/-!
Helper lemmas: the path around a cell, given by the fan of its triangles.
-/
set_option linter.unusedSectionVars false
namespace Delynoi
variable {K : Type} [Field K] [LinearOrder K] [IsStrictOrderedRing K]

/-- Half of a vector. -/
def half (a : Pt K) : Pt K := ⟨a.x / 2, a.y / 2⟩

/-- The path around an inner cell. -/
def zc (k : Nat) (x : Nat → Pt K) (s : Nat) : Pt K := if s = 0 then x (k - 1) else x (s - 1)

/-- The path around a boundary cell, with the point itself at the end. -/
def zo (k : Nat) (a x : Nat → Pt K) (s : Nat) : Pt K :=
  if s = 0 then half (a 0) else if s ≤ k then x (s - 1) else if s = k + 1 then half (a k) else ⟨0, 0⟩

/-- Part of the cell in one triangle (twice its area). -/
def quad (a x : Nat → Pt K) (s : Nat) : K := cr (half (a s)) (x s) + cr (x s) (half (a (s + 1)))

theorem half_inj {a b : Pt K} (h : half a = half b) : a = b := by
  unfold half at h
  have h1 := congrArg Pt.x h
  have h2 := congrArg Pt.y h
  simp only at h1 h2
  exact Pt.ext (by linarith) (by linarith)

theorem half_ne {a : Pt K} (h : a ≠ ⟨0, 0⟩) : half a ≠ ⟨0, 0⟩ := by
  intro h0
  apply h
  have : half (⟨0, 0⟩ : Pt K) = ⟨0, 0⟩ := by simp [half]
  rw [← this] at h0
  exact half_inj h0

/-- The middle of an edge lies on the line of the centers on both sides. -/
theorem bisect {a x y : Pt K} (ha : a ≠ ⟨0, 0⟩) (h1 : pw x a = 0) (h2 : pw y a = 0) :
    cr x y = cr x (half a) + cr (half a) y := by
  have hd := dt_pos ha
  have key : dt a a * (cr x y - (cr x (half a) + cr (half a) y)) =
      (pw y a * cr a x - pw x a * cr a y) / 2 := by
    unfold pw dt cr half; simp only; ring
  rw [h1, h2] at key
  have : dt a a * (cr x y - (cr x (half a) + cr (half a) y)) = 0 := by rw [key]; ring
  rcases mul_eq_zero.1 this with h | h
  · exact absurd h hd.ne'
  · linarith

namespace GFan
variable {e : K} {k : Nat} {a x : Nat → Pt K}

theorem x_ne (h : GFan e k a x) {i : Nat} (hi : i < k) : x i ≠ ⟨0, 0⟩ := by
  intro h0
  have h1 := h.c0 i hi
  rw [h0] at h1
  have h2 := dt_pos (h.ne_zero (by omega) (i := i) (by omega))
  unfold pw at h1
  have : dt (⟨0, 0⟩ : Pt K) (a i) = 0 := by unfold dt; simp
  rw [this] at h1
  linarith

/-- Consecutive centers turn in the direction of the fan. -/
theorem step_nonneg (h : GFan e k a x) {i : Nat} (hi : i + 1 < k) : 0 ≤ e * cr (x i) (x (i + 1)) := by
  have hk : 0 < k := by omega
  have hd := dt_pos (h.ne_zero hk (i := i + 1) (by omega))
  have e1 := h.c1 i (by omega)
  have e2 := h.c0 (i + 1) (by omega)
  have e3 := h.c1 (i + 1) (by omega)
  have e4 := h.emp i (by omega) (i + 2) (by omega)
  have e5 := h.pos (i + 1) (by omega)
  have b := bisect (h.ne_zero hk (i := i + 1) (by omega)) e1 e2
  have k2 : dt (a (i + 1)) (a (i + 1)) * (pw (x i) (a (i + 2)) - pw (x (i + 1)) (a (i + 2))) =
      4 * (cr (x i) (half (a (i + 1))) + cr (half (a (i + 1))) (x (i + 1))) *
        cr (a (i + 1)) (a (i + 2)) +
      (pw (x i) (a (i + 1)) - pw (x (i + 1)) (a (i + 1))) * dt (a (i + 1)) (a (i + 2)) := by
    unfold pw dt cr half; simp only; ring
  have e3' : pw (x (i + 1)) (a (i + 2)) = 0 := e3
  rw [e1, e2, e3', ← b] at k2
  have f : 0 ≤ cr (x i) (x (i + 1)) * cr (a (i + 1)) (a (i + 2)) := by
    have := mul_nonneg hd.le e4
    linarith
  have e5' : 0 < e * cr (a (i + 1)) (a (i + 2)) := e5
  by_contra hn
  push Not at hn
  have := mul_neg_of_neg_of_pos hn e5'
  have he : e * e = 1 := by rcases h.sgn with rfl | rfl <;> ring
  have e6 : e * cr (x i) (x (i + 1)) * (e * cr (a (i + 1)) (a (i + 2))) =
      (e * e) * (cr (x i) (x (i + 1)) * cr (a (i + 1)) (a (i + 2))) := by ring
  rw [e6, he, one_mul] at this
  linarith

/-- The last and the first center of a closed fan. -/
theorem close_nonneg (h : GFan e k a x) (hk : 0 < k) (hcl : a 0 = a k) : 0 ≤ e * cr (x (k - 1)) (x 0) := by
  have hd := dt_pos (h.ne_zero hk (i := 0) (by omega))
  have e1 := h.c1 (k - 1) (by omega)
  rw [show k - 1 + 1 = k by omega, ← hcl] at e1
  have e2 := h.c0 0 hk
  have e3 := h.c1 0 hk
  have e4 := h.emp (k - 1) (by omega) 1 (by omega)
  have e5 := h.pos 0 hk
  simp only [Nat.zero_add] at e3 e5
  have b := bisect (h.ne_zero hk (i := 0) (by omega)) e1 e2
  have k2 : dt (a 0) (a 0) * (pw (x (k - 1)) (a 1) - pw (x 0) (a 1)) =
      4 * (cr (x (k - 1)) (half (a 0)) + cr (half (a 0)) (x 0)) * cr (a 0) (a 1) +
      (pw (x (k - 1)) (a 0) - pw (x 0) (a 0)) * dt (a 0) (a 1) := by
    unfold pw dt cr half; simp only; ring
  rw [e1, e2, e3, ← b] at k2
  have f : 0 ≤ cr (x (k - 1)) (x 0) * cr (a 0) (a 1) := by
    have := mul_nonneg hd.le e4
    linarith
  by_contra hn
  push Not at hn
  have := mul_neg_of_neg_of_pos hn e5
  have he : e * e = 1 := by rcases h.sgn with rfl | rfl <;> ring
  have e6 : e * cr (x (k - 1)) (x 0) * (e * cr (a 0) (a 1)) =
      (e * e) * (cr (x (k - 1)) (x 0) * cr (a 0) (a 1)) := by ring
  rw [e6, he, one_mul] at this
  linarith

theorem half_pw (a : Pt K) : pw (half a) a = 0 := by unfold pw dt half; simp only; ring

/-- Hops of the path around an inner cell turn in the direction of the fan. -/
theorem zc_nonneg (h : GFan e k a x) (hk : 0 < k) (hcl : a 0 = a k) :
    ∀ s < k, 0 ≤ e * cr (zc k x s) (zc k x (s + 1)) := by
  intro s hs
  unfold zc
  rw [if_neg (by omega : ¬ s + 1 = 0), Nat.add_sub_cancel]
  split
  · rename_i h0; rw [h0]; exact h.close_nonneg hk hcl
  · have := h.step_nonneg (i := s - 1) (by omega)
    rwa [show s - 1 + 1 = s by omega] at this

/-- Hops of the path around a boundary cell turn in the direction of the fan. -/
theorem zo_nonneg (h : GFan e k a x) (hk : 0 < k)
    (h0 : ∀ j ≤ k, 0 ≤ pw (half (a 0)) (a j)) (h1 : ∀ j ≤ k, 0 ≤ pw (half (a k)) (a j)) :
    ∀ s < k + 1, 0 ≤ e * cr (zo k a x s) (zo k a x (s + 1)) := by
  intro s hs
  unfold zo
  rw [if_neg (by omega : ¬ s + 1 = 0), Nat.add_sub_cancel]
  rcases Nat.eq_zero_or_pos s with hs0 | hs0
  · subst hs0
    rw [if_pos rfl, if_pos (by omega)]
    have := h.startSide hk h0
    have e1 : e * cr (half (a 0)) (x 0) = e * cr (a 0) (x 0) / 2 := by unfold cr half; simp only; ring
    rw [e1]; linarith
  · rw [if_neg (by omega), if_pos (by omega)]
    rcases Nat.lt_or_ge s k with hlt | hge
    · rw [if_pos (by omega)]
      have := h.step_nonneg (i := s - 1) (by omega)
      rwa [show s - 1 + 1 = s by omega] at this
    · rw [if_neg (by omega), if_pos (by omega), show s = k by omega]
      have := h.endSide hk h1
      have e1 : e * cr (x (k - 1)) (half (a k)) = e * cr (x (k - 1)) (a k) / 2 := by
        unfold cr half; simp only; ring
      rw [e1]; linarith

/-- The path around an inner cell adds up the parts in the triangles. -/
theorem zc_sum (h : GFan e k a x) (hk : 0 < k) (hcl : a 0 = a k) :
    ∑ s ∈ Finset.range k, cr (zc k x s) (zc k x (s + 1)) = ∑ s ∈ Finset.range k, quad a x s := by
  obtain ⟨n, rfl⟩ : ∃ n, k = n + 1 := ⟨k - 1, by omega⟩
  rw [Finset.sum_range_succ']
  have e1 : ∀ s ∈ Finset.range n, cr (zc (n + 1) x (s + 1)) (zc (n + 1) x (s + 1 + 1)) =
      cr (x s) (half (a (s + 1))) + cr (half (a (s + 1))) (x (s + 1)) := by
    intro s hs
    have hs' := Finset.mem_range.1 hs
    unfold zc
    rw [if_neg (by omega), if_neg (by omega), Nat.add_sub_cancel, Nat.add_sub_cancel]
    exact bisect (h.ne_zero (by omega) (by omega)) (h.c1 s (by omega)) (h.c0 (s + 1) (by omega))
  rw [Finset.sum_congr rfl e1]
  have e2 : cr (zc (n + 1) x 0) (zc (n + 1) x (0 + 1)) =
      cr (x n) (half (a (n + 1))) + cr (half (a 0)) (x 0) := by
    unfold zc
    rw [if_pos rfl, if_neg (by omega), Nat.add_sub_cancel, Nat.add_sub_cancel, ← hcl]
    have h1 := h.c1 n (by omega)
    rw [← hcl] at h1
    exact bisect (h.ne_zero hk (by omega)) h1 (h.c0 0 hk)
  rw [e2]
  unfold quad
  rw [Finset.sum_add_distrib, Finset.sum_add_distrib, Finset.sum_range_succ' (fun s => cr (half (a s)) (x s)),
    Finset.sum_range_succ (fun s => cr (x s) (half (a (s + 1))))]
  ring

/-- The path around a boundary cell adds up the parts in the triangles. -/
theorem zo_sum (h : GFan e k a x) (hk : 0 < k) :
    ∑ s ∈ Finset.range (k + 1), cr (zo k a x s) (zo k a x (s + 1)) = ∑ s ∈ Finset.range k, quad a x s := by
  obtain ⟨n, rfl⟩ : ∃ n, k = n + 1 := ⟨k - 1, by omega⟩
  rw [Finset.sum_range_succ', Finset.sum_range_succ]
  have e1 : ∀ s ∈ Finset.range n, cr (zo (n + 1) a x (s + 1)) (zo (n + 1) a x (s + 1 + 1)) =
      cr (x s) (half (a (s + 1))) + cr (half (a (s + 1))) (x (s + 1)) := by
    intro s hs
    have hs' := Finset.mem_range.1 hs
    have zs : ∀ s < n + 1, zo (n + 1) a x (s + 1) = x s := by
      intro s hs; unfold zo; rw [if_neg (by omega), if_pos (by omega), Nat.add_sub_cancel]
    rw [zs s (by omega), zs (s + 1) (by omega)]
    exact bisect (h.ne_zero (by omega) (by omega)) (h.c1 s (by omega)) (h.c0 (s + 1) (by omega))
  rw [Finset.sum_congr rfl e1]
  have e2 : cr (zo (n + 1) a x 0) (zo (n + 1) a x (0 + 1)) = cr (half (a 0)) (x 0) := by
    unfold zo
    rw [if_pos rfl, if_neg (by omega), if_pos (by omega)]
  have e3 : cr (zo (n + 1) a x (n + 1)) (zo (n + 1) a x (n + 1 + 1)) = cr (x n) (half (a (n + 1))) := by
    unfold zo
    rw [if_neg (by omega), if_pos (by omega), if_neg (by omega), if_neg (by omega), if_pos rfl,
      Nat.add_sub_cancel]
  rw [e2, e3]
  unfold quad
  rw [Finset.sum_add_distrib, Finset.sum_add_distrib, Finset.sum_range_succ' (fun s => cr (half (a s)) (x s)),
    Finset.sum_range_succ (fun s => cr (x s) (half (a (s + 1))))]
  ring

/-- The path around an inner cell does not return. -/
theorem zc_returns (h : GFan e k a x) (hcl : a 0 = a k) {p q : Nat} (hpq : p < q) (hq : q ≤ k)
    (hz : zc k x p = zc k x q) : (∀ s, p ≤ s → s ≤ q → zc k x s = zc k x p) ∨
      ((∀ s ≤ p, zc k x s = zc k x p) ∧ ∀ s, q ≤ s → s ≤ k → zc k x s = zc k x p) := by
  have z0 : zc k x 0 = x (k - 1) := by unfold zc; rw [if_pos rfl]
  have zs : ∀ s, zc k x (s + 1) = x s := by
    intro s; unfold zc; rw [if_neg (by omega), Nat.add_sub_cancel]
  obtain ⟨q', rfl⟩ : ∃ q', q = q' + 1 := ⟨q - 1, by omega⟩
  rcases Nat.eq_zero_or_pos p with hp | hp
  · subst hp
    rw [z0, zs] at hz
    rw [z0]
    rcases Nat.lt_or_ge q' (k - 1) with hlt | hge
    · rcases h.closed_interval hcl (i := q') (j := k - 1) hlt (by omega) hz.symm with h1 | ⟨h1, h2⟩
      · right
        refine ⟨fun s hs => by rw [show s = 0 by omega, z0], fun s hs hs' => ?_⟩
        rw [show s = (s - 1) + 1 by omega, zs, h1 (s - 1) (by omega) (by omega), hz]
      · left
        intro s _ hs'
        rcases Nat.eq_zero_or_pos s with h0 | h0
        · rw [h0, z0]
        · rw [show s = (s - 1) + 1 by omega, zs, h1 (s - 1) (by omega), hz]
    · right
      refine ⟨fun s hs => by rw [show s = 0 by omega, z0], fun s hs hs' => ?_⟩
      rw [show s = (k - 1) + 1 by omega, zs]
  · obtain ⟨p', rfl⟩ : ∃ p', p = p' + 1 := ⟨p - 1, by omega⟩
    rw [zs, zs] at hz
    rw [zs]
    rcases h.closed_interval hcl (i := p') (j := q') (by omega) (by omega) hz with h1 | ⟨h1, h2⟩
    · left
      intro s hs hs'
      rw [show s = (s - 1) + 1 by omega, zs, h1 (s - 1) (by omega) (by omega)]
    · right
      refine ⟨fun s hs => ?_, fun s hs hs' => ?_⟩
      · rcases Nat.eq_zero_or_pos s with h0 | h0
        · rw [h0, z0]; exact h2 (k - 1) (by omega) (by omega)
        · rw [show s = (s - 1) + 1 by omega, zs, h1 (s - 1) (by omega)]
      · rw [show s = (s - 1) + 1 by omega, zs]; exact h2 (s - 1) (by omega) (by omega)

/-- The path around a boundary cell does not return. -/
theorem zo_between (h : GFan e k a x) (hk : 0 < k) (hopen : a 0 ≠ a k)
    (h0 : ∀ j ≤ k, 0 ≤ pw (half (a 0)) (a j)) (h1 : ∀ j ≤ k, 0 ≤ pw (half (a k)) (a j))
    {p q : Nat} (hpq : p < q) (hq : q ≤ k + 2) (hz : zo k a x p = zo k a x q) :
    ∀ s, p ≤ s → s ≤ q → zo k a x s = zo k a x p := by
  have z0 : zo k a x 0 = half (a 0) := by unfold zo; rw [if_pos rfl]
  have zs : ∀ s < k, zo k a x (s + 1) = x s := by
    intro s hs; unfold zo; rw [if_neg (by omega), if_pos (by omega), Nat.add_sub_cancel]
  have z1 : zo k a x (k + 1) = half (a k) := by
    unfold zo; rw [if_neg (by omega), if_neg (by omega), if_pos rfl]
  have z2 : zo k a x (k + 2) = ⟨0, 0⟩ := by
    unfold zo; rw [if_neg (by omega), if_neg (by omega), if_neg (by omega)]
  have n0 := half_ne (h.ne_zero hk (i := 0) (by omega))
  have n1 := half_ne (h.ne_zero hk (i := k) (by omega))
  rcases Nat.lt_or_ge (k + 1) q with hq2 | hq2
  · exfalso
    rw [show q = k + 2 by omega, z2] at hz
    rcases Nat.eq_zero_or_pos p with hp | hp
    · rw [hp, z0] at hz; exact n0 hz
    · rcases Nat.lt_or_ge k p with hpk | hpk
      · rw [show p = k + 1 by omega, z1] at hz; exact n1 hz
      · rw [show p = (p - 1) + 1 by omega, zs _ (by omega)] at hz
        exact h.x_ne (by omega) hz
  rcases Nat.lt_or_ge k q with hq1 | hq1
  · have hqk : q = k + 1 := by omega
    subst hqk
    rw [z1] at hz
    rcases Nat.eq_zero_or_pos p with hp | hp
    · exfalso; rw [hp, z0] at hz; exact hopen (half_inj hz)
    · obtain ⟨p', rfl⟩ : ∃ p', p = p' + 1 := ⟨p - 1, by omega⟩
      rw [zs _ (by omega)] at hz ⊢
      have := h.open_last hopen h0 h1 (l := p') (by omega) hz
      intro s hs hs'
      rcases Nat.lt_or_ge k s with hsk | hsk
      · rw [show s = k + 1 by omega, z1, hz]
      · rw [show s = (s - 1) + 1 by omega, zs _ (by omega)]
        exact this (s - 1) (by omega) (by omega)
  · obtain ⟨q', rfl⟩ : ∃ q', q = q' + 1 := ⟨q - 1, by omega⟩
    rw [zs _ (by omega)] at hz
    rcases Nat.eq_zero_or_pos p with hp | hp
    · subst hp
      rw [z0] at hz ⊢
      have := h.open_first hopen h0 h1 (l := q') (by omega) hz.symm
      intro s hs hs'
      rcases Nat.eq_zero_or_pos s with hs0 | hs0
      · rw [hs0, z0]
      · rw [show s = (s - 1) + 1 by omega, zs _ (by omega), this (s - 1) (by omega), hz]
    · obtain ⟨p', rfl⟩ : ∃ p', p = p' + 1 := ⟨p - 1, by omega⟩
      rw [zs _ (by omega)] at hz ⊢
      have := h.open_interval hopen h0 h1 (i := p') (j := q') (by omega) (by omega) hz
      intro s hs hs'
      rw [show s = (s - 1) + 1 by omega, zs _ (by omega)]
      exact this (s - 1) (by omega) (by omega)

end GFan
end Delynoi
