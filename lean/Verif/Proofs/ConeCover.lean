import Verif.Proofs.GFanSum
/-!
Helper lemmas: a closed path that turns one way around the origin meets every direction.
-/
set_option linter.unusedSectionVars false
namespace Delynoi
variable {K : Type} [Field K] [LinearOrder K] [IsStrictOrderedRing K]

/-- A closed path around the origin that turns one way. -/
structure Turning (e : K) (k : Nat) (z : Nat → Pt K) : Prop where
  sgn : e = 1 ∨ e = -1
  pos : 0 < k
  per : ∀ s, z (s + k) = z s
  hop : ∀ s, 0 ≤ e * cr (z s) (z (s + 1))
  stay : ∀ s, cr (z s) (z (s + 1)) = 0 → z (s + 1) = z s
  ne : ∀ s, z s ≠ ⟨0, 0⟩
  some : ∃ s, cr (z s) (z (s + 1)) ≠ 0

/-- A vector without component across `x`. -/
theorem parallel_cr {x y w : Pt K} (h : cr x y = 0) : dt x x * cr y w = dt x y * cr x w := by
  unfold cr at h
  unfold dt cr
  linear_combination (-(x.x * w.x) - x.y * w.y) * h

namespace Turning
variable {e : K} {k : Nat} {z : Nat → Pt K}

theorem per_mul (h : Turning e k z) (s n : Nat) : z (s + k * n) = z s := by
  induction n with
  | zero => simp
  | succ n ih => rw [Nat.mul_succ, ← Nat.add_assoc, h.per, ih]

/-- The path is not on one side of a line. -/
theorem not_all_pos (h : Turning e k z) (x : Pt K) (hx : x ≠ ⟨0, 0⟩) (hf : ∀ s, 0 < e * cr x (z s)) : False := by
  have hd := dt_pos hx
  have he : e * e = 1 := by rcases h.sgn with rfl | rfl <;> ring
  have step : ∀ s, dt x (z (s + 1)) / (e * cr x (z (s + 1))) ≤ dt x (z s) / (e * cr x (z s)) ∧
      (dt x (z (s + 1)) / (e * cr x (z (s + 1))) = dt x (z s) / (e * cr x (z s)) →
        cr (z s) (z (s + 1)) = 0) := by
    intro s
    have id : dt x (z s) * (e * cr x (z (s + 1))) - dt x (z (s + 1)) * (e * cr x (z s)) =
        dt x x * (e * cr (z s) (z (s + 1))) := by
      unfold dt cr; ring
    refine ⟨?_, ?_⟩
    · rw [div_le_div_iff₀ (hf _) (hf _)]
      have := mul_nonneg hd.le (h.hop s)
      linarith
    · intro heq
      rw [div_eq_div_iff (hf _).ne' (hf _).ne'] at heq
      have h1 : dt x x * (e * cr (z s) (z (s + 1))) = 0 := by rw [← id]; linarith
      rcases mul_eq_zero.1 h1 with h2 | h2
      · exact absurd h2 hd.ne'
      · rcases mul_eq_zero.1 h2 with h3 | h3
        · rw [h3] at he; simp at he
        · exact h3
  have anti : ∀ s n, dt x (z (s + n)) / (e * cr x (z (s + n))) ≤ dt x (z s) / (e * cr x (z s)) := by
    intro s n
    induction n with
    | zero => exact le_refl _
    | succ n ih => exact ((step (s + n)).1).trans ih
  obtain ⟨s, hs⟩ := h.some
  apply hs
  apply (step s).2
  refine le_antisymm (step s).1 ?_
  have := anti (s + 1) (k - 1)
  rw [show s + 1 + (k - 1) = s + k by have := h.pos; omega, h.per] at this
  exact this

theorem not_all_nonneg (h : Turning e k z) (x : Pt K) (hx : x ≠ ⟨0, 0⟩) (hf : ∀ s, 0 ≤ e * cr x (z s)) : False := by
  have hd := dt_pos hx
  have he : e * e = 1 := by rcases h.sgn with rfl | rfl <;> ring
  have he0 : e ≠ 0 := by rintro rfl; simp at he
  have hk := h.pos
  by_cases hz : ∃ s, e * cr x (z s) = 0
  · obtain ⟨s0, hs0⟩ := hz
    by_cases hp : ∃ s, 0 < e * cr x (z s)
    · obtain ⟨s1, hs1⟩ := hp
      -- the first zero after s1
      have hex : ∃ n, e * cr x (z (s1 + n)) = 0 := by
        refine ⟨s0 + k * s1 - s1, ?_⟩
        have : s1 ≤ k * s1 := Nat.le_mul_of_pos_left _ hk
        rw [show s1 + (s0 + k * s1 - s1) = s0 + k * s1 by omega, h.per_mul, hs0]
      classical
      obtain ⟨n, hn, hmin⟩ : ∃ n, e * cr x (z (s1 + n)) = 0 ∧ ∀ m < n, e * cr x (z (s1 + m)) ≠ 0 :=
        ⟨Nat.find hex, Nat.find_spec hex, fun m hm => Nat.find_min hex hm⟩
      have hn0 : n ≠ 0 := by rintro rfl; rw [Nat.add_zero] at hn; exact absurd hn hs1.ne'
      obtain ⟨j, rfl⟩ : ∃ j, n = j + 1 := ⟨n - 1, by omega⟩
      have hj : 0 < e * cr x (z (s1 + j)) := lt_of_le_of_ne (hf _) (Ne.symm (hmin j (by omega)))
      have zero : ∀ {s}, e * cr x (z s) = 0 → cr x (z s) = 0 := by
        intro s hs
        rcases mul_eq_zero.1 hs with h1 | h1
        · exact absurd h1 he0
        · exact h1
      have dne : ∀ {s}, cr x (z s) = 0 → dt x (z s) ≠ 0 := by
        intro s h1 h2
        apply h.ne s
        have hx' : dt x x * (z s).x = 0 := by
          unfold dt at h2 ⊢; unfold cr at h1; linear_combination x.x * h2 - x.y * h1
        have hy' : dt x x * (z s).y = 0 := by
          unfold dt at h2 ⊢; unfold cr at h1; linear_combination x.y * h2 + x.x * h1
        refine Pt.ext ?_ ?_
        · rcases mul_eq_zero.1 hx' with h3 | h3
          · exact absurd h3 hd.ne'
          · exact h3
        · rcases mul_eq_zero.1 hy' with h3 | h3
          · exact absurd h3 hd.ne'
          · exact h3
      have hneg : dt x (z (s1 + (j + 1))) < 0 := by
        have h1 := parallel_cr (w := z (s1 + j)) (zero hn)
        have h2 := h.hop (s1 + j)
        rw [show s1 + j + 1 = s1 + (j + 1) by omega, cr_swap] at h2
        have h3 : dt x (z (s1 + (j + 1))) * (e * cr x (z (s1 + j))) =
          -(dt x x * (e * -cr (z (s1 + (j + 1))) (z (s1 + j)))) := by linear_combination (-e) * h1
        have h4 := mul_nonneg hd.le h2
        by_contra hc
        push Not at hc
        have h5 := mul_pos (lt_of_le_of_ne hc (Ne.symm (dne (zero hn)))) hj
        linarith
      have stuck : ∀ m, z (s1 + (j + 1) + m) = z (s1 + (j + 1)) := by
        intro m
        induction m with
        | zero => rfl
        | succ m ih =>
          rw [← ih]
          apply h.stay
          have h1 := parallel_cr (w := z (s1 + (j + 1) + m + 1)) (zero hn)
          rw [← ih] at h1 hneg
          have h2 := mul_nonneg hd.le (h.hop (s1 + (j + 1) + m))
          have h3 := hf (s1 + (j + 1) + m + 1)
          have h4 : dt x x * (e * cr (z (s1 + (j + 1) + m)) (z (s1 + (j + 1) + m + 1))) =
            dt x (z (s1 + (j + 1) + m)) * (e * cr x (z (s1 + (j + 1) + m + 1))) := by
            linear_combination e * h1
          have h5 := mul_nonpos_of_nonpos_of_nonneg hneg.le h3
          have h6 : dt x x * (e * cr (z (s1 + (j + 1) + m)) (z (s1 + (j + 1) + m + 1))) = 0 := by linarith
          rcases mul_eq_zero.1 h6 with h7 | h7
          · exact absurd h7 hd.ne'
          · rcases mul_eq_zero.1 h7 with h8 | h8
            · exact absurd h8 he0
            · exact h8
      have h1 := stuck (k * (j + 1) - (j + 1))
      have h2 : j + 1 ≤ k * (j + 1) := Nat.le_mul_of_pos_left _ hk
      rw [show s1 + (j + 1) + (k * (j + 1) - (j + 1)) = s1 + k * (j + 1) by omega, h.per_mul] at h1
      rw [h1] at hs1
      linarith
    · push Not at hp
      obtain ⟨s, hs⟩ := h.some
      apply hs
      have zero : ∀ s, cr x (z s) = 0 := by
        intro s
        rcases mul_eq_zero.1 (le_antisymm (hp s) (hf s)) with h1 | h1
        · exact absurd h1 he0
        · exact h1
      have h1 := parallel_cr (w := z (s + 1)) (zero s)
      rw [zero (s + 1), mul_zero] at h1
      rcases mul_eq_zero.1 h1 with h2 | h2
      · exact absurd h2 hd.ne'
      · exact h2
  · push Not at hz
    exact h.not_all_pos x hx (fun s => lt_of_le_of_ne (hf s) (Ne.symm (hz s)))

/-- Every direction lies between two consecutive vertices of the path. -/
theorem cover (h : Turning e k z) (x : Pt K) (hx : x ≠ ⟨0, 0⟩) :
    ∃ s < k, 0 ≤ e * cr (z s) x ∧ 0 ≤ e * cr x (z (s + 1)) ∧ 0 < e * cr (z s) (z (s + 1)) := by
  have hk := h.pos
  have he : e * e = 1 := by rcases h.sgn with rfl | rfl <;> ring
  obtain ⟨s0, hs0⟩ : ∃ s, e * cr x (z s) < 0 := by
    by_contra hc
    push Not at hc
    exact h.not_all_nonneg x hx hc
  obtain ⟨s1, hs1⟩ : ∃ s, 0 ≤ e * cr x (z s) := by
    by_contra hc
    push Not at hc
    refine h.not_all_pos ⟨-x.x, -x.y⟩ ?_ ?_
    · intro h0
      apply hx
      have h1 := congrArg Pt.x h0
      have h2 := congrArg Pt.y h0
      simp only [neg_eq_zero] at h1 h2
      exact Pt.ext h1 h2
    · intro s
      have : e * cr ⟨-x.x, -x.y⟩ (z s) = -(e * cr x (z s)) := by unfold cr; ring
      rw [this]
      linarith [hc s]
  have hex : ∃ n, 0 ≤ e * cr x (z (s0 + n)) := by
    refine ⟨s1 + k * s0 - s0, ?_⟩
    have : s0 ≤ k * s0 := Nat.le_mul_of_pos_left _ hk
    rw [show s0 + (s1 + k * s0 - s0) = s1 + k * s0 by omega, h.per_mul]
    exact hs1
  classical
  obtain ⟨n, hn, hmin⟩ : ∃ n, 0 ≤ e * cr x (z (s0 + n)) ∧ ∀ m < n, ¬ 0 ≤ e * cr x (z (s0 + m)) :=
    ⟨Nat.find hex, Nat.find_spec hex, fun m hm => Nat.find_min hex hm⟩
  have hn0 : n ≠ 0 := by rintro rfl; rw [Nat.add_zero] at hn; linarith
  obtain ⟨j, rfl⟩ : ∃ j, n = j + 1 := ⟨n - 1, by omega⟩
  have hj := hmin j (by omega)
  push Not at hj
  -- reduce to the first period
  have hred : ∀ s, z (s % k) = z s := by
    intro s
    have := h.per_mul (s % k) (s / k)
    rw [Nat.mod_add_div] at this
    exact this.symm
  have hred1 : z ((s0 + j) % k + 1) = z (s0 + (j + 1)) := by
    have := h.per_mul ((s0 + j) % k + 1) ((s0 + j) / k)
    rw [← this]
    congr 1
    have := Nat.mod_add_div (s0 + j) k
    omega
  refine ⟨(s0 + j) % k, Nat.mod_lt _ hk, ?_, ?_, ?_⟩
  · rw [hred, cr_swap]; linarith
  · rw [hred1]; exact hn
  · rw [hred, hred1]
    refine lt_of_le_of_ne (by have := h.hop (s0 + j); rwa [Nat.add_assoc] at this) ?_
    intro h0
    rcases mul_eq_zero.1 h0.symm with h1 | h1
    · rw [h1] at he; simp at he
    · have := h.stay (s0 + j) (by rw [Nat.add_assoc]; exact h1)
      rw [Nat.add_assoc] at this
      rw [this] at hn
      linarith
end Turning

/-- A point between two vertices and on the inner side of their line satisfies every linear
condition that the origin and the two vertices satisfy. -/
theorem in_wedge {e : K} {y y' x w : Pt K} (h1 : 0 ≤ e * cr y x) (h2 : 0 ≤ e * cr x y')
    (h3 : 0 < e * cr y y') (h4 : 0 ≤ e * (cr y y' - cr x y' - cr y x)) (h5 : 0 ≤ pw y w) (h6 : 0 ≤ pw y' w) :
    0 ≤ pw x w := by
  have id : e * cr y y' * pw x w = e * (cr y y' - cr x y' - cr y x) * dt w w + e * cr x y' * pw y w +
      e * cr y x * pw y' w := by
    unfold pw dt cr; ring
  have hw : 0 ≤ dt w w := by unfold dt; nlinarith [mul_self_nonneg w.x, mul_self_nonneg w.y]
  have := add_nonneg (add_nonneg (mul_nonneg h4 hw) (mul_nonneg h2 h5)) (mul_nonneg h1 h6)
  rw [← id] at this
  exact nonneg_of_mul_nonneg_right this h3

/-- A side of a cell on the bisector of the origin and `a`. -/
theorem on_bisector {e : K} {a y y' x : Pt K} (ha : a ≠ ⟨0, 0⟩) (h1 : pw y a = 0) (h2 : pw y' a = 0)
    (h3 : 0 ≤ e * cr y y') (h4 : 0 ≤ pw x a) : 0 ≤ e * (cr y y' - cr x y' - cr y x) := by
  have hd := dt_pos ha
  have id : dt a a * (e * (cr y y' - cr x y' - cr y x)) = e * cr y y' * pw x a +
      e * (pw y a * cr y' x  - pw y' a * cr y x) := by
    unfold pw dt cr; ring
  rw [h1, h2] at id
  have h5 : 0 ≤ dt a a * (e * (cr y y' - cr x y' - cr y x)) := by
    rw [id]; have := mul_nonneg h3 h4; linarith
  exact nonneg_of_mul_nonneg_right h5 hd

end Delynoi
