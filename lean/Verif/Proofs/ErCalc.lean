import Verif.Proofs.ExpEstimate
/-! A calculus of relative errors. -/
namespace Delynoi.Ex
set_option linter.unusedVariables false

/-- `c`, a multiple of `2 ^ g`, differs from `C`, of size at most `m`, by the effect of `k` roundings. -/
structure Er (g : Int) (k : Nat) (c C m : ℚ) : Prop where
  gr : MultOf g c
  le : |C| ≤ m
  e : |c - C| ≤ ((1 + uRnd) ^ k - 1) * m

theorem one_le_pow (k : Nat) : 1 ≤ (1 + uRnd) ^ k := one_le_pow₀ (by have := uRnd_pos; linarith)

theorem Er.m0 {g : Int} {k : Nat} {c C m : ℚ} (h : Er g k c C m) : 0 ≤ m := (abs_nonneg C).trans h.le

theorem Er.exact {g : Int} {c m : ℚ} (h : MultOf g c) (hm : |c| ≤ m) : Er g 0 c c m := ⟨h, hm, by simp⟩

theorem Er.mono {g : Int} {j k : Nat} {c C m : ℚ} (h : Er g j c C m) (hjk : j ≤ k) : Er g k c C m := by
  refine ⟨h.gr, h.le, h.e.trans (mul_le_mul_of_nonneg_right ?_ h.m0)⟩
  have := pow_le_pow_right₀ (a := 1 + uRnd) (by have := uRnd_pos; linarith) hjk
  linarith

theorem Er.fl {g : Int} {k : Nat} {c C m : ℚ} (h : Er g k c C m) (hg : -1074 ≤ g) : Er g (k + 1) (fl c) C m := by
  refine ⟨h.gr.fl, h.le, ?_⟩
  have h1 := (h.gr.mono hg).rel.1
  have h2 : |c| ≤ |C| + |c - C| := by
    have := abs_add_le C (c - C)
    rwa [show C + (c - C) = c by ring] at this
  have h3 : |Delynoi.fl c - C| ≤ |Delynoi.fl c - c| + |c - C| := by
    rw [show Delynoi.fl c - C = (Delynoi.fl c - c) + (c - C) by ring]; exact abs_add_le _ _
  have h4 : uRnd * |c| ≤ uRnd * ((1 + uRnd) ^ k * m) := by
    refine mul_le_mul_of_nonneg_left ?_ uRnd_pos.le
    have := h.le
    have := h.e
    linarith
  have := h.e
  rw [pow_succ]
  linarith

theorem Er.add {g : Int} {k : Nat} {c C m c' C' m' : ℚ} (h : Er g k c C m) (h' : Er g k c' C' m') :
    Er g k (c + c') (C + C') (m + m') := by
  refine ⟨h.gr.add h'.gr, (abs_add_le _ _).trans (add_le_add h.le h'.le), ?_⟩
  rw [show c + c' - (C + C') = (c - C) + (c' - C') by ring]
  have := abs_add_le (c - C) (c' - C')
  have := h.e
  have := h'.e
  linarith

theorem Er.neg {g : Int} {k : Nat} {c C m : ℚ} (h : Er g k c C m) : Er g k (-c) (-C) m := by
  refine ⟨h.gr.neg, by rw [abs_neg]; exact h.le, ?_⟩
  rw [show -c - -C = -(c - C) by ring, abs_neg]; exact h.e

theorem Er.sub {g : Int} {k : Nat} {c C m c' C' m' : ℚ} (h : Er g k c C m) (h' : Er g k c' C' m') :
    Er g k (c - c') (C - C') (m + m') := by
  rw [sub_eq_add_neg, sub_eq_add_neg]; exact h.add h'.neg

theorem Er.mul {g g' : Int} {j k : Nat} {c C m c' C' m' : ℚ} (h : Er g j c C m) (h' : Er g' k c' C' m') :
    Er (g + g') (j + k) (c * c') (C * C') (m * m') := by
  refine ⟨h.gr.mul h'.gr, by rw [abs_mul]; exact mul_le_mul h.le h'.le (abs_nonneg _) h.m0, ?_⟩
  have m0 := h.m0
  have m0' := h'.m0
  have a0 : 0 ≤ ((1 + uRnd) ^ j - 1) * m := mul_nonneg (by linarith [one_le_pow j]) m0
  have e : c * c' - C * C' = (c - C) * C' + C * (c' - C') + (c - C) * (c' - C') := by ring
  have h1 : |(c - C) * C'| ≤ ((1 + uRnd) ^ j - 1) * m * m' := by
    rw [abs_mul]; exact mul_le_mul h.e h'.le (abs_nonneg _) a0
  have h2 : |C * (c' - C')| ≤ m * (((1 + uRnd) ^ k - 1) * m') := by
    rw [abs_mul]; exact mul_le_mul h.le h'.e (abs_nonneg _) m0
  have h3 : |(c - C) * (c' - C')| ≤ ((1 + uRnd) ^ j - 1) * m * (((1 + uRnd) ^ k - 1) * m') := by
    rw [abs_mul]; exact mul_le_mul h.e h'.e (abs_nonneg _) a0
  rw [e, pow_add]
  have := abs_add_le ((c - C) * C' + C * (c' - C')) ((c - C) * (c' - C'))
  have := abs_add_le ((c - C) * C') (C * (c' - C'))
  linarith

theorem Er.two {g : Int} {k : Nat} {c C m : ℚ} (h : Er g k c C m) : Er g k (2 * c) (2 * C) (2 * m) := by
  rw [two_mul, two_mul, two_mul]; exact h.add h

theorem Er.cast {g g' : Int} {k k' : Nat} {c C m C' m' : ℚ} (h : Er g k c C m) (h1 : g = g') (h2 : k = k') (h3 : C = C') (h4 : m = m') :
    Er g' k' c C' m' := by subst h1 h2 h3 h4; exact h

/-- `X` is `C` plus `C1` of first order plus a remainder, as in a product of `k` factors which differ
by one rounding each. -/
structure Er2 (k : Nat) (X C C1 m : ℚ) : Prop where
  le : |C| ≤ m
  f : |C1| ≤ k * uRnd * m
  r : |X - C - C1| ≤ ((1 + uRnd) ^ k - 1 - k * uRnd) * m

theorem Er2.m0 {k : Nat} {X C C1 m : ℚ} (h : Er2 k X C C1 m) : 0 ≤ m := (abs_nonneg C).trans h.le

theorem Er2.one {x t : ℚ} (h : |t| ≤ uRnd * |x|) : Er2 1 (x + t) x t |x| := by
  refine ⟨le_refl _, by simpa using h, ?_⟩
  rw [show x + t - x - t = 0 by ring]; simp

theorem Er2.add {k : Nat} {X C C1 m X' C' C1' m' : ℚ} (h : Er2 k X C C1 m) (h' : Er2 k X' C' C1' m') :
    Er2 k (X + X') (C + C') (C1 + C1') (m + m') := by
  refine ⟨(abs_add_le _ _).trans (add_le_add h.le h'.le), ?_, ?_⟩
  · have := abs_add_le C1 C1'
    have := h.f
    have := h'.f
    linarith
  · rw [show X + X' - (C + C') - (C1 + C1') = (X - C - C1) + (X' - C' - C1') by ring]
    have := abs_add_le (X - C - C1) (X' - C' - C1')
    have := h.r
    have := h'.r
    linarith

theorem Er2.neg {k : Nat} {X C C1 m : ℚ} (h : Er2 k X C C1 m) : Er2 k (-X) (-C) (-C1) m := by
  refine ⟨by rw [abs_neg]; exact h.le, by rw [abs_neg]; exact h.f, ?_⟩
  rw [show -X - -C - -C1 = -(X - C - C1) by ring, abs_neg]; exact h.r

theorem Er2.sub {k : Nat} {X C C1 m X' C' C1' m' : ℚ} (h : Er2 k X C C1 m) (h' : Er2 k X' C' C1' m') :
    Er2 k (X - X') (C - C') (C1 - C1') (m + m') := by
  rw [sub_eq_add_neg, sub_eq_add_neg, sub_eq_add_neg]; exact h.add h'.neg

theorem Er2.mul {j k : Nat} {X C C1 m X' C' C1' m' : ℚ} (h : Er2 j X C C1 m) (h' : Er2 k X' C' C1' m') :
    Er2 (j + k) (X * X') (C * C') (C * C1' + C1 * C') (m * m') := by
  have m0 := h.m0
  have m0' := h'.m0
  have pm : ∀ {a b p q : ℚ}, |a| ≤ p → |b| ≤ q → |a * b| ≤ p * q := by
    intro a b p q ha hb
    rw [abs_mul]; exact mul_le_mul ha hb (abs_nonneg _) ((abs_nonneg a).trans ha)
  refine ⟨pm h.le h'.le, ?_, ?_⟩
  · have h1 := pm h.le h'.f
    have h2 := pm h.f h'.le
    have := abs_add_le (C * C1') (C1 * C')
    push_cast
    linarith
  · have t1 := pm h.le h'.r
    have t2 := pm h.r h'.le
    have t3 := pm h.f h'.f
    have t4 := pm h.f h'.r
    have t5 := pm h.r h'.f
    have t6 := pm h.r h'.r
    rw [show X * X' - C * C' - (C * C1' + C1 * C') = C * (X' - C' - C1') + (X - C - C1) * C' + C1 * C1' +
      C1 * (X' - C' - C1') + (X - C - C1) * C1' + (X - C - C1) * (X' - C' - C1') by ring]
    have s1 := abs_add_le (C * (X' - C' - C1') + (X - C - C1) * C' + C1 * C1' + C1 * (X' - C' - C1') + (X - C - C1) * C1')
      ((X - C - C1) * (X' - C' - C1'))
    have s2 := abs_add_le (C * (X' - C' - C1') + (X - C - C1) * C' + C1 * C1' + C1 * (X' - C' - C1')) ((X - C - C1) * C1')
    have s3 := abs_add_le (C * (X' - C' - C1') + (X - C - C1) * C' + C1 * C1') (C1 * (X' - C' - C1'))
    have s4 := abs_add_le (C * (X' - C' - C1') + (X - C - C1) * C') (C1 * C1')
    have s5 := abs_add_le (C * (X' - C' - C1')) ((X - C - C1) * C')
    rw [pow_add]
    push_cast
    linarith

end Delynoi.Ex
