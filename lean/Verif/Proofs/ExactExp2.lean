import Verif.Proofs.ExactExp
/-!
# One step of the sum of expansions
-/
set_option linter.unusedSectionVars false
namespace Delynoi.Ex

/-- The parts of a rounding error in a sum of multiples of `2 ^ q` and `2 ^ k`. -/
theorem err_parts {Q x : ℚ} {q k : Int} (mq : MultOf q Q) (mk : MultOf k x) (dX : MultOf (-1074) (Q + x))
    (h0 : Q + x - fl (Q + x) ≠ 0) :
    ∃ w : Int, (2 : ℚ) ^ (w + 52) ≤ |Q + x| ∧ |Q + x| < (2 : ℚ) ^ (w + 53) ∧ MultOf w (fl (Q + x)) ∧ min q k < w ∧
      (2 : ℚ) ^ (min q k) ≤ |Q + x - fl (Q + x)| ∧
      ((|Q + x - fl (Q + x)| = (2 : ℚ) ^ w / 2 ∧ MultOf (w + 1) (fl (Q + x))) ∨
        |Q + x - fl (Q + x)| ≤ (2 : ℚ) ^ w / 2 - (2 : ℚ) ^ (min q k)) := by
  obtain ⟨w, h1, h2, h3, h4, h5⟩ := fl_err dX h0
  have mX : MultOf (min q k) (Q + x) := (mq.mono (min_le_left _ _)).add (mk.mono (min_le_right _ _))
  have mh : MultOf (min q k) (Q + x - fl (Q + x)) := mX.sub mX.fl
  have hle := mh.le_abs h0
  have hw : min q k < w := by
    rw [← two_zpow_lt]
    have := two_zpow_pos w
    linarith
  refine ⟨w, h1, h2, h3, hw, hle, ?_⟩
  rcases h4.lt_or_eq with h | h
  · right
    have e : (2 : ℚ) ^ w / 2 = (2 : ℚ) ^ (w - 1) := by
      rw [div_eq_iff (by norm_num), show w = w - 1 + 1 by ring, two_zpow_succ]; ring_nf
    rw [e] at h ⊢
    have := MultOf.gap (MultOf.abs mh) (MultOf.pow (show min q k ≤ w - 1 by omega)) h
    linarith
  · exact Or.inl ⟨h, h5 h⟩

/-- The sum of all errors stays below the last bit of the other expansion: the positive case with
a large sum. -/
theorem key_large {σ h X T Se Sf x : ℚ} {l k : Int} (hX : X = Se + x + Sf - σ) (hU : (2 : ℚ) ^ (l + 53) ≤ X)
    (hSe : |Se + x| < (2 : ℚ) ^ (l + 53) - 1 / 4 * (2 : ℚ) ^ k) (hSf : |Sf| < 3 / 4 * (2 : ℚ) ^ l)
    (hσ : |σ| ≤ (2 : ℚ) ^ l / 2 ^ 48) (hh : h = X - T) (hw : ∀ w : Int, (2 : ℚ) ^ (w + 52) ≤ X → X < (2 : ℚ) ^ (w + 53) → MultOf w T ∧ |X - T| ≤ (2 : ℚ) ^ w / 2) :
    |σ + h| < 3 / 4 * (2 : ℚ) ^ l ∧ |h| < (2 : ℚ) ^ l := by
  have pl := two_zpow_pos l
  have pk := two_zpow_pos k
  have a1 := abs_lt.1 hSe
  have a2 := abs_lt.1 hSf
  have a3 := abs_le.1 hσ
  have e1 : (2 : ℚ) ^ (l + 53) = 9007199254740992 * (2 : ℚ) ^ l := by rw [two_zpow_add]; norm_num; ring
  have e2 : (2 : ℚ) ^ (l + 1 + 53) = 2 * (9007199254740992 * (2 : ℚ) ^ l) := by
    rw [show l + 1 + 53 = l + 53 + 1 by ring, two_zpow_succ, e1]
  have e3 : (2 : ℚ) ^ (l + 1 + 52) = 9007199254740992 * (2 : ℚ) ^ l := by rw [show l + 1 + 52 = l + 53 by ring, e1]
  have e48 : (2 : ℚ) ^ l / 2 ^ 48 = (2 : ℚ) ^ l / 281474976710656 := by norm_num
  rw [e48] at a3
  have hlt : X < (2 : ℚ) ^ (l + 53) + 7 / 8 * (2 : ℚ) ^ l := by
    rw [hX]
    linarith [a1.2, a2.2, a3.1]
  obtain ⟨mT, hT⟩ := hw (l + 1) (by rw [e3, ← e1]; exact hU) (by rw [e2, ← e1]; rw [e1] at hlt ⊢; linarith)
  have mU : MultOf (l + 1) ((2 : ℚ) ^ (l + 53)) := MultOf.pow (by omega)
  rw [two_zpow_succ] at hT
  have hT' := abs_le.1 hT
  have hTU : T = (2 : ℚ) ^ (l + 53) := by
    rcases lt_trichotomy T ((2 : ℚ) ^ (l + 53)) with h1 | h1 | h1
    · have := MultOf.gap mT mU h1
      rw [two_zpow_succ] at this
      linarith [hT'.2]
    · exact h1
    · have := MultOf.gap mU mT h1
      rw [two_zpow_succ] at this
      linarith [hT'.1]
  rw [hTU] at hh
  constructor
  · rw [abs_lt]
    constructor
    · rw [hh]; linarith [a3.1]
    · rw [hh, hX]; linarith [a1.2, a2.2]
  · rw [abs_lt, hh]
    constructor <;> linarith

/-- The sum of all errors stays below the last bit of the other expansion. -/
theorem key {Q σ Se Sf x y eL fL : ℚ} {k l q : Int} (hy : Lsb l y) (dy : IsDouble y) (hSf : |Sf| < 3 / 4 * (2 : ℚ) ^ l)
    (hfL : |fL| < (2 : ℚ) ^ l) (hx : Lsb k x) (hxy : |x| ≤ |y|) (hSe : |Se| < 3 / 4 * (2 : ℚ) ^ k) (heL : |eL| < (2 : ℚ) ^ k)
    (s1 : |σ| < 3 / 4 * (2 : ℚ) ^ l) (s2 : |σ| < 3 / 4 * (2 : ℚ) ^ k) (hH : |σ| ≤ |eL| / 2 ^ 50 ∨ |σ| ≤ |fL| / 2 ^ 50)
    (sum : Q + σ = Se + Sf) (mq : MultOf q Q) (s3 : |σ| < 3 / 4 * (2 : ℚ) ^ q)
    (s4 : |σ| < 1 / 2 * (2 : ℚ) ^ q ∨ MultOf (q + 2) y) (dX : MultOf (-1074) (Q + x)) (h0 : Q + x - fl (Q + x) ≠ 0) :
    |σ + (Q + x - fl (Q + x))| < 3 / 4 * (2 : ℚ) ^ l ∧ |Q + x - fl (Q + x)| < (2 : ℚ) ^ l := by
  have pl := two_zpow_pos l
  have pk := two_zpow_pos k
  have hyU := hy.lt dy
  have hkU : k < l + 53 := two_zpow_lt.1 (hx.pow_le.trans_lt (hxy.trans_lt hyU))
  have hxU : |x| + (2 : ℚ) ^ k ≤ (2 : ℚ) ^ (l + 53) :=
    MultOf.gap (MultOf.abs hx.mult) (MultOf.pow hkU.le) (hxy.trans_lt hyU)
  have hSx : |Se + x| < (2 : ℚ) ^ (l + 53) - 1 / 4 * (2 : ℚ) ^ k := by
    have := abs_add_le Se x
    linarith
  have tri := abs_add_le σ (Q + x - fl (Q + x))
  have hsmall : ∀ m : Int, k ≤ m → l ≤ m → |σ| ≤ (2 : ℚ) ^ m / 2 ^ 50 := by
    intro m h1 h2
    have := two_zpow_mono h1
    have := two_zpow_mono h2
    rcases hH with h | h
    · refine h.trans (div_le_div_of_nonneg_right ?_ (by norm_num)); linarith
    · refine h.trans (div_le_div_of_nonneg_right ?_ (by norm_num)); linarith
  by_cases hB : |Q + x| < (2 : ℚ) ^ (l + 53)
  · obtain ⟨w, h1, -, -, h4, h5, h6⟩ := err_parts mq hx.mult dX h0
    have hwl : w ≤ l := by
      have := two_zpow_lt.1 (h1.trans_lt hB); omega
    have sn : |σ| < 3 / 4 * (2 : ℚ) ^ (min q k) := by
      rcases min_choice q k with h | h <;> rw [h] <;> assumption
    have hn := zpow_half h4
    have pn := two_zpow_pos (min q k)
    have hhalf : |Q + x - fl (Q + x)| ≤ (2 : ℚ) ^ w / 2 := by
      rcases h6 with h | h
      · exact h.1.le
      · linarith
    have hlt : |Q + x - fl (Q + x)| < (2 : ℚ) ^ l := by
      have := two_zpow_mono hwl; linarith
    refine ⟨?_, hlt⟩
    rcases hwl.lt_or_eq with hw | hw
    · have := zpow_half hw
      linarith
    · subst hw
      rcases h6 with h | h
      · by_cases hn2 : min q k + 2 ≤ w
        · have := zpow_quarter hn2
          linarith
        · have hm : min q k = w - 1 := by omega
          have ew : (2 : ℚ) ^ w = 2 * (2 : ℚ) ^ (w - 1) := by
            rw [← two_zpow_succ]; ring_nf
          suffices hs : |σ| < 1 / 2 * (2 : ℚ) ^ (w - 1) by linarith [h.1]
          by_cases hk : k = w - 1
          · have := hsmall w (by omega) le_rfl
            have e50 : (2 : ℚ) ^ w / 2 ^ 50 = (2 : ℚ) ^ w / 1125899906842624 := by norm_num
            rw [e50] at this
            linarith
          · have hq : q = w - 1 := by omega
            rcases s4 with s | s
            · rw [hq] at s; exact s
            · have := hy.le s; omega
      · linarith
  · push Not at hB
    have hXe : Q + x = Se + x + Sf - σ := by linarith
    have hkl : k ≤ l + 2 := by
      by_contra hc
      push Not at hc
      have := two_zpow_mono (show l + 3 ≤ k by omega)
      rw [show l + 3 = l + 1 + 1 + 1 by ring, two_zpow_succ, two_zpow_succ, two_zpow_succ] at this
      have : |Q + x| ≤ |Se + x| + |Sf| + |σ| := by
        rw [hXe]
        exact (abs_sub_le' _ _).trans (add_le_add_left (abs_add_le _ _) _)
      linarith
    have hσ : |σ| ≤ (2 : ℚ) ^ l / 2 ^ 48 := by
      have := hsmall (l + 2) hkl (by omega)
      rw [show l + 2 = l + 1 + 1 by ring, two_zpow_succ, two_zpow_succ] at this
      refine this.trans (le_of_eq ?_)
      norm_num; ring
    obtain ⟨w, g1, g2, g3, g4, -⟩ := fl_err dX h0
    rcases le_total 0 (Q + x) with hp | hp
    · rw [abs_of_nonneg hp] at hB g1 g2
      refine key_large hXe hB hSx hSf hσ rfl ?_
      intro w' a1 a2
      have : w' = w := by
        have i1 := two_zpow_lt.1 (a1.trans_lt g2)
        have i2 := two_zpow_lt.1 (g1.trans_lt a2)
        omega
      rw [this]; exact ⟨g3, g4⟩
    · rw [abs_of_nonpos hp] at hB g1 g2
      have hXe' : -(Q + x) = -Se + -x + -Sf - -σ := by linarith
      have := key_large (h := -(Q + x - fl (Q + x))) (T := -fl (Q + x)) hXe' hB
        (by rw [show -Se + -x = -(Se + x) by ring, abs_neg]; exact hSx) (by rw [abs_neg]; exact hSf)
        (by rw [abs_neg]; exact hσ) (by ring) (by
          intro w' a1 a2
          have : w' = w := by
            have i1 := two_zpow_lt.1 (a1.trans_lt g2)
            have i2 := two_zpow_lt.1 (g1.trans_lt a2)
            omega
          rw [this]
          refine ⟨g3.neg, ?_⟩
          rw [show -(Q + x) - -fl (Q + x) = -(Q + x - fl (Q + x)) by ring, abs_neg]; exact g4)
      rw [abs_neg, ← neg_add, abs_neg] at this
      exact this

/-- The components of an expansion. -/
theorem exp_mem : ∀ (xs : List ℚ) (S p : ℚ), Expansion S p xs → ∀ y ∈ xs, IsDouble y ∧
    ∀ l, Lsb l y → |S| < 3 / 4 * (2 : ℚ) ^ l ∧ |p| < (2 : ℚ) ^ l := by
  intro xs
  induction xs with
  | nil => intro S p _ y hy; simp at hy
  | cons x xs ih =>
    intro S p h y hy
    obtain ⟨dx, h⟩ := h
    rcases List.mem_cons.1 hy with rfl | hy
    · refine ⟨dx, ?_⟩
      intro l hl
      rcases h with h | ⟨l', hl', h1, h2, -⟩
      · exact absurd h.1 hl.ne
      · obtain rfl : l = l' := le_antisymm (hl'.le hl.mult) (hl.le hl'.mult)
        exact ⟨h2, h1⟩
    · rcases h with h | ⟨l', hl', h1, h2, h3⟩
      · exact ih S p h.2 y hy
      · obtain ⟨dy, h4⟩ := ih _ _ h3 y hy
        refine ⟨dy, ?_⟩
        intro l hl
        have h5 := (h4 l hl).2
        have h6 := two_zpow_lt.1 (hl'.pow_le.trans_lt h5)
        have := two_zpow_mono h6.le
        constructor <;> linarith

/-- What has been taken from an expansion: the sum `S`, the last component `p`. -/
def Pre (S p : ℚ) : Prop := (S = 0 ∧ p = 0) ∨ ∃ k, Lsb k p ∧ |S - p| < 3 / 4 * (2 : ℚ) ^ k

theorem Pre.le {S p : ℚ} (h : Pre S p) : |S| ≤ 7 / 4 * |p| := by
  rcases h with ⟨rfl, rfl⟩ | ⟨k, hk, h⟩
  · simp
  · have := hk.pow_le
    have := abs_sub_abs_le_abs_sub S p
    linarith

/-- The state of the loops: current sum `Q`, sum `σ` of the output and its last component `hl`. -/
structure St (Q σ hl Se eL Sf fL : ℚ) (es fs : List ℚ) : Prop where
  sum : Q + σ = Se + Sf
  dQ : IsDouble Q
  ne : Expansion Se eL es
  nf : Expansion Sf fL fs
  pe : Pre Se eL
  pf : Pre Sf fL
  oe : ∀ y ∈ fs, y ≠ 0 → |eL| ≤ |y|
  of : ∀ y ∈ es, y ≠ 0 → |fL| ≤ |y|
  r : ∀ y, y ∈ es ∨ y ∈ fs → ∀ l, Lsb l y → |σ| < 3 / 4 * (2 : ℚ) ^ l ∧ |hl| < (2 : ℚ) ^ l
  g : ∃ q, MultOf q Q ∧ |σ| < 3 / 4 * (2 : ℚ) ^ q ∧ |hl| < (2 : ℚ) ^ q ∧
    (|σ| < 1 / 2 * (2 : ℚ) ^ q ∨ ∀ y, y ∈ es ∨ y ∈ fs → MultOf (q + 2) y)
  h : |σ| ≤ |eL| / 2 ^ 50 ∨ |σ| ≤ |fL| / 2 ^ 50

theorem St.swap {Q σ hl Se eL Sf fL : ℚ} {es fs : List ℚ} (s : St Q σ hl Se eL Sf fL es fs) :
    St Q σ hl Sf fL Se eL fs es where
  sum := by rw [s.sum]; ring
  dQ := s.dQ
  ne := s.nf
  nf := s.ne
  pe := s.pf
  pf := s.pe
  oe := s.of
  of := s.oe
  r := fun y hy => s.r y hy.symm
  g := by
    obtain ⟨q, a, b, c, d⟩ := s.g
    exact ⟨q, a, b, c, d.imp_right fun d y hy => d y hy.symm⟩
  h := s.h.symm

/-- Before the first step. -/
theorem St.init {e f : List ℚ} (he : Expansion 0 0 e) (hf : Expansion 0 0 f) : St 0 0 0 0 0 0 0 e f where
  sum := rfl
  dQ := isDouble_zero
  ne := he
  nf := hf
  pe := Or.inl ⟨rfl, rfl⟩
  pf := Or.inl ⟨rfl, rfl⟩
  oe := by intro y _ _; simp
  of := by intro y _ _; simp
  r := by
    intro y _ l _
    have := two_zpow_pos l
    rw [abs_zero]; exact ⟨by positivity, this⟩
  g := ⟨0, MultOf.zero, by simp, by simp, by simp⟩
  h := by simp

/-- A component which is zero. -/
theorem St.skip {Q σ hl Se eL Sf fL : ℚ} {es fs : List ℚ} (s : St Q σ hl Se eL Sf fL (0 :: es) fs) :
    St Q σ hl Se eL Sf fL es fs where
  sum := s.sum
  dQ := s.dQ
  ne := by
    rcases s.ne.2 with h | ⟨l, h, -⟩
    · exact h.2
    · exact absurd rfl h.ne
  nf := s.nf
  pe := s.pe
  pf := s.pf
  oe := s.oe
  of := fun y hy => s.of y (by simp [hy])
  r := fun y hy => s.r y (by simp; tauto)
  g := by
    obtain ⟨q, a, b, c, d⟩ := s.g
    exact ⟨q, a, b, c, d.imp_right fun d y hy => d y (by simp; tauto)⟩
  h := s.h

/-- The next component of the first expansion. -/
theorem St.step {Q σ hl Se eL Sf fL x : ℚ} {es fs : List ℚ} (s : St Q σ hl Se eL Sf fL (x :: es) fs) (hx0 : x ≠ 0)
    (ord : ∀ y ∈ fs, y ≠ 0 → |x| ≤ |y|) :
    St (fl (Q + x)) (σ + (Q + x - fl (Q + x))) (if Q + x - fl (Q + x) = 0 then hl else Q + x - fl (Q + x)) (Se + x) x Sf fL es fs := by
  obtain ⟨dx, hcase⟩ := s.ne
  obtain ⟨k, hk, hkp, hkS, hne⟩ : ∃ l, Lsb l x ∧ |eL| < (2 : ℚ) ^ l ∧ |Se| < 3 / 4 * (2 : ℚ) ^ l ∧ Expansion (Se + x) x es := by
    rcases hcase with h | h
    · exact absurd h.1 hx0
    · exact h
  have dX : MultOf (-1074) (Q + x) := s.dQ.mult1074.add dx.mult1074
  obtain ⟨rx1, rx2⟩ := s.r x (by simp) k hk
  obtain ⟨q, mq, q1, q2, q3⟩ := s.g
  have hfx : |fL| ≤ |x| := s.of x (by simp) hx0
  have hex : |eL| ≤ |x| := hkp.le.trans hk.pow_le
  have hσx : |σ| ≤ |x| / 2 ^ 50 := by
    rcases s.h with h | h
    · exact h.trans (div_le_div_of_nonneg_right hex (by norm_num))
    · exact h.trans (div_le_div_of_nonneg_right hfx (by norm_num))
  have pe' : Pre (Se + x) x := Or.inr ⟨k, hk, by rw [add_sub_cancel_right]; exact hkS⟩
  have mem_e : ∀ y ∈ es, IsDouble y ∧ ∀ l, Lsb l y → |Se + x| < 3 / 4 * (2 : ℚ) ^ l ∧ |x| < (2 : ℚ) ^ l :=
    exp_mem es _ _ hne
  have mem_f : ∀ y ∈ fs, IsDouble y ∧ ∀ l, Lsb l y → |Sf| < 3 / 4 * (2 : ℚ) ^ l ∧ |fL| < (2 : ℚ) ^ l :=
    exp_mem fs _ _ s.nf
  have p50 : ∀ z : ℚ, z / 2 ^ 50 = z / 1125899906842624 := by intro z; norm_num
  have of' : ∀ y ∈ es, y ≠ 0 → |fL| ≤ |y| := fun y hy => s.of y (by simp [hy])
  by_cases h0 : Q + x - fl (Q + x) = 0
  · have hQ : fl (Q + x) = Q + x := by linarith
    rw [if_pos h0, h0, add_zero, hQ]
    refine ⟨by linarith [s.sum], ?_, hne, s.nf, pe', s.pf, ord, of', ?_, ?_, Or.inl hσx⟩
    · rw [← hQ]; exact fl_isDouble _
    · intro y hy l hl
      rcases hy with hy | hy
      · exact s.r y (by simp [hy]) l hl
      · exact s.r y (by simp [hy]) l hl
    · rcases le_or_gt q k with hqk | hqk
      · exact ⟨q, mq.add (hk.mult.mono hqk), q1, q2, q3.imp_right fun d y hy => d y (by simp; tauto)⟩
      · refine ⟨k, (mq.mono hqk.le).add hk.mult, rx1, rx2, ?_⟩
        by_cases hh : |σ| < 1 / 2 * (2 : ℚ) ^ k
        · exact Or.inl hh
        · right
          push Not at hh
          have pk := two_zpow_pos k
          rw [p50] at hσx
          intro y hy
          rcases hy with hy | hy
          · by_cases hy0 : y = 0
            · rw [hy0]; exact MultOf.zero
            · obtain ⟨dy, h2⟩ := mem_e y hy
              obtain ⟨l, -, hl⟩ := exists_lsb dy.mult1074 hy0
              refine hl.mult.mono ?_
              have h3 := (h2 l hl).2
              by_contra hc
              have := two_zpow_mono (show l ≤ k + 1 by omega)
              rw [two_zpow_succ] at this
              linarith
          · by_cases hy0 : y = 0
            · rw [hy0]; exact MultOf.zero
            · obtain ⟨dy, h2⟩ := mem_f y hy
              obtain ⟨l, -, hl⟩ := exists_lsb dy.mult1074 hy0
              refine hl.mult.mono ?_
              have h3 := (h2 l hl).2
              by_contra hc
              have := two_zpow_mono (show l ≤ k + 1 by omega)
              rw [two_zpow_succ] at this
              have hh' := s.h
              rw [p50, p50] at hh'
              rcases hh' with h | h <;> linarith
  · rw [if_neg h0]
    obtain ⟨w, w1, w2, w3, w4, w5, w6⟩ := err_parts mq hk.mult dX h0
    have sn : |σ| < 3 / 4 * (2 : ℚ) ^ (min q k) := by
      rcases min_choice q k with h | h <;> rw [h] <;> assumption
    have hn := zpow_half w4
    have pn := two_zpow_pos (min q k)
    have pw := two_zpow_pos w
    have tri := abs_add_le σ (Q + x - fl (Q + x))
    have hlew : |Q + x - fl (Q + x)| ≤ (2 : ℚ) ^ w / 2 := by
      rcases w6 with h | h
      · exact h.1.le
      · linarith
    have hXe : Q + x = Se + x + Sf - σ := by linarith [s.sum]
    have hbig : |Q + x| ≤ 4 * |x| := by
      have h1 : |Q + x| ≤ |Se + x| + |Sf| + |σ| := by
        rw [hXe]
        exact (abs_sub_le' _ _).trans (add_le_add_left (abs_add_le _ _) _)
      have h2 := pe'.le
      have h3 := s.pf.le
      rw [p50] at hσx
      have := abs_nonneg x
      linarith
    have hH : |σ + (Q + x - fl (Q + x))| ≤ |x| / 2 ^ 50 := by
      have : (2 : ℚ) ^ (w + 52) = 4503599627370496 * (2 : ℚ) ^ w := by rw [two_zpow_add]; norm_num; ring
      rw [this] at w1
      rw [p50]
      linarith
    refine ⟨by linarith [s.sum], fl_isDouble _, hne, s.nf, pe', s.pf, ord, of', ?_, ?_, Or.inl hH⟩
    · intro y hy l hl
      rcases hy with hy | hy
      · obtain ⟨dy, h2⟩ := mem_e y hy
        have h3 := (h2 l hl).2
        have h4 : |Q + x - fl (Q + x)| ≤ |x| / 2 ^ 50 + |x| / 2 ^ 50 := by
          rw [show Q + x - fl (Q + x) = (σ + (Q + x - fl (Q + x))) - σ by ring]
          exact (abs_sub_le' _ _).trans (add_le_add hH hσx)
        rw [p50] at hH h4
        have := abs_nonneg x
        constructor <;> linarith
      · obtain ⟨dy, h2⟩ := mem_f y hy
        obtain ⟨h3, h4⟩ := h2 l hl
        exact key hl dy h3 h4 hk (ord y hy hl.ne) hkS hkp (s.r y (by simp [hy]) l hl).1 rx1 s.h s.sum mq q1
          (q3.imp_right fun d => d y (by simp [hy])) dX h0
    · rcases w6 with h | h
      · refine ⟨w + 1, h.2, ?_, ?_, Or.inl ?_⟩ <;> rw [two_zpow_succ] <;> linarith
      · refine ⟨w, w3, ?_, ?_, Or.inl ?_⟩ <;> linarith

end Delynoi.Ex
