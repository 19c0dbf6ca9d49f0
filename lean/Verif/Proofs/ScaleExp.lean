import Verif.Proofs.ExactExp3
import Verif.Model.Incircle
/-! Scaling an expansion. -/
namespace Delynoi.Ex
set_option linter.unusedVariables false

theorem pow52 (w : Int) : (2 : ℚ) ^ (w + 52) = 4503599627370496 * (2 : ℚ) ^ w := by
  rw [two_zpow_add]; norm_num; ring

theorem pow53 (w : Int) : (2 : ℚ) ^ (w + 53) = 9007199254740992 * (2 : ℚ) ^ w := by
  rw [two_zpow_add]; norm_num; ring

/-- The factor: an odd multiple of `2 ^ β` with at most 53 bits. -/
structure Factor (b : ℚ) (β : Int) : Prop where
  lsb : Lsb β b
  d : IsDouble b

theorem Factor.le {b : ℚ} {β : Int} (h : Factor b β) : |b| ≤ 9007199254740991 * (2 : ℚ) ^ β := by
  have h1 := h.lsb.lt h.d
  rw [pow53] at h1
  obtain ⟨k, -, rfl⟩ := h.lsb
  have p := two_zpow_pos β
  rw [abs_scaled] at h1 ⊢
  have h2 : ((|k| : Int) : ℚ) < 9007199254740992 := lt_of_mul_lt_mul_right h1 p.le
  have h3 : |k| < 9007199254740992 := by exact_mod_cast h2
  have h4 : |k| ≤ 9007199254740991 := by omega
  have h5 : ((|k| : Int) : ℚ) ≤ 9007199254740991 := by exact_mod_cast h4
  exact mul_le_mul_of_nonneg_right h5 p.le

/-- The state of the loop: current product `Q`, sum `σ` and last component `hl` of the output, sum
`S` and last component `p` of what has been taken. -/
structure Sc (b : ℚ) (β : Int) (Q σ hl S p : ℚ) : Prop where
  sum : Q + σ = b * S
  dQ : IsDouble Q
  small : |σ| ≤ |b| * |p| / 2 ^ 50
  j : ∀ l : Int, |S| < 3 / 4 * (2 : ℚ) ^ l → |p| < (2 : ℚ) ^ l → ∃ w : Int, w ≤ l + β ∧ MultOf w Q ∧ |hl| < (2 : ℚ) ^ w ∧
    (|σ| < 1 / 2 * (2 : ℚ) ^ w ∨
      |σ| < 3 / 4 * (2 : ℚ) ^ w ∧ (w < l + β ∨ (2 : ℚ) ^ (w + 52) - 1 / 2 * (2 : ℚ) ^ w < |Q + σ|))

/-- The product with the next component. -/
structure Prod (b e T t : ℚ) (β l : Int) : Prop where
  eq : T + t = e * b
  dT : IsDouble T
  dt : IsDouble t
  mT : MultOf (l + β) T
  mt : MultOf (l + β) t
  big : (2 : ℚ) ^ l * |b| ≤ |T|
  tT : |t| ≤ uRnd * |T|
  te : |t| ≤ uRnd * |e * b|
  one : t = 0 ∨ 3 * ((2 : ℚ) ^ l * |b|) ≤ |e * b|

theorem lsb_abs {l : Int} {e : ℚ} (h : Lsb l e) : |e| = (2 : ℚ) ^ l ∨ 3 * (2 : ℚ) ^ l ≤ |e| := by
  obtain ⟨k, hk, rfl⟩ := h
  have p := two_zpow_pos l
  rw [abs_scaled]
  by_cases h1 : |k| = 1
  · left; rw [h1]; simp
  · right
    have h2 : 3 ≤ |k| := by
      rcases abs_cases k with ⟨h, _⟩ | ⟨h, _⟩ <;> omega
    have h3 : (3 : ℚ) ≤ ((|k| : Int) : ℚ) := by exact_mod_cast h2
    exact mul_le_mul_of_nonneg_right h3 p.le

theorem prod_of {b e : ℚ} {β l : Int} (hb : Factor b β) (he : Lsb l e) (de : IsDouble e) (hl : -1074 ≤ l + β)
    (dt : IsDouble (e * b - fl (e * b))) : Prod b e (fl (e * b)) (e * b - fl (e * b)) β l := by
  have m : MultOf (l + β) (e * b) := he.mult.mul hb.lsb.mult
  have m' : MultOf (-1074) (e * b) := m.mono hl
  have p := two_zpow_pos l
  have pb : (2 : ℚ) ^ β * (2 : ℚ) ^ l = (2 : ℚ) ^ (l + β) := by rw [two_zpow_add]; ring
  have hB : IsDouble ((2 : ℚ) ^ l * |b|) := by
    refine isDouble_of_multOf hl ((MultOf.pow (le_refl l)).mul (MultOf.abs hb.lsb.mult)) ?_
    rw [abs_mul, abs_abs, abs_of_pos p]
    have := mul_le_mul_of_nonneg_left hb.le p.le
    have q := two_zpow_pos (l + β)
    rw [← pb] at q ⊢
    linarith
  have r := m'.rel
  refine ⟨by ring, fl_isDouble _, dt, m.fl, m.sub m.fl, ?_, ?_, ?_, ?_⟩
  · rw [fl_abs]
    refine le_fl_of_double hB ?_
    rw [abs_mul]
    exact mul_le_mul_of_nonneg_right he.pow_le (abs_nonneg b)
  · rw [abs_sub_comm]; exact r.2
  · rw [abs_sub_comm]; exact r.1
  · rcases lsb_abs he with h | h
    · left
      have : IsDouble |e * b| := by rw [abs_mul, h]; exact hB
      have h2 : IsDouble (e * b) := by
        rcases abs_cases (e * b) with ⟨h', _⟩ | ⟨h', _⟩
        · rwa [h'] at this
        · rw [h'] at this; have := this.neg; rwa [neg_neg] at this
      rw [fl_of_double h2, sub_self]
    · right
      rw [abs_mul, ← mul_assoc]
      exact mul_le_mul_of_nonneg_right h (abs_nonneg b)

/-- Sizes of the two sums of a step. -/
structure Sizes (b e S Q σ T t : ℚ) (l : Int) : Prop where
  b0 : 0 < |b|
  T0 : 0 < |T|
  σ : |σ| ≤ (2 : ℚ) ^ l * |b| / 2 ^ 50
  X : |Q + t| ≤ 7 / 8 * |T|
  X3 : t ≠ 0 → |Q + t| ≤ 3 / 10 * |T|
  s : |fl (Q + t)| ≤ |T|
  h : |Q + t - fl (Q + t)| ≤ uRnd * |Q + t|
  Te : |T| ≤ 1001 / 1000 * (|e| * |b|)

theorem sizes {b e Q σ hl S p T t : ℚ} {β l : Int} (hb : Factor b β) (he : Lsb l e) (st : Sc b β Q σ hl S p)
    (hS : |S| < 3 / 4 * (2 : ℚ) ^ l) (hp : |p| < (2 : ℚ) ^ l) (P : Prod b e T t β l) : Sizes b e S Q σ T t l := by
  have b0 : 0 < |b| := abs_pos.2 hb.lsb.ne
  have pl := two_zpow_pos l
  have hσ : |σ| ≤ (2 : ℚ) ^ l * |b| / 2 ^ 50 := by
    refine st.small.trans ?_
    rw [mul_comm ((2 : ℚ) ^ l)]
    exact div_le_div_of_nonneg_right (mul_le_mul_of_nonneg_left hp.le b0.le) (by norm_num)
  have hQ : |Q| ≤ 3 / 4 * ((2 : ℚ) ^ l * |b|) + |σ| := by
    have h1 : Q = b * S - σ := by rw [← st.sum]; ring
    rw [h1]
    have h2 := abs_sub (b * S) σ
    rw [abs_mul] at h2
    have h3 := mul_le_mul_of_nonneg_left hS.le b0.le
    linarith
  have T0 : 0 < |T| := lt_of_lt_of_le (mul_pos pl b0) P.big
  have hX := abs_add_le Q t
  have tT := P.tT
  have te := P.te
  have big := P.big
  rw [uRnd_eq] at tT te
  have X : |Q + t| ≤ 7 / 8 * |T| := by
    norm_num at hσ; linarith
  have eq := P.eq
  have hTe : |T| ≤ |e * b| + |t| := by
    have : T = e * b - t := by rw [← eq]; ring
    rw [this]; exact abs_sub _ _
  have heT : |e * b| ≤ |T| + |t| := by rw [← eq]; exact abs_add_le _ _
  refine ⟨b0, T0, hσ, X, ?_, ?_, ?_, ?_⟩
  · intro t0
    have := P.one.resolve_left t0
    norm_num at hσ; linarith
  · have : |fl (Q + t)| = fl |Q + t| := fl_abs _
    rw [this]
    have dT : IsDouble |T| := by
      rcases abs_cases T with ⟨h', _⟩ | ⟨h', _⟩ <;> rw [h']
      · exact P.dT
      · exact P.dT.neg
    exact fl_le_of_double dT (by linarith)
  · rw [abs_sub_comm]
    exact (MultOf.rel (st.dQ.mult1074.add P.dt.mult1074)).1
  · rw [← abs_mul]; linarith

/-- After the first sum of a step: a power of two which divides what is added next. -/
theorem mid {b e Q σ hl S p T t : ℚ} {β l : Int} (hb : Factor b β) (he : Lsb l e) (st : Sc b β Q σ hl S p)
    (hS : |S| < 3 / 4 * (2 : ℚ) ^ l) (hp : |p| < (2 : ℚ) ^ l) (P : Prod b e T t β l) :
    (Q + t - fl (Q + t) ≠ 0 → ∃ j, MultOf j (Q + t - fl (Q + t)) ∧ |σ| < 3 / 4 * (2 : ℚ) ^ j ∧ |hl| < (2 : ℚ) ^ j) ∧
    ∃ v, MultOf v T ∧ MultOf v (fl (Q + t)) ∧ |if Q + t - fl (Q + t) = 0 then hl else Q + t - fl (Q + t)| < (2 : ℚ) ^ v ∧
      ((|σ + (Q + t - fl (Q + t))| < 1 / 2 * (2 : ℚ) ^ v ∧ Q + t - fl (Q + t) ≠ 0 ∧ (2 : ℚ) ^ (v + 52) ≤ 9 / 10 * |T|) ∨
       (Q + t - fl (Q + t) = 0 ∧ v ≤ l + β ∧ (|σ| < 1 / 2 * (2 : ℚ) ^ v ∨
          |σ| < 3 / 4 * (2 : ℚ) ^ v ∧ (v < l + β ∨ (2 : ℚ) ^ (v + 52) - 1 / 2 * (2 : ℚ) ^ v < |Q + σ|)))) := by
  have Z := sizes hb he st hS hp P
  obtain ⟨w, hw, mQ, hhl, hσ⟩ := st.j l hS hp
  have pw := two_zpow_pos w
  have hσ' : |σ| < 3 / 4 * (2 : ℚ) ^ w := by
    rcases hσ with h | h
    · linarith
    · exact h.1
  have mX : MultOf w (Q + t) := mQ.add (P.mt.mono hw)
  have mh : MultOf w (Q + t - fl (Q + t)) := mX.sub mX.fl
  refine ⟨fun _ => ⟨w, mh, hσ', hhl⟩, ?_⟩
  by_cases h0 : Q + t - fl (Q + t) = 0
  · refine ⟨w, P.mT.mono hw, mX.fl, by rw [if_pos h0]; exact hhl, Or.inr ⟨h0, hw, hσ⟩⟩
  · obtain ⟨v, h1, h2, h3, h4, h5, h6⟩ := err_parts mQ (P.mt.mono hw) (st.dQ.mult1074.add P.dt.mult1074) h0
    rw [min_self] at h4 h5 h6
    have t0 : t ≠ 0 := by
      rintro rfl
      rw [add_zero, fl_of_double st.dQ, sub_self] at h0; exact h0 rfl
    have X3 := Z.X3 t0
    have pv := two_zpow_pos v
    have hwv := zpow_half h4
    have habs := abs_add_le σ (Q + t - fl (Q + t))
    rcases h6 with ⟨h6, h7⟩ | h6
    · -- a tie
      have h8 : (2 : ℚ) ^ (v + 1 + 52) ≤ 9 / 10 * |T| := by
        rw [pow52, two_zpow_succ]; rw [pow52] at h1; linarith [Z.T0]
      refine ⟨v + 1, P.dT.multOf_of_le (by linarith [Z.T0]), h7, ?_, Or.inl ⟨?_, h0, h8⟩⟩
      · rw [if_neg h0, h6, two_zpow_succ]; linarith
      · rw [two_zpow_succ]; linarith
    · refine ⟨v, P.dT.multOf_of_le (by linarith [Z.T0]), h3, ?_, Or.inl ⟨?_, h0, by linarith [Z.T0]⟩⟩
      · rw [if_neg h0]; linarith
      · linarith

/-- One round of the loop. -/
theorem scale_step {b e Q σ hl S p T t : ℚ} {β l : Int} (hb : Factor b β) (he : Lsb l e) (de : IsDouble e) (st : Sc b β Q σ hl S p)
    (hS : |S| < 3 / 4 * (2 : ℚ) ^ l) (hp : |p| < (2 : ℚ) ^ l) (P : Prod b e T t β l) (s h1 h2 : ℚ) (es : s = fl (Q + t))
    (eh1 : h1 = Q + t - s) (eh2 : h2 = T + s - fl (T + s)) (hl1 : ℚ) (ehl : hl1 = if h1 = 0 then hl else h1) :
    (h1 ≠ 0 → ∃ j, MultOf j h1 ∧ |σ| < 3 / 4 * (2 : ℚ) ^ j ∧ |hl| < (2 : ℚ) ^ j) ∧
    (h2 ≠ 0 → ∃ j, MultOf j h2 ∧ |σ + h1| < 3 / 4 * (2 : ℚ) ^ j ∧ |hl1| < (2 : ℚ) ^ j) ∧
    |s| ≤ |T| ∧
    Sc b β (fl (T + s)) (σ + h1 + h2) (if h2 = 0 then hl1 else h2) (S + e) e := by
  have Z := sizes hb he st hS hp P
  obtain ⟨o1, v, mT, ms, hv, hc⟩ := mid hb he st hS hp P
  rw [← es] at ms
  rw [← es, ← eh1] at o1 hv hc
  rw [← ehl] at hv
  have pv := two_zpow_pos v
  have hσ1 : |σ + h1| < 3 / 4 * (2 : ℚ) ^ v := by
    rcases hc with h | ⟨h, -, h' | h'⟩
    · linarith [h.1]
    · rw [h, add_zero]; linarith
    · rw [h, add_zero]; exact h'.1
  have mX : MultOf v (T + s) := mT.add ms
  have mh : MultOf v h2 := by rw [eh2]; exact mX.sub mX.fl
  have ds : IsDouble s := by rw [es]; exact fl_isDouble _
  have dX : MultOf (-1074) (T + s) := P.dT.mult1074.add ds.mult1074
  have sT : |s| ≤ |T| := by rw [es]; exact Z.s
  have hh1 : |h1| ≤ uRnd * |Q + t| := by rw [eh1, es]; exact Z.h
  have hh2 : |h2| ≤ uRnd * |T + s| := by rw [eh2, abs_sub_comm]; exact (MultOf.rel dX).1
  have sumX : T + s + (σ + h1) = b * (S + e) := by
    rw [eh1]; have := st.sum; have := P.eq; linear_combination this + st.sum
  refine ⟨o1, fun _ => ⟨v, mh, hσ1, hv⟩, sT, ?_⟩
  have X2 := abs_add_le T s
  have b0 := Z.b0
  have T0 := Z.T0
  have pe : (2 : ℚ) ^ l ≤ |e| := he.pow_le
  have hBe : (2 : ℚ) ^ l * |b| ≤ |e| * |b| := mul_le_mul_of_nonneg_right pe b0.le
  have eB0 : 0 < |e| * |b| := mul_pos (abs_pos.2 he.ne) b0
  have u := uRnd_eq
  rw [u] at hh1 hh2
  have zX := Z.X
  have zTe := Z.Te
  have zσ := Z.σ
  norm_num at zσ
  refine ⟨?_, fl_isDouble _, ?_, ?_⟩
  · rw [eh2, ← sumX]; ring
  · -- the errors are small
    rw [mul_comm |b|]
    by_cases z2 : h2 = 0
    · rw [z2, add_zero]
      by_cases z1 : h1 = 0
      · rw [z1, add_zero]
        refine Z.σ.trans ?_
        exact div_le_div_of_nonneg_right hBe (by norm_num)
      · obtain ⟨j, mj, sj, -⟩ := o1 z1
        have := mj.le_abs z1
        have := abs_add_le σ h1
        norm_num; linarith
    · have := mh.le_abs z2
      have := abs_add_le (σ + h1) h2
      norm_num; linarith
  · intro l' hS' hp'
    have ll' : l < l' := two_zpow_lt.1 (pe.trans_lt hp')
    have pl' := two_zpow_pos l'
    have hbl : 0 < (2 : ℚ) ^ l' * |b| := mul_pos pl' b0
    have eb' : |e| * |b| ≤ (2 : ℚ) ^ l' * |b| := mul_le_mul_of_nonneg_right hp'.le b0.le
    have hb53 : (2 : ℚ) ^ l' * |b| ≤ 9007199254740991 * (2 : ℚ) ^ (l' + β) := by
      have := mul_le_mul_of_nonneg_left hb.le pl'.le
      rw [two_zpow_add]; linarith
    have pq := two_zpow_pos (l' + β)
    have hvl : v ≤ l' + β := by
      rcases hc with ⟨-, -, h⟩ | ⟨-, h, -⟩
      · have : (2 : ℚ) ^ (v + 52) < (2 : ℚ) ^ (l' + β + 53) := by rw [pow53]; linarith
        have := two_zpow_lt.1 this
        omega
      · omega
    by_cases z2 : h2 = 0
    · have eX : fl (T + s) = T + s := by rw [z2] at eh2; linarith
      rw [eX, z2, add_zero, if_pos rfl]
      refine ⟨v, hvl, mX, hv, ?_⟩
      rcases hc with h | ⟨h, hvl', h'⟩
      · exact Or.inl h.1
      · exact Or.inr ⟨hσ1, Or.inl (by omega)⟩
    · rw [if_neg z2]
      have h0 : T + s - fl (T + s) ≠ 0 := by rw [← eh2]; exact z2
      obtain ⟨w, g1, g2, g3, g4, g5, g6⟩ := err_parts mT ms dX h0
      rw [min_self] at g4 g5 g6
      rw [← eh2] at g5 g6
      have pw := two_zpow_pos w
      have hvw := zpow_half g4
      have habs := abs_add_le (σ + h1) h2
      have bS : |b * (S + e)| < 3 / 4 * ((2 : ℚ) ^ l' * |b|) := by
        rw [abs_mul]
        have := mul_lt_mul_of_pos_left hS' b0
        linarith
      have hX2 : |T + s| ≤ |b * (S + e)| + |σ + h1| := by
        have : T + s = b * (S + e) - (σ + h1) := by rw [← sumX]; ring
        rw [this]; exact abs_sub _ _
      have hX2' : |T + s| - |σ + h1| ≤ |b * (S + e)| := by
        rw [← sumX]
        have := abs_sub (T + s + (σ + h1)) (σ + h1)
        rw [add_sub_cancel_right] at this
        linarith
      have hσs : |σ + h1| ≤ (2 : ℚ) ^ l' * |b| / 2 ^ 45 := by
        have := abs_add_le σ h1
        norm_num; linarith
      norm_num at hσs
      have hwl : w ≤ l' + β := by
        have : (2 : ℚ) ^ (w + 52) < (2 : ℚ) ^ (l' + β + 53) := by rw [pow53]; linarith
        have := two_zpow_lt.1 this
        omega
      have hnew : fl (T + s) + (σ + h1 + h2) = T + s + (σ + h1) := by rw [eh2]; ring
      rw [hnew]
      rcases g6 with ⟨g6, g7⟩ | g6
      · -- a tie
        by_cases hs : |σ + h1| < 1 / 4 * (2 : ℚ) ^ w
        · refine ⟨w, hwl, g3, by rw [g6]; linarith, Or.inr ⟨by rw [g6] at habs; linarith, Or.inr ?_⟩⟩
          have := abs_sub (T + s + (σ + h1)) (σ + h1)
          rw [add_sub_cancel_right] at this
          linarith
        · push Not at hs
          have hvw' : v + 1 = w := by
            by_contra hne
            have := zpow_quarter (show v + 2 ≤ w by omega)
            linarith
          by_cases hlt : w < l' + β
          · refine ⟨w + 1, by omega, g7, ?_, Or.inl ?_⟩
            · rw [g6, two_zpow_succ]; linarith
            · rw [two_zpow_succ]; rw [g6] at habs; linarith
          · exfalso
            have ew : w = l' + β := by omega
            subst hvw'
            rw [two_zpow_succ] at hs
            rcases hc with h | ⟨z1, hvl', h | ⟨h, h'⟩⟩
            · linarith [h.1]
            · rw [z1, add_zero] at hs; linarith
            · have e1 : v = l + β := by omega
              have e2 : l' = l + 1 := by omega
              have h' := h'.resolve_left (by omega)
              subst e2
              rw [two_zpow_succ] at hS' hp'
              have pl := two_zpow_pos l
              have ee : |e| = (2 : ℚ) ^ l := by
                rcases lsb_abs he with h' | h'
                · exact h'
                · linarith
              have hbl2 : (2 : ℚ) ^ l * |b| ≤ 9007199254740991 * (2 : ℚ) ^ v := by
                have := mul_le_mul_of_nonneg_left hb.le pl.le
                rw [e1, two_zpow_add]; linarith
              rw [pow52, two_zpow_succ] at g1
              rw [z1, add_zero] at hX2'
              rw [st.sum, abs_mul, pow52] at h'
              rw [abs_mul] at hX2'
              by_cases hsg : |S + e| = |S| + |e|
              · rw [hsg, ee] at hS'
                have h5 : |S| < 1 / 2 * (2 : ℚ) ^ l := by linarith
                have := mul_lt_mul_of_pos_left h5 b0
                linarith
              · have h5 : |S + e| ≤ |e| := by
                  rcases abs_cases S with ⟨q1, q2⟩ | ⟨q1, q2⟩ <;> rcases abs_cases e with ⟨q3, q4⟩ | ⟨q3, q4⟩
                  · exfalso; apply hsg; rw [q1, q3, abs_of_nonneg (by linarith)]
                  · rw [abs_le]; constructor <;> linarith
                  · rw [abs_le]; constructor <;> linarith
                  · exfalso; apply hsg; rw [q1, q3, abs_of_neg (by linarith)]; ring
                have := mul_le_mul_of_nonneg_left h5 b0.le
                rw [ee] at this
                linarith
      · refine ⟨w, hwl, g3, by linarith, Or.inl (by linarith)⟩
end Delynoi.Ex
