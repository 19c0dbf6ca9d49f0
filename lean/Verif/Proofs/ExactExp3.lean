import Verif.Proofs.ExactExp2
/-!
# The sum of expansions, and the last stage of `counterclockwiseadapt`
-/
set_option linter.unusedSectionVars false
namespace Delynoi.Ex

/-- The last component, or `p`. -/
def endOf (p : ℚ) : List ℚ → ℚ
  | [] => p
  | x :: xs => endOf x xs

theorem endOf_append (p y : ℚ) : ∀ xs, endOf p (xs ++ [y]) = y
  | [] => rfl
  | x :: xs => endOf_append x y xs

theorem endOf_getLast (p : ℚ) : ∀ xs : List ℚ, xs ≠ [] → xs.getLast? = some (endOf p xs)
  | [], h => absurd rfl h
  | [x], _ => rfl
  | x :: y :: ys, _ => by
    rw [List.getLast?_cons_cons, endOf_getLast x (y :: ys) (by simp)]; rfl

/-- Another component at the end. -/
theorem exp_append {y : ℚ} {l : Int} (dy : IsDouble y) (hl : Lsb l y) : ∀ (xs : List ℚ) (S p : ℚ), Expansion S p xs →
    (∀ x ∈ xs, x ≠ 0) → |S + xs.sum| < 3 / 4 * (2 : ℚ) ^ l → |endOf p xs| < (2 : ℚ) ^ l → Expansion S p (xs ++ [y]) := by
  intro xs
  induction xs with
  | nil =>
    intro S p _ _ h1 h2
    refine ⟨dy, Or.inr ⟨l, hl, h2, ?_, trivial⟩⟩
    simpa using h1
  | cons x xs ih =>
    intro S p h hz h1 h2
    obtain ⟨dx, h⟩ := h
    rcases h with h | ⟨k, hk, a, b, c⟩
    · exact absurd h.1 (hz x (by simp))
    · refine ⟨dx, Or.inr ⟨k, hk, a, b, ?_⟩⟩
      refine ih _ _ c (fun z hz' => hz z (by simp [hz'])) ?_ h2
      rw [List.sum_cons] at h1
      rw [add_assoc]; exact h1

/-- The last component dominates. -/
theorem exp_last : ∀ (xs : List ℚ) (S p : ℚ), Expansion S p xs → (∀ x ∈ xs, x ≠ 0) → xs ≠ [] →
    |S + xs.sum - endOf p xs| < |endOf p xs| := by
  intro xs
  induction xs with
  | nil => intro S p _ _ h; exact absurd rfl h
  | cons x xs ih =>
    intro S p h hz _
    obtain ⟨dx, h⟩ := h
    rcases h with h | ⟨k, hk, a, b, c⟩
    · exact absurd h.1 (hz x (by simp))
    · by_cases hx : xs = []
      · subst hx
        have := hk.pow_le
        have := two_zpow_pos k
        change |S + (x + 0) - x| < |x|
        rw [show S + (x + 0) - x = S by ring]
        linarith
      · have := ih _ _ c (fun z hz' => hz z (by simp [hz'])) hx
        rw [List.sum_cons, ← add_assoc]; exact this

/-- The output so far. -/
structure Out (H : List ℚ) (σ hl : ℚ) : Prop where
  e : Expansion 0 0 H
  z : ∀ x ∈ H, x ≠ 0
  s : H.sum = σ
  l : endOf 0 H = hl

theorem Out.put {H : List ℚ} {σ hl y : ℚ} (o : Out H σ hl) (dy : IsDouble y)
    (h : y ≠ 0 → ∃ j, MultOf j y ∧ |σ| < 3 / 4 * (2 : ℚ) ^ j ∧ |hl| < (2 : ℚ) ^ j) :
    Out (Ex.put H y) (σ + y) (if y = 0 then hl else y) := by
  unfold Ex.put
  by_cases hy : y = 0
  · rw [if_neg (by simpa using hy), if_pos hy, hy, add_zero]; exact o
  · rw [if_pos hy, if_neg hy]
    obtain ⟨j, hj, h1, h2⟩ := h hy
    obtain ⟨l, hjl, hl'⟩ := exists_lsb hj hy
    have := two_zpow_mono hjl
    refine ⟨exp_append dy hl' H 0 0 o.e o.z ?_ ?_, ?_, ?_, endOf_append _ _ _⟩
    · rw [zero_add, o.s]; linarith
    · rw [o.l]; linarith
    · intro x hx
      rcases List.mem_append.1 hx with h' | h'
      · exact o.z x h'
      · rw [List.mem_singleton.1 h']; exact hy
    · rw [List.sum_append, o.s]; simp

/-- One round of the loops. -/
theorem round {Q σ hl Se eL Sf fL x : ℚ} {es fs H : List ℚ} (s : St Q σ hl Se eL Sf fL (x :: es) fs) (o : Out H σ hl)
    (ord : x ≠ 0 → ∀ y ∈ fs, y ≠ 0 → |x| ≤ |y|) :
    ∃ σ' hl' Se' eL', St (twoSum Q x).1 σ' hl' Se' eL' Sf fL es fs ∧ Out (put H (twoSum Q x).2) σ' hl' ∧
      Se' = Se + x := by
  have dx : IsDouble x := s.ne.1
  rw [twoSum_exact s.dQ dx, twoSum_fst]
  by_cases hx : x = 0
  · subst hx
    refine ⟨σ, hl, Se, eL, ?_, ?_, by ring⟩
    · rw [add_zero, fl_of_double s.dQ]; exact s.skip
    · rw [add_zero, fl_of_double s.dQ, sub_self]
      have := o.put isDouble_zero (fun h => absurd rfl h)
      simpa using this
  · refine ⟨_, _, _, _, s.step hx (ord hx), ?_, rfl⟩
    refine o.put (isDouble_add_err s.dQ dx) fun _ => ?_
    obtain ⟨q, mq, q1, q2, -⟩ := s.g
    obtain ⟨k, -, hk⟩ := exists_lsb dx.mult1074 hx
    obtain ⟨k1, k2⟩ := s.r x (by simp) k hk
    have mX : MultOf (min q k) (Q + x) := (mq.mono (min_le_left _ _)).add (hk.mult.mono (min_le_right _ _))
    refine ⟨min q k, mX.sub mX.fl, ?_, ?_⟩ <;> rcases min_choice q k with h | h <;> rw [h] <;> assumption

/-- What the loops end with. -/
structure Done (r : ℚ × List ℚ) (T : ℚ) : Prop where
  d : IsDouble r.1
  o : ∃ σ hl q, Out r.2 σ hl ∧ MultOf q r.1 ∧ |σ| < 3 / 4 * (2 : ℚ) ^ q ∧ |hl| < (2 : ℚ) ^ q ∧ r.1 + σ = T

theorem exp_ord {S p f : ℚ} {fs : List ℚ} (h : Expansion S p (f :: fs)) {x : ℚ} (hx : x ≠ 0) (hxf : |x| ≤ |f|) :
    ∀ y ∈ f :: fs, y ≠ 0 → |x| ≤ |y| := by
  have hf : f ≠ 0 := by
    rintro rfl
    rw [abs_zero] at hxf
    exact hx (abs_nonpos_iff.1 hxf)
  intro y hy hy0
  rcases List.mem_cons.1 hy with rfl | hy
  · exact hxf
  · obtain ⟨-, h⟩ := h
    rcases h with h | ⟨l, -, -, -, h⟩
    · exact absurd h.1 hf
    · obtain ⟨dy, h'⟩ := exp_mem fs _ _ h y hy
      obtain ⟨k, -, hk⟩ := exists_lsb dy.mult1074 hy0
      exact hxf.trans ((h' k hk).2.le.trans hk.pow_le)

/-- The loops. -/
theorem sumLoops_exp : ∀ (n : Nat) (Q σ hl Se eL Sf fL : ℚ) (H es fs : List ℚ), es.length + fs.length = n →
    St Q σ hl Se eL Sf fL es fs → Out H σ hl → Done (sumLoops Q H es fs) (Se + Sf + es.sum + fs.sum) := by
  intro n
  induction n with
  | zero =>
    intro Q σ hl Se eL Sf fL H es fs hn s o
    obtain rfl : es = [] := List.eq_nil_of_length_eq_zero (by omega)
    obtain rfl : fs = [] := List.eq_nil_of_length_eq_zero (by omega)
    rw [sumLoops]
    obtain ⟨q, mq, q1, q2, -⟩ := s.g
    exact ⟨s.dQ, σ, hl, q, o, mq, q1, q2, by simp [s.sum]⟩
  | succ n ih =>
    intro Q σ hl Se eL Sf fL H es fs hn s o
    cases es with
    | nil =>
      cases fs with
      | nil => simp at hn
      | cons f fs =>
        rw [sumLoops]
        obtain ⟨σ', hl', Se', eL', s', o', e'⟩ := round s.swap o (by simp)
        have := ih _ _ _ _ _ _ _ _ [] fs (by simpa using hn) s'.swap o'
        rw [e'] at this
        convert this using 1
        simp; ring
    | cons e es =>
      cases fs with
      | nil =>
        rw [sumLoops]
        obtain ⟨σ', hl', Se', eL', s', o', e'⟩ := round s o (by simp)
        have := ih _ _ _ _ _ _ _ _ es [] (by simpa using hn) s' o'
        rw [e'] at this
        convert this using 1
        simp; ring
      | cons f fs =>
        rw [sumLoops]
        simp only [List.length_cons] at hn
        split_ifs with ht
        · obtain ⟨σ', hl', Se', eL', s', o', e'⟩ := round s o fun hx => exp_ord s.nf hx (takeE_true ht)
          have := ih _ _ _ _ _ _ _ _ es (f :: fs) (by simp; omega) s' o'
          rw [e'] at this
          convert this using 1
          simp; ring
        · obtain ⟨σ', hl', Se', eL', s', o', e'⟩ := round s.swap o fun hx =>
            exp_ord s.ne hx (takeE_false (by simpa using ht))
          have := ih _ _ _ _ _ _ _ _ (e :: es) fs (by simp; omega) s'.swap o'
          rw [e'] at this
          convert this using 1
          simp; ring

theorem exp_double {S p : ℚ} {xs : List ℚ} (h : Expansion S p xs) : ∀ x ∈ xs, IsDouble x :=
  fun x hx => (exp_mem xs S p h x hx).1

theorem exp_rising {S p : ℚ} : ∀ {xs : List ℚ}, Expansion S p xs → Rising xs
  | [], _ => trivial
  | [_], _ => trivial
  | a :: b :: bs, h => by
    by_cases hb : b = 0
    · exact Or.inl hb
    · right
      by_cases ha : a = 0
      · rw [ha, abs_zero]; exact abs_nonneg b
      · obtain ⟨-, h⟩ := h
        rcases h with h | ⟨l, -, -, -, h⟩
        · exact absurd h.1 ha
        · obtain ⟨dy, h'⟩ := exp_mem _ _ _ h b (by simp)
          obtain ⟨k, -, hk⟩ := exists_lsb dy.mult1074 hb
          exact (h' k hk).2.le.trans hk.pow_le

/-- The first addition is as exact as the others. -/
theorem sumSecond_eq {Q : ℚ} {es fs : List ℚ} (hQ : IsDouble Q) (he : ∀ x ∈ es, IsDouble x) (hf : ∀ x ∈ fs, IsDouble x)
    (re : ∀ a as, es = a :: as → a = 0 ∨ |Q| ≤ |a|) (rf : ∀ a as, fs = a :: as → a = 0 ∨ |Q| ≤ |a|) :
    sumSecond Q es fs = sumLoops Q [] es fs := by
  have key : ∀ a, IsDouble a → (a = 0 ∨ |Q| ≤ |a|) → fastTwoSum a Q = twoSum Q a := by
    intro a ha h
    have h1 := (fast_ok ha hQ h).1
    have h2 := twoSum_add hQ ha
    have e1 : (fastTwoSum a Q).1 = fl (a + Q) := rfl
    have e2 : (twoSum Q a).1 = fl (a + Q) := by rw [twoSum_fst, add_comm]
    rw [e1] at h1
    rw [e2] at h2
    refine Prod.ext (by rw [e1, e2]) ?_
    linarith
  cases es with
  | nil => rw [sumSecond]; simp
  | cons e es =>
    cases fs with
    | nil => rw [sumSecond]; simp
    | cons f fs =>
      rw [sumSecond, sumLoops, key e (he e (by simp)) (re e es rfl), key f (hf f (by simp)) (rf f fs rfl)]

theorem twoSum_zero {x : ℚ} (hx : IsDouble x) : twoSum 0 x = (x, 0) := by
  refine Prod.ext ?_ ?_
  · rw [twoSum_fst, zero_add, fl_of_double hx]
  · rw [twoSum_exact isDouble_zero hx, zero_add, fl_of_double hx, sub_self]

/-- `fast_expansion_sum_zeroelim` of expansions. -/
theorem fastExpansionSum_exp {e f : List ℚ} (he : Expansion 0 0 e) (hf : Expansion 0 0 f) (e0 : e ≠ []) (f0 : f ≠ []) :
    ∃ h, fastExpansionSum e f = some h ∧ Expansion 0 0 h ∧ h.sum = e.sum + f.sum ∧ h ≠ [] ∧
      ((∀ x ∈ h, x ≠ 0) ∨ h = [0]) := by
  have de := exp_double he
  have df := exp_double hf
  have re := exp_rising he
  have rf := exp_rising hf
  have hd := sumLoops_exp _ 0 0 0 0 0 0 0 [] e f rfl (St.init he hf) ⟨trivial, by simp, rfl, rfl⟩
  cases e with
  | nil => exact absurd rfl e0
  | cons a as =>
  cases f with
  | nil => exact absurd rfl f0
  | cons b bs =>
    have hr : (if takeE a b then sumSecond a as (b :: bs) else sumSecond b (a :: as) bs) =
        sumLoops 0 [] (a :: as) (b :: bs) := by
      rw [sumLoops, twoSum_zero (de a (by simp)), twoSum_zero (df b (by simp))]
      have hp : put [] 0 = [] := by simp [put]
      split_ifs with ht
      · rw [sumSecond_eq (de a (by simp)) (fun x hx => de x (by simp [hx])) df (by rintro c cs rfl; exact re) (by
          intro c cs hc
          rw [List.cons.injEq] at hc
          rw [← hc.1]
          exact Or.inr (takeE_true ht))]
        simp only [hp]
      · rw [sumSecond_eq (df b (by simp)) de (fun x hx => df x (by simp [hx])) (by
          intro c cs hc
          rw [List.cons.injEq] at hc
          rw [← hc.1]
          exact Or.inr (takeE_false (by simpa using ht))) (by rintro c cs rfl; exact rf)]
        simp only [hp]
    unfold fastExpansionSum
    dsimp only
    rw [hr]
    generalize sumLoops 0 [] (a :: as) (b :: bs) = r at *
    refine ⟨_, rfl, ?_⟩
    obtain ⟨Q, H⟩ := r
    obtain ⟨dQ, σ, hl, q, o, mq, q1, q2, hs⟩ := hd
    dsimp only at *
    have hsum : H.sum + Q = (a :: as).sum + (b :: bs).sum := by rw [o.s]; linarith
    by_cases hQ : Q = 0
    · subst hQ
      by_cases hH : H = []
      · subst hH
        rw [if_pos (by simp)]
        refine ⟨⟨isDouble_zero, Or.inl ⟨rfl, trivial⟩⟩, ?_, by simp, Or.inr rfl⟩
        rw [← hsum]; simp
      · rw [if_neg (by simp [hH])]
        exact ⟨o.e, by linarith, hH, Or.inl o.z⟩
    · rw [if_pos (Or.inl hQ)]
      have := o.put dQ fun _ => ⟨q, mq, q1, q2⟩
      unfold put at this
      rw [if_pos hQ] at this
      exact ⟨this.e, by rw [List.sum_append, ← hsum]; simp, by simp, Or.inl this.z⟩

/-- The sign of an expansion. -/
theorem exp_sign {h : List ℚ} (he : Expansion 0 0 h) (hne : h ≠ []) (hz : (∀ x ∈ h, x ≠ 0) ∨ h = [0]) :
    ∃ d, h.getLast? = some d ∧ SameSign d h.sum := by
  refine ⟨_, endOf_getLast 0 h hne, ?_⟩
  rcases hz with hz | rfl
  · have := exp_last h 0 0 he hz hne
    rw [zero_add] at this
    exact (sameSign_of_close this).symm
  · rw [show ([0] : List ℚ).sum = endOf 0 [0] by simp [endOf]]; exact ⟨Iff.rfl, Iff.rfl⟩

/-- A rounding error below half of the last place. -/
theorem half_err {X : ℚ} (hX : MultOf (-1074) X) (h : X - fl X ≠ 0) :
    ∃ w, MultOf w (fl X) ∧ |X - fl X| < (2 : ℚ) ^ w / 2 := by
  obtain ⟨w, -, -, h3, h4, h5⟩ := fl_err hX h
  rcases h4.lt_or_eq with h' | h'
  · exact ⟨w, h3, h'⟩
  · refine ⟨w + 1, h5 h', ?_⟩
    rw [two_zpow_succ, h']
    have := two_zpow_pos w
    linarith

theorem err_le_right {a b : ℚ} (ha : IsDouble a) : |a + b - fl (a + b)| ≤ |b| := by
  have := fl_nearest (a + b) a ha
  rw [abs_sub_comm]; refine this.trans_eq ?_
  rw [show a - (a + b) = -b by ring, abs_neg]

theorem err_le_left {a b : ℚ} (hb : IsDouble b) : |a + b - fl (a + b)| ≤ |a| := by
  have := err_le_right (b := a) hb
  rwa [add_comm b a] at this

theorem half_of_mult {w : Int} {x y : ℚ} (hx : |x| < (2 : ℚ) ^ w / 2) (hy : MultOf w y) :
    ∀ l, Lsb l y → |x| < 1 / 2 * (2 : ℚ) ^ l := by
  intro l hl
  have := two_zpow_mono (hl.le hy)
  linarith

/-- A nonadjacent list of binary64 numbers. -/
theorem exp_of_nonadjacent : ∀ (xs : List ℚ) (S p : ℚ), (∀ x ∈ xs, IsDouble x) →
    xs.Pairwise (fun x y => ∀ l, Lsb l y → |x| < 1 / 2 * (2 : ℚ) ^ l) →
    (∀ y ∈ xs, ∀ l, Lsb l y → |S| < 1 / 2 * (2 : ℚ) ^ l ∧ |p| < 1 / 2 * (2 : ℚ) ^ l) → Expansion S p xs := by
  intro xs
  induction xs with
  | nil => intro S p _ _ _; trivial
  | cons x xs ih =>
    intro S p hd hp hS
    obtain ⟨hp1, hp2⟩ := List.pairwise_cons.1 hp
    have dx := hd x (by simp)
    have hd' : ∀ y ∈ xs, IsDouble y := fun y hy => hd y (by simp [hy])
    refine ⟨dx, ?_⟩
    by_cases hx : x = 0
    · exact Or.inl ⟨hx, ih S p hd' hp2 fun y hy => hS y (by simp [hy])⟩
    · right
      obtain ⟨l, -, hl⟩ := exists_lsb dx.mult1074 hx
      obtain ⟨a, b⟩ := hS x (by simp) l hl
      have pl := two_zpow_pos l
      refine ⟨l, hl, by linarith, by linarith, ih _ _ hd' hp2 ?_⟩
      intro y hy k hk
      have h1 := hp1 y hy k hk
      refine ⟨?_, h1⟩
      have e : 1 / 2 * (2 : ℚ) ^ k = (2 : ℚ) ^ (k - 1) := by
        rw [show k = k - 1 + 1 by ring, two_zpow_succ]; ring_nf
      rw [e] at h1 ⊢
      have hlt := two_zpow_lt.1 (hl.pow_le.trans_lt h1)
      have := MultOf.gap (MultOf.abs hl.mult) (MultOf.pow hlt.le) h1
      have := abs_add_le S x
      linarith

/-- The array for `a * b - c * d`. -/
theorem crossExpansion_exp {a b c d : ℚ} (d1 : IsDouble a) (d2 : IsDouble b) (d3 : IsDouble c) (d4 : IsDouble d)
    (m1 : MultOf (-440) a) (m2 : MultOf (-440) b) (m3 : MultOf (-440) c) (m4 : MultOf (-440) d) :
    (∀ x ∈ crossExpansion spl a b c d, IsDouble x) ∧
    (crossExpansion spl a b c d).Pairwise (fun x y => ∀ l, Lsb l y → |x| < 1 / 2 * (2 : ℚ) ^ l) ∧
    (crossExpansion spl a b c d).sum = a * b - c * d := by
  have pm1 := mult440 m1 m2
  have pm2 := mult440 m3 m4
  have t1 : (twoProduct spl a b).2 = a * b - fl (a * b) :=
    twoProduct_exact d1 d2 m1 m2 (by norm_num) (by norm_num) (by norm_num)
  have t2 : (twoProduct spl c d).2 = c * d - fl (c * d) :=
    twoProduct_exact d3 d4 m3 m4 (by norm_num) (by norm_num) (by norm_num)
  have dL := fl_isDouble (a * b)
  have dR := fl_isDouble (c * d)
  have dl0 : IsDouble (a * b - fl (a * b)) := by rw [← t1]; exact fl_isDouble _
  have dr0 : IsDouble (c * d - fl (c * d)) := by rw [← t2]; exact fl_isDouble _
  obtain ⟨i1, x0, j, o, i, x1, x3, x2, hl, h⟩ := twoTwoDiff_parts dL dl0 dR dr0
  have hB : crossExpansion spl a b c d = [x0, x1, x2, x3] := by
    unfold crossExpansion
    dsimp only
    rw [t1, t2, ← hl]; rfl
  have hsum := h.sum
  have di1 : IsDouble i1 := by rw [h.e_i1]; exact fl_isDouble _
  have dx0 : IsDouble x0 := by rw [h.e_x0, h.e_i1]; exact isDouble_sub_err dl0 dr0
  have dj : IsDouble j := by rw [h.e_j]; exact fl_isDouble _
  have do' : IsDouble o := by rw [h.e_o, h.e_j]; exact isDouble_add_err dL di1
  have di : IsDouble i := by rw [h.e_i]; exact fl_isDouble _
  have dx1 : IsDouble x1 := by rw [h.e_x1, h.e_i]; exact isDouble_sub_err do' dR
  have dx3 : IsDouble x3 := by rw [h.e_x3]; exact fl_isDouble _
  have dx2 : IsDouble x2 := by rw [h.e_x2, h.e_x3]; exact isDouble_add_err dj di
  -- multiples
  have mults : ∀ w, MultOf w (fl (a * b)) → MultOf w (fl (c * d)) → MultOf w i1 →
      MultOf w x1 ∧ MultOf w x2 ∧ MultOf w x3 := by
    intro w w1 w2 w3
    have wj : MultOf w j := by rw [h.e_j]; exact (w1.add w3).fl
    have wo : MultOf w o := by rw [h.e_o]; exact (w1.add w3).sub wj
    have wi : MultOf w i := by rw [h.e_i]; exact (wo.sub w2).fl
    have wx3 : MultOf w x3 := by rw [h.e_x3]; exact (wj.add wi).fl
    refine ⟨?_, ?_, wx3⟩
    · rw [h.e_x1]; exact (wo.sub w2).sub wi
    · rw [h.e_x2]; exact (wj.add wi).sub wx3
  have h0 : ∃ w, |x0| < (2 : ℚ) ^ w / 2 ∧ MultOf w x1 ∧ MultOf w x2 ∧ MultOf w x3 := by
    by_cases hx0 : x0 = 0
    · refine ⟨-1074, ?_, dx1.mult1074, dx2.mult1074, dx3.mult1074⟩
      rw [hx0, abs_zero]
      have := two_zpow_pos (-1074)
      linarith
    · have hX : MultOf (-1074) (a * b - fl (a * b) + -(c * d - fl (c * d))) := dl0.mult1074.add dr0.mult1074.neg
      have e0 : x0 = a * b - fl (a * b) + -(c * d - fl (c * d)) - fl (a * b - fl (a * b) + -(c * d - fl (c * d))) := by
        rw [h.e_x0, h.e_i1]; simp only [sub_eq_add_neg]
      have e1 : i1 = fl (a * b - fl (a * b) + -(c * d - fl (c * d))) := by rw [h.e_i1, sub_eq_add_neg]
      obtain ⟨w0, w1, w2⟩ := half_err hX (by rw [← e0]; exact hx0)
      have la := err_le_left (a := a * b - fl (a * b)) dr0.neg
      have lb := err_le_right (b := -(c * d - fl (c * d))) dl0
      rw [← e0] at w2 la lb
      rw [← e1] at w1
      rw [abs_neg] at lb
      have na : a * b - fl (a * b) ≠ 0 := by
        intro h'; rw [h', abs_zero] at la; exact hx0 (abs_nonpos_iff.1 la)
      have nb : c * d - fl (c * d) ≠ 0 := by
        intro h'; rw [h', abs_zero] at lb; exact hx0 (abs_nonpos_iff.1 lb)
      obtain ⟨ka, ma, ha⟩ := half_err (low pm1) na
      obtain ⟨kb, mb, hb⟩ := half_err (low pm2) nb
      refine ⟨min w0 (min ka kb), ?_, mults _ (ma.mono (by omega)) (mb.mono (by omega)) (w1.mono (by omega))⟩
      rcases min_choice w0 (min ka kb) with h' | h' <;> rw [h']
      · exact w2
      · rcases min_choice ka kb with h' | h' <;> rw [h'] <;> linarith
  have h1 : ∃ w, |x1| < (2 : ℚ) ^ w / 2 ∧ MultOf w x2 ∧ MultOf w x3 := by
    by_cases hx1 : x1 = 0
    · refine ⟨-1074, ?_, dx2.mult1074, dx3.mult1074⟩
      rw [hx1, abs_zero]
      have := two_zpow_pos (-1074)
      linarith
    · have e0 : x1 = o + -fl (c * d) - fl (o + -fl (c * d)) := by
        rw [h.e_x1, h.e_i]; simp only [sub_eq_add_neg]
      have e1 : i = fl (o + -fl (c * d)) := by rw [h.e_i, sub_eq_add_neg]
      obtain ⟨w0, w1, w2⟩ := half_err (do'.mult1074.add dR.mult1074.neg) (by rw [← e0]; exact hx1)
      have la := err_le_left (a := o) dR.neg
      rw [← e0] at w2 la
      rw [← e1] at w1
      have no : o ≠ 0 := by
        intro h'; rw [h', abs_zero] at la; exact hx1 (abs_nonpos_iff.1 la)
      have e2 : o = fl (a * b) + i1 - fl (fl (a * b) + i1) := by rw [h.e_o, h.e_j]
      obtain ⟨ka, ma, ha⟩ := half_err (dL.mult1074.add di1.mult1074) (by rw [← e2]; exact no)
      rw [← e2] at ha
      rw [← h.e_j] at ma
      have mm : MultOf (min w0 ka) x3 := by
        rw [h.e_x3]; exact ((ma.mono (by omega)).add (w1.mono (by omega))).fl
      refine ⟨min w0 ka, ?_, ?_, mm⟩
      · rcases min_choice w0 ka with h' | h' <;> rw [h']
        · exact w2
        · linarith
      · rw [h.e_x2]; exact ((ma.mono (by omega)).add (w1.mono (by omega))).sub mm
  have h2 : ∃ w, |x2| < (2 : ℚ) ^ w / 2 ∧ MultOf w x3 := by
    by_cases hx2 : x2 = 0
    · refine ⟨-1074, ?_, dx3.mult1074⟩
      rw [hx2, abs_zero]
      have := two_zpow_pos (-1074)
      linarith
    · have e0 : x2 = j + i - fl (j + i) := by rw [h.e_x2, h.e_x3]
      obtain ⟨w0, w1, w2⟩ := half_err (dj.mult1074.add di.mult1074) (by rw [← e0]; exact hx2)
      rw [← e0] at w2
      rw [← h.e_x3] at w1
      exact ⟨w0, w2, w1⟩
  rw [hB]
  obtain ⟨w, p0, p1, p2, p3⟩ := h0
  obtain ⟨w', q1, q2, q3⟩ := h1
  obtain ⟨w'', r2, r3⟩ := h2
  refine ⟨?_, ?_, ?_⟩
  · intro x hx
    simp only [List.mem_cons, List.not_mem_nil, or_false] at hx
    rcases hx with rfl | rfl | rfl | rfl <;> assumption
  · simp only [List.pairwise_cons, List.mem_cons, List.not_mem_nil, or_false, List.Pairwise.nil, and_true,
      forall_eq_or_imp, forall_eq, false_implies, implies_true]
    exact ⟨⟨half_of_mult p0 p1, half_of_mult p0 p2, half_of_mult p0 p3⟩, ⟨half_of_mult q1 q2, half_of_mult q1 q3⟩,
      half_of_mult r2 r3⟩
  · simp only [List.sum_cons, List.sum_nil]
    linarith

theorem crossExpansion_exp' {a b c d : ℚ} (d1 : IsDouble a) (d2 : IsDouble b) (d3 : IsDouble c) (d4 : IsDouble d)
    (m1 : MultOf (-440) a) (m2 : MultOf (-440) b) (m3 : MultOf (-440) c) (m4 : MultOf (-440) d) :
    Expansion 0 0 (crossExpansion spl a b c d) ∧ (crossExpansion spl a b c d).sum = a * b - c * d ∧
      crossExpansion spl a b c d ≠ [] := by
  obtain ⟨h1, h2, h3⟩ := crossExpansion_exp d1 d2 d3 d4 m1 m2 m3 m4
  refine ⟨exp_of_nonadjacent _ 0 0 h1 h2 ?_, h3, by simp [crossExpansion, twoTwoDiff]⟩
  intro y _ l _
  have := two_zpow_pos l
  rw [abs_zero]
  constructor <;> linarith

theorem laxSum_exp {e f : List ℚ} (n m : Nat) (he : Expansion 0 0 e) (hf : Expansion 0 0 f) (e0 : e ≠ []) (f0 : f ≠ []) :
    ∃ h, laxSum n m e f = .ok h ∧ Expansion 0 0 h ∧ h.sum = e.sum + f.sum ∧ h ≠ [] ∧ ((∀ x ∈ h, x ≠ 0) ∨ h = [0]) := by
  obtain ⟨h, h1, h2⟩ := fastExpansionSum_exp he hf e0 f0
  exact ⟨h, by unfold laxSum; rw [h1], h2⟩

/-- The last stage. -/
theorem ccwLast_lax {acx acy bcx bcy acxt acyt bcxt bcyt : ℚ}
    (d1 : IsDouble acx) (d2 : IsDouble acy) (d3 : IsDouble bcx) (d4 : IsDouble bcy)
    (d5 : IsDouble acxt) (d6 : IsDouble acyt) (d7 : IsDouble bcxt) (d8 : IsDouble bcyt)
    (m1 : MultOf (-440) acx) (m2 : MultOf (-440) acy) (m3 : MultOf (-440) bcx) (m4 : MultOf (-440) bcy)
    (m5 : MultOf (-440) acxt) (m6 : MultOf (-440) acyt) (m7 : MultOf (-440) bcxt) (m8 : MultOf (-440) bcyt) :
    ∃ d, ccwLast laxSum spl (crossExpansion spl acx bcy acy bcx) acx acy bcx bcy acxt acyt bcxt bcyt = .ok d ∧
      SameSign d ((acx + acxt) * (bcy + bcyt) - (acy + acyt) * (bcx + bcxt)) := by
  obtain ⟨b1, b2, b3⟩ := crossExpansion_exp' d1 d4 d2 d3 m1 m4 m2 m3
  obtain ⟨u1, u2, u3⟩ := crossExpansion_exp' d5 d4 d6 d3 m5 m4 m6 m3
  obtain ⟨v1, v2, v3⟩ := crossExpansion_exp' d1 d8 d2 d7 m1 m8 m2 m7
  obtain ⟨w1, w2, w3⟩ := crossExpansion_exp' d5 d8 d6 d7 m5 m8 m6 m7
  obtain ⟨c1, p1, p2, p3, p4, -⟩ := laxSum_exp 4 4 b1 u1 b3 u3
  obtain ⟨c2, q1, q2, q3, q4, -⟩ := laxSum_exp 8 4 p2 v1 p4 v3
  obtain ⟨c3, r1, r2, r3, r4, r5⟩ := laxSum_exp 12 4 q2 w1 q4 w3
  obtain ⟨d, hd, hs⟩ := exp_sign r2 r4 r5
  unfold ccwLast
  rw [p1]
  change ∃ d, (laxSum 8 4 c1 _ >>= _) = _ ∧ _
  rw [q1]
  change ∃ d, (laxSum 12 4 c2 _ >>= _) = _ ∧ _
  rw [r1]
  change ∃ d, (match c3.getLast? with | some d => Outcome.ok d | none => Outcome.ub) = _ ∧ _
  rw [hd]
  refine ⟨d, rfl, ?_⟩
  have : (acx + acxt) * (bcy + bcyt) - (acy + acyt) * (bcx + bcxt) = c3.sum := by
    rw [r3, q3, p3, b2, u2, v2, w2]; ring
  rw [this]; exact hs

theorem tail_double (a b : ℚ) : IsDouble (twoDiffTail a b (fl (a - b))) := by
  unfold twoDiffTail; exact fl_isDouble _

/-- All of `counterclockwise`. -/
theorem ccw_lax (pa pb pc : Pt ℚ) (da : DPt pa) (db : DPt pb) (dc : DPt pc) (ca : Coarse (-440) pa)
    (cb : Coarse (-440) pb) (cc : Coarse (-440) pc) :
    ∃ d, ccw laxSum konst false pa pb pc = .ok d ∧ SameSign d (turn pa pb pc) := by
  rcases ccw_cases laxSum pa pb pc da db dc ca cb cc with h | ⟨-, h⟩
  · exact h
  · rw [h]
    obtain ⟨m1, n1, s1, -⟩ := tail_spec da.1 dc.1 ca.1 cc.1
    obtain ⟨m2, n2, s2, -⟩ := tail_spec db.2 dc.2 cb.2 cc.2
    obtain ⟨m3, n3, s3, -⟩ := tail_spec da.2 dc.2 ca.2 cc.2
    obtain ⟨m4, n4, s4, -⟩ := tail_spec db.1 dc.1 cb.1 cc.1
    have hD : turn pa pb pc = (pa.x - pc.x) * (pb.y - pc.y) - (pa.y - pc.y) * (pb.x - pc.x) := by unfold turn; ring
    have := ccwLast_lax (fl_isDouble (pa.x - pc.x)) (fl_isDouble (pa.y - pc.y)) (fl_isDouble (pb.x - pc.x))
      (fl_isDouble (pb.y - pc.y)) (tail_double pa.x pc.x) (tail_double pa.y pc.y) (tail_double pb.x pc.x)
      (tail_double pb.y pc.y) m1 m3 m4 m2 n1 n3 n4 n2
    rw [← s1, ← s2, ← s3, ← s4, ← hD] at this
    exact this

end Delynoi.Ex
