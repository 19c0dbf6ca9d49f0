import Verif.Proofs.ScaleExp
/-! Scaling an expansion: the loop. -/
namespace Delynoi.Ex
set_option linter.unusedVariables false

/-- Room below: no product underflows. -/
structure Room (A B : Int) : Prop where
  a : -1022 ≤ A
  b : -1022 ≤ B
  ab : -970 ≤ A + B

theorem presplit_eq (s a b : ℚ) : twoProductPresplit s a b (split s b).1 (split s b).2 = twoProduct s a b := rfl

theorem Sc.init (b : ℚ) (β : Int) : Sc b β 0 0 0 0 0 where
  sum := by simp
  dQ := isDouble_zero
  small := by simp
  j := by
    intro l _ _
    have := two_zpow_pos (l + β)
    refine ⟨l + β, le_refl _, MultOf.zero, by rw [abs_zero]; exact this, Or.inl ?_⟩
    rw [abs_zero]; linarith

/-- What the loop ends with, from the state. -/
theorem Sc.done {b Q σ hl S p : ℚ} {β : Int} {H : List ℚ} (st : Sc b β Q σ hl S p) (o : Out H σ hl) : Done (Q, H) (b * S) := by
  obtain ⟨l, h1, h2⟩ : ∃ l : Int, |S| < 3 / 4 * (2 : ℚ) ^ l ∧ |p| < (2 : ℚ) ^ l := by
    have hS := lt_log S
    have hp := lt_log p
    have h1 := two_zpow_mono (le_max_left (Int.log 2 |S| + 1) (Int.log 2 |p| + 1))
    have h2 := two_zpow_mono (le_max_right (Int.log 2 |S| + 1) (Int.log 2 |p| + 1))
    refine ⟨max (Int.log 2 |S| + 1) (Int.log 2 |p| + 1) + 1, ?_, ?_⟩
    · rw [two_zpow_succ]; have := two_zpow_pos (max (Int.log 2 |S| + 1) (Int.log 2 |p| + 1)); linarith
    · rw [two_zpow_succ]; have := two_zpow_pos (max (Int.log 2 |S| + 1) (Int.log 2 |p| + 1)); linarith
  obtain ⟨w, -, m, hh, hs⟩ := st.j l h1 h2
  refine ⟨st.dQ, σ, hl, w, o, m, ?_, hh, st.sum⟩
  have := two_zpow_pos w
  rcases hs with h | h
  · linarith
  · exact h.1

/-- The loop. -/
theorem scaleLoop_exp {b : ℚ} {β A B : Int} (hb : Factor b β) (mb : MultOf B b) (R : Room A B) :
    ∀ (es : List ℚ) (Q σ hl S p : ℚ) (H : List ℚ), (∀ x ∈ es, MultOf A x) → Expansion S p es → Sc b β Q σ hl S p →
      Out H σ hl → Done (scaleLoop spl b (split spl b).1 (split spl b).2 Q H es) (b * (S + es.sum)) := by
  intro es
  induction es with
  | nil =>
    intro Q σ hl S p H _ _ st o
    simp only [scaleLoop, List.sum_nil, add_zero]
    exact st.done o
  | cons e es ih =>
    intro Q σ hl S p H me ex st o
    simp only [scaleLoop]
    rw [presplit_eq]
    have hme := me e (by simp)
    have me' : ∀ x ∈ es, MultOf A x := fun x hx => me x (by simp [hx])
    have de : IsDouble e := ex.1
    have e1 : (twoProduct spl e b).1 = fl (e * b) := rfl
    have e2 := twoProduct_exact de hb.d hme mb R.a R.b R.ab
    have dt : IsDouble (e * b - fl (e * b)) := by rw [← e2]; exact fl_isDouble _
    rw [e1, e2]
    rcases ex.2 with ⟨z, ex'⟩ | ⟨l, he, hp, hS, ex'⟩
    · subst z
      have z1 : (0 : ℚ) * b - fl (0 * b) = 0 := by rw [zero_mul, fl_zero, sub_zero]
      have z2 : twoSum Q 0 = (Q, 0) := by
        refine Prod.ext ?_ ?_
        · rw [twoSum_fst, add_zero, fl_of_double st.dQ]
        · rw [twoSum_exact st.dQ isDouble_zero, add_zero, fl_of_double st.dQ, sub_self]
      have z3 : fastTwoSum 0 Q = (Q, 0) := by
        refine Prod.ext ?_ ?_
        · change fl (0 + Q) = Q; rw [zero_add, fl_of_double st.dQ]
        · rw [fastTwoSum_exact_zero st.dQ, zero_add, fl_of_double st.dQ, sub_self]
      have z4 : ∀ h : List ℚ, put h 0 = h := by intro h; simp [put]
      rw [z1, z2, zero_mul, fl_zero]
      dsimp only
      rw [z3]
      dsimp only
      rw [z4, z4, List.sum_cons, zero_add]
      exact ih Q σ hl S p H me' ex' st o
    · have hl' : -1074 ≤ l + β := by
        have := he.le hme
        have := hb.lsb.le mb
        have := R.ab
        omega
      have P := prod_of hb he de hl' dt
      obtain ⟨o1, o2, sT, st'⟩ := scale_step hb he de st hS hp P _ _ _ rfl rfl rfl _ rfl
      have f1 : (twoSum Q (e * b - fl (e * b))).1 = fl (Q + (e * b - fl (e * b))) := rfl
      rw [twoSum_exact st.dQ dt, f1]
      rw [fastTwoSum_exact P.dT (fl_isDouble _) sT]
      have o' := (o.put (isDouble_add_err st.dQ dt) o1).put (isDouble_add_err P.dT (fl_isDouble _)) o2
      have := ih _ _ _ _ _ _ me' ex' st' o'
      rw [List.sum_cons, ← add_assoc]
      exact this

theorem put_nil_zero : put [] 0 = [] := by simp [put]

/-- The first component is taken like the others. -/
theorem scaleExpansion_eq {x b : ℚ} {xs : List ℚ} {A B : Int} (dx : IsDouble x) (db : IsDouble b) (mx' : MultOf A x) (mb : MultOf B b)
    (R : Room A B) : scaleExpansion spl (x :: xs) b =
      .ok (if (scaleLoop spl b (split spl b).1 (split spl b).2 0 [] (x :: xs)).1 ≠ 0 ∨
          (scaleLoop spl b (split spl b).1 (split spl b).2 0 [] (x :: xs)).2 = [] then
        (scaleLoop spl b (split spl b).1 (split spl b).2 0 [] (x :: xs)).2 ++
          [(scaleLoop spl b (split spl b).1 (split spl b).2 0 [] (x :: xs)).1]
        else (scaleLoop spl b (split spl b).1 (split spl b).2 0 [] (x :: xs)).2) := by
  have e2 := twoProduct_exact dx db mx' mb R.a R.b R.ab
  have dt : IsDouble (twoProduct spl x b).2 := fl_isDouble _
  have dT : IsDouble (twoProduct spl x b).1 := fl_isDouble _
  have e1 : (twoProduct spl x b).1 = fl (x * b) := rfl
  have hs : (twoProduct spl x b).1 + (twoProduct spl x b).2 = x * b := by
    rw [e2, e1]; ring
  have hf : fl ((twoProduct spl x b).1 + (twoProduct spl x b).2) = (twoProduct spl x b).1 := by rw [hs, e1]
  have mx : MultOf (-1074) (x * b) := (mx'.mul mb).mono (by have := R.ab; omega)
  have hle : |(twoProduct spl x b).2| ≤ |(twoProduct spl x b).1| := by
    rw [e2, e1, abs_sub_comm]
    refine mx.rel.2.trans ?_
    have := abs_nonneg (fl (x * b))
    rw [uRnd_eq]; linarith
  have hq : fastTwoSum (twoProduct spl x b).1 (twoProduct spl x b).2 = twoProduct spl x b := by
    refine Prod.ext ?_ ?_
    · exact hf
    · rw [fastTwoSum_exact dT dt hle, hf]; ring
  have hL : scaleLoop spl b (split spl b).1 (split spl b).2 0 [] (x :: xs) =
      scaleLoop spl b (split spl b).1 (split spl b).2 (twoProduct spl x b).1 (put [] (twoProduct spl x b).2) xs := by
    rw [scaleLoop, presplit_eq spl x b, twoSum_zero dt]
    dsimp only
    rw [hq, put_nil_zero]
  rw [hL]
  rfl

/-- Scaling an expansion: the result is an expansion, its sum is the product. -/
theorem scaleExpansion_exp {e : List ℚ} {b : ℚ} {A B : Int} (he : Expansion 0 0 e) (e0 : e ≠ []) (me : ∀ x ∈ e, MultOf A x)
    (db : IsDouble b) (mb : MultOf B b) (R : Room A B) :
    ∃ h, scaleExpansion spl e b = .ok h ∧ Expansion 0 0 h ∧ h.sum = b * e.sum ∧ h ≠ [] ∧ ((∀ x ∈ h, x ≠ 0) ∨ h = [0]) := by
  have de := exp_double he
  have hd : ∃ r, Done r (b * e.sum) ∧ scaleExpansion spl e b = .ok (if r.1 ≠ 0 ∨ r.2 = [] then r.2 ++ [r.1] else r.2) := by
    by_cases hb0 : b = 0
    · subst hb0
      have hp : ∀ x ∈ e, twoProduct spl x 0 = (0, 0) := by
        intro x hx
        refine Prod.ext ?_ ?_
        · change fl (x * 0) = 0; rw [mul_zero, fl_zero]
        · rw [twoProduct_exact (de x hx) isDouble_zero (me x hx) mb R.a R.b R.ab, mul_zero, fl_zero, sub_zero]
      have hloop : ∀ es : List ℚ, (∀ x ∈ es, twoProduct spl x 0 = (0, 0)) →
          scaleLoop spl 0 (split spl 0).1 (split spl 0).2 0 [] es = (0, []) := by
        intro es
        induction es with
        | nil => intro _; rfl
        | cons x xs ih =>
          intro h
          simp only [scaleLoop]
          rw [presplit_eq, h x (by simp), twoSum_zero isDouble_zero]
          dsimp only
          have : fastTwoSum 0 0 = (0, 0) := by
            refine Prod.ext ?_ ?_
            · change fl (0 + 0) = 0; rw [add_zero, fl_zero]
            · rw [fastTwoSum_exact_zero isDouble_zero, add_zero, fl_zero, sub_zero]
          rw [this]
          dsimp only
          rw [put_nil_zero, put_nil_zero]
          exact ih fun y hy => h y (by simp [hy])
      refine ⟨(0, []), ⟨isDouble_zero, 0, 0, 0, ⟨trivial, by simp, rfl, rfl⟩, MultOf.zero, by simp, by simp, by simp⟩, ?_⟩
      cases e with
      | nil => exact absurd rfl e0
      | cons x xs =>
        unfold scaleExpansion
        dsimp only
        rw [presplit_eq, hp x (by simp)]
        dsimp only
        rw [put_nil_zero, hloop xs fun y hy => hp y (by simp [hy])]
    · obtain ⟨β, -, hβ⟩ := exists_lsb mb hb0
      have hb : Factor b β := ⟨hβ, db⟩
      have := scaleLoop_exp hb mb R e 0 0 0 0 0 [] me he (Sc.init b β) ⟨trivial, by simp, rfl, rfl⟩
      rw [zero_add] at this
      refine ⟨_, this, ?_⟩
      cases e with
      | nil => exact absurd rfl e0
      | cons x xs => exact scaleExpansion_eq (de x (by simp)) db (me x (by simp)) mb R
  obtain ⟨⟨Q, H⟩, ⟨dQ, σ, hl, q, o, mq, q1, q2, hs⟩, hr⟩ := hd
  refine ⟨_, hr, ?_⟩
  dsimp only at *
  have hsum : H.sum + Q = b * e.sum := by rw [o.s]; linarith
  by_cases hQ : Q = 0
  · subst hQ
    by_cases hH : H = []
    · subst hH
      rw [if_pos (by simp)]
      refine ⟨⟨isDouble_zero, Or.inl ⟨rfl, trivial⟩⟩, ?_, by simp, Or.inr rfl⟩
      rw [← hsum]; simp
    · rw [if_neg (by simp [hH])]
      exact ⟨o.e, by linarith, hH, Or.inl o.z⟩
  · rw [if_pos (Or.inl hQ)]
    have := o.put dQ fun _ => ⟨q, mq, q1, q2⟩
    unfold put at this
    rw [if_pos hQ] at this
    exact ⟨this.e, by rw [List.sum_append, ← hsum]; simp, by simp, Or.inl this.z⟩

end Delynoi.Ex
