import Verif.Proofs.ScaleExp2
/-! Expansions with a grid: sums and products stay on it; numbers of components. -/
namespace Delynoi.Ex
set_option linter.unusedVariables false

theorem put_mult {g : Int} {h : List ℚ} {x : ℚ} (hh : ∀ y ∈ h, MultOf g y) (hx : MultOf g x) : ∀ y ∈ put h x, MultOf g y := by
  unfold put
  split_ifs with h0
  · intro y hy
    rcases List.mem_append.1 hy with h | h
    · exact hh y h
    · rw [List.mem_singleton.1 h]; exact hx
  · exact hh

theorem put_length (h : List ℚ) (x : ℚ) : (put h x).length ≤ h.length + 1 := by
  unfold put
  split_ifs <;> simp

theorem twoSum_mult {g : Int} {a b : ℚ} (ha : MultOf g a) (hb : MultOf g b) :
    MultOf g (twoSum a b).1 ∧ MultOf g (twoSum a b).2 := by
  have h1 : MultOf g (fl (a + b)) := (ha.add hb).fl
  have h2 : MultOf g (fl (fl (a + b) - a)) := (h1.sub ha).fl
  have h3 : MultOf g (fl (fl (a + b) - fl (fl (a + b) - a))) := (h1.sub h2).fl
  exact ⟨h1, ((ha.sub h3).fl.add (hb.sub h2).fl).fl⟩

theorem fastTwoSum_mult {g : Int} {a b : ℚ} (ha : MultOf g a) (hb : MultOf g b) :
    MultOf g (fastTwoSum a b).1 ∧ MultOf g (fastTwoSum a b).2 := by
  have h1 : MultOf g (fl (a + b)) := (ha.add hb).fl
  exact ⟨h1, (hb.sub (h1.sub ha).fl).fl⟩

theorem sumLoops_grid {g : Int} : ∀ (n : Nat) (Q : ℚ) (H es fs : List ℚ), es.length + fs.length = n → MultOf g Q →
    (∀ x ∈ H, MultOf g x) → (∀ x ∈ es, MultOf g x) → (∀ x ∈ fs, MultOf g x) →
    MultOf g (sumLoops Q H es fs).1 ∧ (∀ x ∈ (sumLoops Q H es fs).2, MultOf g x) ∧
      (sumLoops Q H es fs).2.length ≤ H.length + n := by
  intro n
  induction n with
  | zero =>
    intro Q H es fs hn hQ hH he hf
    have h1 : es = [] := List.length_eq_zero_iff.1 (by omega)
    have h2 : fs = [] := List.length_eq_zero_iff.1 (by omega)
    subst h1 h2
    rw [sumLoops]
    exact ⟨hQ, hH, le_refl _⟩
  | succ n ih =>
    intro Q H es fs hn hQ hH he hf
    have step : ∀ (x : ℚ) (es fs : List ℚ), es.length + fs.length = n → MultOf g x → (∀ x ∈ es, MultOf g x) → (∀ x ∈ fs, MultOf g x) →
        MultOf g (sumLoops (twoSum Q x).1 (put H (twoSum Q x).2) es fs).1 ∧
        (∀ y ∈ (sumLoops (twoSum Q x).1 (put H (twoSum Q x).2) es fs).2, MultOf g y) ∧
        (sumLoops (twoSum Q x).1 (put H (twoSum Q x).2) es fs).2.length ≤ H.length + (n + 1) := by
      intro x es fs hn hx he hf
      have t := twoSum_mult hQ hx
      obtain ⟨a, b, c⟩ := ih _ _ es fs hn t.1 (put_mult hH t.2) he hf
      have := put_length H (twoSum Q x).2
      exact ⟨a, b, by omega⟩
    cases es with
    | nil =>
      cases fs with
      | nil => simp at hn
      | cons f fs =>
        rw [sumLoops]
        exact step f [] fs (by simpa using hn) (hf f (by simp)) (by simp) fun y hy => hf y (by simp [hy])
    | cons e es =>
      cases fs with
      | nil =>
        rw [sumLoops]
        exact step e es [] (by simpa using hn) (he e (by simp)) (fun y hy => he y (by simp [hy])) (by simp)
      | cons f fs =>
        rw [sumLoops]
        simp only [List.length_cons] at hn
        split_ifs with hc
        · exact step e es (f :: fs) (by simp only [List.length_cons]; omega) (he e (by simp)) (fun y hy => he y (by simp [hy])) hf
        · exact step f (e :: es) fs (by simp only [List.length_cons]; omega) (hf f (by simp)) he fun y hy => hf y (by simp [hy])

theorem sumSecond_grid {g : Int} {Q : ℚ} {es fs : List ℚ} (hQ : MultOf g Q) (he : ∀ x ∈ es, MultOf g x) (hf : ∀ x ∈ fs, MultOf g x) :
    MultOf g (sumSecond Q es fs).1 ∧ (∀ x ∈ (sumSecond Q es fs).2, MultOf g x) ∧
      (sumSecond Q es fs).2.length ≤ es.length + fs.length := by
  cases es with
  | nil =>
    have := sumLoops_grid _ Q [] [] fs rfl hQ (by simp) he hf
    unfold sumSecond
    simpa using this
  | cons e es =>
    cases fs with
    | nil =>
      have := sumLoops_grid _ Q [] (e :: es) [] rfl hQ (by simp) he hf
      unfold sumSecond
      simpa using this
    | cons f fs =>
      have step : ∀ (x : ℚ) (es fs : List ℚ), MultOf g x → (∀ x ∈ es, MultOf g x) → (∀ x ∈ fs, MultOf g x) →
          MultOf g (sumLoops (fastTwoSum x Q).1 (put [] (fastTwoSum x Q).2) es fs).1 ∧
          (∀ y ∈ (sumLoops (fastTwoSum x Q).1 (put [] (fastTwoSum x Q).2) es fs).2, MultOf g y) ∧
          (sumLoops (fastTwoSum x Q).1 (put [] (fastTwoSum x Q).2) es fs).2.length ≤ es.length + fs.length + 1 := by
        intro x es fs hx he hf
        have t := fastTwoSum_mult hx hQ
        obtain ⟨a, b, c⟩ := sumLoops_grid _ _ _ es fs rfl t.1 (put_mult (h := []) (by simp) t.2) he hf
        have := put_length [] (fastTwoSum x Q).2
        simp only [List.length_nil] at this
        exact ⟨a, b, by omega⟩
      unfold sumSecond
      dsimp only
      split_ifs with hc
      · obtain ⟨a, b, c⟩ := step e es (f :: fs) (he e (by simp)) (fun y hy => he y (by simp [hy])) hf
        exact ⟨a, b, by simp only [List.length_cons] at c ⊢; omega⟩
      · obtain ⟨a, b, c⟩ := step f (e :: es) fs (hf f (by simp)) he fun y hy => hf y (by simp [hy])
        exact ⟨a, b, by simp only [List.length_cons] at c ⊢; omega⟩

/-- The components of a sum stay on the grid, and there are not more of them. -/
theorem fastExpansionSum_grid {g : Int} {e f h : List ℚ} (he : ∀ x ∈ e, MultOf g x) (hf : ∀ x ∈ f, MultOf g x)
    (hh : fastExpansionSum e f = some h) : (∀ x ∈ h, MultOf g x) ∧ h.length ≤ e.length + f.length := by
  cases e with
  | nil => simp [fastExpansionSum] at hh
  | cons e0 es =>
    cases f with
    | nil => simp [fastExpansionSum] at hh
    | cons f0 fs =>
      have fin : ∀ r : ℚ × List ℚ, MultOf g r.1 → (∀ x ∈ r.2, MultOf g x) → r.2.length ≤ es.length + fs.length + 1 →
          (if r.1 ≠ 0 ∨ r.2 = [] then r.2 ++ [r.1] else r.2) = h →
          (∀ x ∈ h, MultOf g x) ∧ h.length ≤ (e0 :: es).length + (f0 :: fs).length := by
        intro r h1 h2 h3 h4
        simp only [List.length_cons]
        split_ifs at h4 with hc
        · subst h4
          refine ⟨?_, by rw [List.length_append, List.length_singleton]; omega⟩
          intro y hy
          rcases List.mem_append.1 hy with h | h
          · exact h2 y h
          · rw [List.mem_singleton.1 h]; exact h1
        · subst h4
          exact ⟨h2, by omega⟩
      unfold fastExpansionSum at hh
      dsimp only at hh
      rw [Option.some.injEq] at hh
      by_cases hc : takeE e0 f0 = true
      · rw [if_pos hc] at hh
        obtain ⟨a, b, c⟩ := sumSecond_grid (es := es) (fs := f0 :: fs) (he e0 (by simp)) (fun y hy => he y (by simp [hy])) hf
        exact fin _ a b (by simp only [List.length_cons] at c; omega) hh
      · rw [if_neg hc] at hh
        obtain ⟨a, b, c⟩ := sumSecond_grid (es := e0 :: es) (fs := fs) (hf f0 (by simp)) he (fun y hy => hf y (by simp [hy]))
        exact fin _ a b (by simp only [List.length_cons] at c; omega) hh

theorem scaleLoop_grid {b : ℚ} {A B : Int} (db : IsDouble b) (mb : MultOf B b) (R : Room A B) : ∀ (es : List ℚ) (Q : ℚ) (H : List ℚ),
    MultOf (A + B) Q → (∀ x ∈ H, MultOf (A + B) x) → (∀ x ∈ es, IsDouble x ∧ MultOf A x) →
    MultOf (A + B) (scaleLoop spl b (split spl b).1 (split spl b).2 Q H es).1 ∧
    (∀ x ∈ (scaleLoop spl b (split spl b).1 (split spl b).2 Q H es).2, MultOf (A + B) x) ∧
    (scaleLoop spl b (split spl b).1 (split spl b).2 Q H es).2.length ≤ H.length + 2 * es.length := by
  intro es
  induction es with
  | nil =>
    intro Q H hQ hH _
    exact ⟨hQ, hH, by simp [scaleLoop]⟩
  | cons x xs ih =>
    intro Q H hQ hH he
    rw [scaleLoop, presplit_eq spl x b]
    obtain ⟨dx, mx⟩ := he x (by simp)
    have m1 : MultOf (A + B) (twoProduct spl x b).1 := (mx.mul mb).fl
    have m2 : MultOf (A + B) (twoProduct spl x b).2 := by
      rw [twoProduct_exact dx db mx mb R.a R.b R.ab]
      exact (mx.mul mb).sub (mx.mul mb).fl
    have t := twoSum_mult hQ m2
    have u := fastTwoSum_mult m1 t.1
    obtain ⟨a, c, d⟩ := ih _ _ u.1 (put_mult (put_mult hH t.2) u.2) fun y hy => he y (by simp [hy])
    refine ⟨a, c, d.trans ?_⟩
    have l1 := put_length H (twoSum Q (twoProduct spl x b).2).2
    have l2 := put_length (put H (twoSum Q (twoProduct spl x b).2).2) (fastTwoSum (twoProduct spl x b).1 (twoSum Q (twoProduct spl x b).2).1).2
    simp only [List.length_cons]
    omega

theorem scaleExpansion_grid {e h : List ℚ} {b : ℚ} {A B : Int} (de : ∀ x ∈ e, IsDouble x) (me : ∀ x ∈ e, MultOf A x)
    (db : IsDouble b) (mb : MultOf B b) (R : Room A B) (hh : scaleExpansion spl e b = .ok h) :
    (∀ x ∈ h, MultOf (A + B) x) ∧ h.length ≤ 2 * e.length := by
  cases e with
  | nil => simp [scaleExpansion] at hh
  | cons x xs =>
    have dx := de x (by simp)
    have mx := me x (by simp)
    have m1 : MultOf (A + B) (twoProduct spl x b).1 := (mx.mul mb).fl
    have m2 : MultOf (A + B) (twoProduct spl x b).2 := by
      rw [twoProduct_exact dx db mx mb R.a R.b R.ab]
      exact (mx.mul mb).sub (mx.mul mb).fl
    obtain ⟨a, c, d⟩ := scaleLoop_grid db mb R xs _ _ m1 (put_mult (h := []) (by simp) m2) fun y hy => ⟨de y (by simp [hy]), me y (by simp [hy])⟩
    have l := put_length [] (twoProduct spl x b).2
    unfold scaleExpansion at hh
    dsimp only at hh
    rw [presplit_eq spl x b, Outcome.ok.injEq] at hh
    simp only [List.length_cons, List.length_nil] at l ⊢
    split_ifs at hh with hc
    · subst hh
      refine ⟨?_, by rw [List.length_append, List.length_singleton]; omega⟩
      intro y hy
      rcases List.mem_append.1 hy with h | h
      · exact c y h
      · rw [List.mem_singleton.1 h]; exact a
    · subst hh
      exact ⟨c, by omega⟩

/-- An expansion of `v` on the grid `2 ^ g`. -/
structure Good (g : Int) (v : ℚ) (L : List ℚ) : Prop where
  e : Expansion 0 0 L
  ne : L ≠ []
  sum : L.sum = v
  m : ∀ x ∈ L, MultOf g x

theorem Good.mono {g g' : Int} {v : ℚ} {L : List ℚ} (h : Good g v L) (hg : g' ≤ g) : Good g' v L :=
  ⟨h.e, h.ne, h.sum, fun x hx => (h.m x hx).mono hg⟩

/-- No component zero, or just zero. -/
def Trim (L : List ℚ) : Prop := (∀ x ∈ L, x ≠ 0) ∨ L = [0]

theorem Good.scale {A B : Int} {v b : ℚ} {e : List ℚ} (h : Good A v e) (db : IsDouble b) (mb : MultOf B b) (R : Room A B) :
    ∃ L, scaleExpansion spl e b = .ok L ∧ Good (A + B) (b * v) L ∧ Trim L := by
  obtain ⟨L, h1, h2, h3, h4, h5⟩ := scaleExpansion_exp h.e h.ne h.m db mb R
  exact ⟨L, h1, ⟨h2, h4, by rw [h3, h.sum], (scaleExpansion_grid (exp_double h.e) h.m db mb R h1).1⟩, h5⟩

theorem Good.add {g : Int} {v w : ℚ} {e f : List ℚ} (n m : Nat) (h : Good g v e) (k : Good g w f) :
    ∃ L, laxSum n m e f = .ok L ∧ Good g (v + w) L ∧ Trim L := by
  obtain ⟨L, h1, h2, h3, h4, h5⟩ := fastExpansionSum_exp h.e k.e h.ne k.ne
  refine ⟨L, ?_, ⟨h2, h4, by rw [h3, h.sum, k.sum], (fastExpansionSum_grid h.m k.m h1).1⟩, h5⟩
  unfold laxSum
  rw [h1]

theorem Good.last {g : Int} {v : ℚ} {L : List ℚ} (h : Good g v L) (l : Trim L) : ∃ d, L.getLast? = some d ∧ SameSign d v := by
  have := exp_sign h.e h.ne l
  rwa [h.sum] at this

end Delynoi.Ex
