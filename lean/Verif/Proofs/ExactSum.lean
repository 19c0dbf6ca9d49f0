import Verif.Proofs.ExactIncircle
import Mathlib.Algebra.BigOperators.Group.List.Lemmas
/-!
# The constants, and the value of `fast_expansion_sum_zeroelim`
-/
set_option linter.unusedSectionVars false
namespace Delynoi.Ex

theorem initLoop_mono : ∀ (f g : Nat) (s t : Init), f ≤ g → initLoop f s = some t → initLoop g s = some t := by
  intro f
  induction f with
  | zero => intro g s t _ h; exact absurd h (by simp [initLoop])
  | succ f ih =>
    intro g s t hg h
    obtain ⟨g, rfl⟩ : ∃ g', g = g' + 1 := ⟨g - 1, by omega⟩
    unfold initLoop at h ⊢
    dsimp only at h ⊢
    split_ifs at h ⊢ <;> first | exact h | exact ih g _ _ (by omega) h

theorem exactinit_mono {f g : Nat} {k : Consts} (h : f ≤ g) (hk : exactinit f = some k) : exactinit g = some k := by
  unfold exactinit at *
  rw [Option.map_eq_some_iff] at *
  obtain ⟨s, hs, e⟩ := hk
  exact ⟨s, initLoop_mono f g _ _ h hs, e⟩

/-- The constants do not depend on how long one waits for them. -/
theorem exactinit_konst {f : Nat} {k : Consts} (h : exactinit f = some k) : k = konst := by
  have h1 := exactinit_mono (le_max_left f 54) h
  have h2 := exactinit_mono (le_max_right f 54) exactinit_eq
  rw [h1] at h2
  exact Option.some.inj h2

theorem takeE_true {e f : ℚ} (h : takeE e f = true) : |e| ≤ |f| := by
  unfold takeE at h
  rw [beq_iff_eq, decide_eq_decide] at h
  by_cases h1 : f > e
  · have h2 := h.1 h1
    rw [abs_le]
    have := le_abs_self f
    constructor <;> linarith
  · have h2 : ¬f > -e := fun h' => h1 (h.2 h')
    push Not at h1 h2
    rw [abs_le]
    have := neg_le_abs f
    constructor <;> linarith

theorem takeE_false {e f : ℚ} (h : takeE e f = false) : |f| ≤ |e| := by
  unfold takeE at h
  rw [beq_eq_false_iff_ne, ne_eq, decide_eq_decide] at h
  by_cases h1 : f > e
  · have h2 : ¬f > -e := fun h' => h ⟨fun _ => h', fun _ => h1⟩
    push Not at h2
    rw [abs_le]
    have := neg_le_abs e
    constructor <;> linarith
  · have h2 : f > -e := by
      by_contra h2; exact h ⟨fun h' => absurd h' h1, fun h' => absurd h' h2⟩
    push Not at h1
    rw [abs_le]
    have := le_abs_self e
    constructor <;> linarith

theorem put_sum (h : List ℚ) (x : ℚ) : (put h x).sum = h.sum + x := by
  unfold put
  split_ifs with hx
  · simp
  · push Not at hx; simp [hx]

theorem put_double {h : List ℚ} {x : ℚ} (hh : ∀ y ∈ h, IsDouble y) (hx : IsDouble x) : ∀ y ∈ put h x, IsDouble y := by
  unfold put
  split_ifs
  · intro y hy
    rcases List.mem_append.1 hy with h' | h'
    · exact hh y h'
    · rw [List.mem_singleton.1 h']; exact hx
  · exact hh

theorem twoSum_fst (a b : ℚ) : (twoSum a b).1 = fl (a + b) := rfl

theorem twoSum_add {a b : ℚ} (ha : IsDouble a) (hb : IsDouble b) : (twoSum a b).1 + (twoSum a b).2 = a + b := by
  rw [twoSum_exact ha hb, twoSum_fst]; ring

theorem twoSum_double {a b : ℚ} (ha : IsDouble a) (hb : IsDouble b) :
    IsDouble (twoSum a b).1 ∧ IsDouble (twoSum a b).2 := by
  rw [twoSum_exact ha hb]
  exact ⟨fl_isDouble _, isDouble_add_err ha hb⟩

/-- The loops keep the sum. -/
theorem sumLoops_sum : ∀ (n : Nat) (Q : ℚ) (h es fs : List ℚ), es.length + fs.length = n → IsDouble Q →
    (∀ x ∈ h, IsDouble x) → (∀ x ∈ es, IsDouble x) → (∀ x ∈ fs, IsDouble x) →
    (sumLoops Q h es fs).2.sum + (sumLoops Q h es fs).1 = h.sum + Q + es.sum + fs.sum ∧
    IsDouble (sumLoops Q h es fs).1 ∧ ∀ x ∈ (sumLoops Q h es fs).2, IsDouble x := by
  intro n
  induction n with
  | zero =>
    intro Q h es fs hn hQ hh _ _
    obtain rfl : es = [] := List.eq_nil_of_length_eq_zero (by omega)
    obtain rfl : fs = [] := List.eq_nil_of_length_eq_zero (by omega)
    rw [sumLoops]
    exact ⟨by simp, hQ, hh⟩
  | succ n ih =>
    intro Q h es fs hn hQ hh he hf
    have stepE : ∀ (e : ℚ) (es' gs : List ℚ), es'.length + gs.length = n → IsDouble e → (∀ x ∈ es', IsDouble x) →
        (∀ x ∈ gs, IsDouble x) →
        (sumLoops (twoSum Q e).1 (put h (twoSum Q e).2) es' gs).2.sum + (sumLoops (twoSum Q e).1 (put h (twoSum Q e).2) es' gs).1 =
          h.sum + Q + e + es'.sum + gs.sum ∧
        IsDouble (sumLoops (twoSum Q e).1 (put h (twoSum Q e).2) es' gs).1 ∧
        ∀ x ∈ (sumLoops (twoSum Q e).1 (put h (twoSum Q e).2) es' gs).2, IsDouble x := by
      intro e es' gs hl hd h1 h2
      obtain ⟨d1, d2⟩ := twoSum_double hQ hd
      obtain ⟨s1, s2, s3⟩ := ih (twoSum Q e).1 (put h (twoSum Q e).2) es' gs hl d1 (put_double hh d2) h1 h2
      refine ⟨?_, s2, s3⟩
      rw [s1, put_sum]
      have := twoSum_add hQ hd
      linarith
    cases es with
    | nil =>
      cases fs with
      | nil => simp at hn
      | cons f fs =>
        rw [sumLoops]
        have := stepE f [] fs (by simpa using hn) (hf f (by simp)) (by simp) (fun x hx => hf x (by simp [hx]))
        refine ⟨?_, this.2⟩
        rw [this.1]; simp; ring
    | cons e es =>
      cases fs with
      | nil =>
        rw [sumLoops]
        have := stepE e es [] (by simpa using hn) (he e (by simp)) (fun x hx => he x (by simp [hx])) (by simp)
        refine ⟨?_, this.2⟩
        rw [this.1]; simp; ring
      | cons f fs =>
        rw [sumLoops]
        simp only [List.length_cons] at hn
        split_ifs with ht
        · have := stepE e es (f :: fs) (by simp; omega) (he e (by simp)) (fun x hx => he x (by simp [hx])) hf
          refine ⟨?_, this.2⟩
          rw [this.1]; simp; ring
        · have := stepE f (e :: es) fs (by simp; omega) (hf f (by simp)) he (fun x hx => hf x (by simp [hx]))
          refine ⟨?_, this.2⟩
          rw [this.1]; simp; ring

theorem fast_ok {a b : ℚ} (ha : IsDouble a) (hb : IsDouble b) (h : a = 0 ∨ |b| ≤ |a|) :
    (fastTwoSum a b).1 + (fastTwoSum a b).2 = a + b ∧ IsDouble (fastTwoSum a b).1 ∧ IsDouble (fastTwoSum a b).2 := by
  have h1 : (fastTwoSum a b).2 = a + b - fl (a + b) := by
    rcases h with rfl | h
    · exact fastTwoSum_exact_zero hb
    · exact fastTwoSum_exact ha hb h
  have h0 : (fastTwoSum a b).1 = fl (a + b) := rfl
  rw [h1, h0]
  exact ⟨by ring, fl_isDouble _, isDouble_add_err ha hb⟩

theorem sumSecond_sum (Q : ℚ) (es fs : List ℚ) (hQ : IsDouble Q) (he : ∀ x ∈ es, IsDouble x) (hf : ∀ x ∈ fs, IsDouble x)
    (re : ∀ a as, es = a :: as → a = 0 ∨ |Q| ≤ |a|) (rf : ∀ a as, fs = a :: as → a = 0 ∨ |Q| ≤ |a|) :
    (sumSecond Q es fs).2.sum + (sumSecond Q es fs).1 = Q + es.sum + fs.sum ∧
    IsDouble (sumSecond Q es fs).1 ∧ ∀ x ∈ (sumSecond Q es fs).2, IsDouble x := by
  have base : ∀ es fs, (∀ x ∈ es, IsDouble x) → (∀ x ∈ fs, IsDouble x) →
      (sumLoops Q [] es fs).2.sum + (sumLoops Q [] es fs).1 = Q + es.sum + fs.sum ∧
      IsDouble (sumLoops Q [] es fs).1 ∧ ∀ x ∈ (sumLoops Q [] es fs).2, IsDouble x := by
    intro es fs he hf
    have := sumLoops_sum _ Q [] es fs rfl hQ (by simp) he hf
    refine ⟨?_, this.2⟩
    rw [this.1]; simp
  cases es with
  | nil => rw [sumSecond]; exacts [base _ _ he hf, by simp]
  | cons e es =>
    cases fs with
    | nil => rw [sumSecond]; exacts [base _ _ he hf, by simp]
    | cons f fs =>
      have hee := he e (by simp)
      have hff := hf f (by simp)
      rw [sumSecond]
      split_ifs with ht
      · obtain ⟨f1, f2, f3⟩ := fast_ok hee hQ (re e es rfl)
        have := sumLoops_sum _ (fastTwoSum e Q).1 (put [] (fastTwoSum e Q).2) es (f :: fs) rfl f2
          (put_double (by simp) f3) (fun x hx => he x (by simp [hx])) hf
        refine ⟨?_, this.2⟩
        rw [this.1, put_sum]; simp; linarith
      · obtain ⟨f1, f2, f3⟩ := fast_ok hff hQ (rf f fs rfl)
        have := sumLoops_sum _ (fastTwoSum f Q).1 (put [] (fastTwoSum f Q).2) (e :: es) fs rfl f2
          (put_double (by simp) f3) he (fun x hx => hf x (by simp [hx]))
        refine ⟨?_, this.2⟩
        rw [this.1, put_sum]; simp; linarith

/-- The sum of expansions has the sum of the values. -/
theorem fastExpansionSum_sum {e f : List ℚ} (he : ∀ x ∈ e, IsDouble x) (hf : ∀ x ∈ f, IsDouble x) (e0 : e ≠ []) (f0 : f ≠ [])
    (re : Rising e) (rf : Rising f) :
    ∃ h, fastExpansionSum e f = some h ∧ h.sum = e.sum + f.sum ∧ ∀ x ∈ h, IsDouble x := by
  cases e with
  | nil => exact absurd rfl e0
  | cons a as =>
  cases f with
  | nil => exact absurd rfl f0
  | cons b bs =>
    unfold fastExpansionSum
    dsimp only
    refine ⟨_, rfl, ?_⟩
    have key : ∀ r : ℚ × List ℚ, (r.2.sum + r.1 = (a :: as).sum + (b :: bs).sum ∧ IsDouble r.1 ∧ ∀ x ∈ r.2, IsDouble x) →
        (if r.1 ≠ 0 ∨ r.2 = [] then r.2 ++ [r.1] else r.2).sum = (a :: as).sum + (b :: bs).sum ∧
        ∀ x ∈ (if r.1 ≠ 0 ∨ r.2 = [] then r.2 ++ [r.1] else r.2), IsDouble x := by
      rintro ⟨q, l⟩ ⟨h1, h2, h3⟩
      dsimp only at *
      split_ifs with hc
      · refine ⟨by rw [← h1]; simp, ?_⟩
        intro x hx
        rcases List.mem_append.1 hx with h' | h'
        · exact h3 x h'
        · rw [List.mem_singleton.1 h']; exact h2
      · push Not at hc
        refine ⟨?_, h3⟩
        rw [← h1, hc.1, add_zero]
    apply key
    split_ifs with ht
    · have := sumSecond_sum a as (b :: bs) (he a (by simp)) (fun x hx => he x (by simp [hx])) hf
        (by rintro c cs rfl; exact re) (by
          intro c cs hc
          rw [List.cons.injEq] at hc
          rw [← hc.1]
          exact Or.inr (takeE_true ht))
      refine ⟨?_, this.2⟩
      rw [this.1]; simp
    · have := sumSecond_sum b (a :: as) bs (hf b (by simp)) he (fun x hx => hf x (by simp [hx]))
        (by
          intro c cs hc
          rw [List.cons.injEq] at hc
          rw [← hc.1]
          exact Or.inr (takeE_false (by simpa using ht))) (by rintro c cs rfl; exact rf)
      refine ⟨?_, this.2⟩
      rw [this.1]; simp; ring

/-- Undefined behaviour of the sum with the arrays of `counterclockwiseadapt`. -/
theorem strictSum_full {ce cf : Nat} {e f : List ℚ} (h : ce ≤ e.length ∨ cf ≤ f.length) : strictSum ce cf e f = .ub := by
  unfold strictSum fastExpansionSumAt
  rw [if_neg (by omega)]

theorem crossExpansion_length (s a b c d : ℚ) : (crossExpansion s a b c d).length = 4 := rfl

theorem ccwLast_ub (s : ℚ) (B : List ℚ) (x1 x2 x3 x4 x5 x6 x7 x8 : ℚ) :
    ccwLast strictSum s B x1 x2 x3 x4 x5 x6 x7 x8 = .ub := by
  unfold ccwLast
  rw [strictSum_full (Or.inr (by rw [crossExpansion_length]))]
  rfl

end Delynoi.Ex
