import Verif.Model.Text
import Verif.Spec.Text
import Mathlib.Tactic.Ring
import Mathlib.Tactic.Linarith
import Mathlib.Tactic.NormNum
import Mathlib.Tactic.Positivity
import Mathlib.Tactic.FieldSimp
import Mathlib.Data.List.TakeWhile
/-!
# Lemmas about text
-/
namespace Delynoi

/-! ### Characters -/

theorem isSpace_iff (c : Char) : isSpace c = true ↔ White c := by
  unfold isSpace White
  simp [or_assoc]

theorem isDigit_not_space {c : Char} (h : c.isDigit = true) : isSpace c = false := by
  rw [← Bool.not_eq_true]
  intro hs
  rw [isSpace_iff] at hs
  rcases hs with rfl | rfl | rfl | rfl | rfl | rfl <;> exact absurd h (by decide)

theorem takeWhile_split {α : Type} (p : α → Bool) (ds r : List α) (hd : ∀ c ∈ ds, p c = true)
    (hr : ∀ c, r.head? = some c → p c = false) :
    (ds ++ r).takeWhile p = ds ∧ (ds ++ r).dropWhile p = r := by
  induction ds with
  | nil =>
    cases r with
    | nil => simp
    | cons c r =>
      have := hr c rfl
      simp [List.takeWhile_cons, List.dropWhile_cons, this]
  | cons c ds ih =>
    have h1 := hd c (by simp)
    have h2 := ih (fun c hc => hd c (by simp [hc]))
    simp [List.takeWhile_cons, List.dropWhile_cons, h1, h2.1, h2.2]

theorem takeWhile_all {α : Type} (p : α → Bool) (ds : List α) (hd : ∀ c ∈ ds, p c = true) :
    ds.takeWhile p = ds ∧ ds.dropWhile p = [] := by
  have := takeWhile_split p ds [] hd (by simp)
  simpa using this

theorem dropWhile_head {α : Type} (p : α → Bool) (s : List α) (c : α) (r : List α)
    (h : s.dropWhile p = c :: r) : p c = false := by
  have := List.head?_dropWhile_not p s
  rw [h] at this
  simpa using this

/-! ### Splitting -/

theorem words_pieces : ∀ (fuel : Nat) (s : List Char), s.length < fuel →
    Words s ((pieces fuel s).filter (fun t => !t.isEmpty)) := by
  intro fuel
  induction fuel with
  | zero => intro s h; omega
  | succ fuel ih =>
    intro s hs
    unfold pieces
    have hsplit := List.takeWhile_append_dropWhile (p := fun c => !isSpace c) (l := s)
    have htake : ∀ c ∈ s.takeWhile (fun c => !isSpace c), ¬ White c := by
      intro c hc
      have := List.mem_takeWhile_imp hc
      rw [← isSpace_iff]; simpa using this
    cases hd : s.dropWhile (fun c => !isSpace c) with
    | nil =>
      simp only
      rw [hd, List.append_nil] at hsplit
      rw [hsplit] at htake
      cases s with
      | nil => exact Words.nil [] (by simp)
      | cons a s =>
        have := Words.cons [] (a :: s) [] [] (by simp) (by simp) htake (by simp) (Words.nil [] (by simp))
        simpa using this
    | cons c rest =>
      simp only
      have hc : isSpace c = true := by
        have := dropWhile_head _ _ _ _ hd
        simpa using this
      rw [hd] at hsplit
      have hl : rest.length < s.length := by
        rw [← hsplit]; simp; omega
      have hl2 : (rest.dropWhile isSpace).length ≤ rest.length := List.length_dropWhile_le _ _
      have hw := ih (rest.dropWhile isSpace) (by omega)
      -- the spaces in front may be added
      have hsp : ∀ pre s ts, (∀ c ∈ pre, White c) → Words s ts → Words (pre ++ s) ts := by
        intro pre s ts hp h
        cases h with
        | nil s h => exact Words.nil _ (by
            intro c hc
            rcases List.mem_append.1 hc with h' | h'
            · exact hp c h'
            · exact h c h')
        | cons pre' t rest ts h1 h2 h3 h4 h5 =>
          have := Words.cons (pre ++ pre') t rest ts (by
            intro c hc
            rcases List.mem_append.1 hc with h' | h'
            · exact hp c h'
            · exact h1 c h') h2 h3 h4 h5
          simpa using this
      have hw2 : Words (c :: rest) ((pieces fuel (rest.dropWhile isSpace)).filter (fun t => !t.isEmpty)) := by
        have := hsp (c :: rest.takeWhile isSpace) _ _ (by
          intro d hd
          rcases List.mem_cons.1 hd with rfl | hd
          · exact (isSpace_iff _).1 hc
          · exact (isSpace_iff _).1 (List.mem_takeWhile_imp hd)) hw
        simpa [List.takeWhile_append_dropWhile] using this
      cases ht : s.takeWhile (fun c => !isSpace c) with
      | nil =>
        rw [ht] at hsplit
        simp only [List.nil_append] at hsplit
        rw [← hsplit, List.filter_cons_of_neg (by simp)]
        exact hw2
      | cons a t =>
        rw [List.filter_cons_of_pos (by simp)]
        have := Words.cons [] (a :: t) (c :: rest) _ (by simp) (by simp) (by rw [ht] at htake; exact htake)
          (by simp; exact (isSpace_iff _).1 hc) hw2
        rw [ht] at hsplit
        rw [← hsplit]
        simpa using this

theorem words_unique {s : List Char} {ts us : List (List Char)} (h1 : Words s ts)
    (h2 : Words s us) : ts = us := by
  induction h1 generalizing us with
  | nil s hs =>
    cases h2 with
    | nil => rfl
    | cons pre t rest us hp ht hw hr h =>
      obtain ⟨a, ha⟩ := List.exists_mem_of_ne_nil t ht
      exact absurd (hs a (by simp [ha])) (hw a ha)
  | cons pre t rest ts hp ht hw hr h ih =>
    generalize hs : pre ++ t ++ rest = s at h2
    cases h2 with
    | nil s hs' =>
      subst hs
      obtain ⟨a, ha⟩ := List.exists_mem_of_ne_nil t ht
      exact absurd (hs' a (by simp [ha])) (hw a ha)
    | cons pre' t' rest' us hp' ht' hw' hr' h' =>
      -- the prefix of spaces is determined
      have key : ∀ (p q : List Char), (∀ c ∈ p, White c) → q ≠ [] →
          (∀ c, q.head? = some c → ¬ White c) →
          (p ++ q).takeWhile isSpace = p ∧ (p ++ q).dropWhile isSpace = q := by
        intro p q h1 h2 h3
        refine takeWhile_split isSpace p q (fun c hc => (isSpace_iff c).2 (h1 c hc)) ?_
        intro c hc
        rw [← Bool.not_eq_true, isSpace_iff]; exact h3 c hc
      have hd : ∀ (t rest : List Char), t ≠ [] → (∀ c ∈ t, ¬ White c) →
          ∀ c, (t ++ rest).head? = some c → ¬ White c := by
        intro t rest h1 h2 c hc
        cases t with
        | nil => exact absurd rfl h1
        | cons a t =>
          simp at hc; subst hc; exact h2 _ (by simp)
      have k1 := key pre (t ++ rest) hp (by simp [ht]) (hd t rest ht hw)
      have k2 := key pre' (t' ++ rest') hp' (by simp [ht']) (hd t' rest' ht' hw')
      rw [← List.append_assoc, hs] at k1
      rw [← List.append_assoc] at k2
      have e1 : t ++ rest = t' ++ rest' := k1.2.symm.trans k2.2
      have key2 : ∀ (t rest : List Char), (∀ c ∈ t, ¬ White c) →
          (∀ c, rest.head? = some c → White c) →
          (t ++ rest).takeWhile (fun c => !isSpace c) = t ∧
          (t ++ rest).dropWhile (fun c => !isSpace c) = rest := by
        intro t rest h1 h2
        refine takeWhile_split _ t rest ?_ ?_
        · intro c hc
          have := h1 c hc
          rw [← isSpace_iff] at this; simpa using this
        · intro c hc
          have := (isSpace_iff c).2 (h2 c hc)
          simp [this]
      have l1 := key2 t rest hw hr
      have l2 := key2 t' rest' hw' hr'
      rw [e1] at l1
      have et : t = t' := l1.1.symm.trans l2.1
      have er : rest = rest' := l1.2.symm.trans l2.2
      subst et; subst er
      rw [ih h']

theorem splitBySpaces_words (s : List Char) : Words s (splitBySpaces s) :=
  words_pieces (s.length + 1) s (by omega)

theorem splitBySpaces_eq {s : List Char} {ts : List (List Char)} (h : Words s ts) :
    splitBySpaces s = ts := words_unique (splitBySpaces_words s) h

theorem words_unwords (ts : List (List Char)) (h1 : ∀ t ∈ ts, t ≠ [])
    (h2 : ∀ t ∈ ts, ∀ c ∈ t, ¬ White c) : Words (unwords ts) ts := by
  -- with a space in front
  have key : ∀ ts : List (List Char), (∀ t ∈ ts, t ≠ []) → (∀ t ∈ ts, ∀ c ∈ t, ¬ White c) →
      Words (ts.flatMap (fun t => ' ' :: t)) ts := by
    intro ts
    induction ts with
    | nil => intro _ _; exact Words.nil [] (by simp)
    | cons t ts ih =>
      intro h1 h2
      have := Words.cons [' '] t (ts.flatMap (fun t => ' ' :: t)) ts (by simp [White])
        (h1 t (by simp)) (h2 t (by simp)) (by
          intro c hc
          cases ts with
          | nil => simp at hc
          | cons u us => simp at hc; subst hc; simp [White])
        (ih (fun t ht => h1 t (by simp [ht])) (fun t ht => h2 t (by simp [ht])))
      simpa using this
  have e : ∀ (t : List Char) (ts : List (List Char)),
      unwords (t :: ts) = t ++ ts.flatMap (fun t => ' ' :: t) := by
    intro t ts
    induction ts generalizing t with
    | nil => simp [unwords]
    | cons u us ih =>
      have hm : unwords (t :: u :: us) = t ++ ' ' :: unwords (u :: us) := rfl
      rw [hm, ih]; simp
  cases ts with
  | nil => exact Words.nil [] (by simp)
  | cons t ts =>
    rw [e]
    have := Words.cons [] t (ts.flatMap (fun t => ' ' :: t)) ts (by simp)
        (h1 t (by simp)) (h2 t (by simp)) (by
          intro c hc
          cases ts with
          | nil => simp at hc
          | cons u us => simp at hc; subst hc; simp [White])
        (key ts (fun t ht => h1 t (by simp [ht])) (fun t ht => h2 t (by simp [ht])))
    simpa using this

/-! ### Lines -/

theorem getline_line (l r old : List Char) (hl : IsLine l) :
    IStream.getline ⟨l ++ '\n' :: r, false⟩ old = (⟨r, false⟩, l) := by
  unfold IStream.getline
  have := takeWhile_split (fun c => c != '\n') l ('\n' :: r) (by
    intro c hc
    have : c ≠ '\n' := fun h => hl (h ▸ hc)
    simpa using this) (by simp)
  simp only [this.1, this.2]
  simp

theorem unlines_cons (l : List Char) (ls : List (List Char)) :
    unlines (l :: ls) = l ++ '\n' :: unlines ls := by
  simp [unlines]

theorem unlines_append (a b : List (List Char)) : unlines (a ++ b) = unlines a ++ unlines b := by
  simp [unlines]

end Delynoi
