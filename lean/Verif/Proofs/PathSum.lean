import Mathlib.Data.List.NodupEquivFin
import Verif.Proofs.CellPath
/-!
Helper lemmas: paths of indices that do not return, and sums along paths.
-/
set_option linter.unusedSectionVars false
namespace Delynoi
variable {K : Type} [Field K] [LinearOrder K] [IsStrictOrderedRing K]

theorem dropRepeats_sublist : ∀ (l : List Int), (dropRepeats l).Sublist l := by
  intro l
  induction l with
  | nil => exact List.Sublist.refl _
  | cons a l ih =>
    cases l with
    | nil => exact List.Sublist.refl _
    | cons b l =>
      rw [dropRepeats_cons2]
      split
      · exact ih.cons _
      · exact ih.cons_cons _

/-- Neighbours in the list without repetitions are different. -/
theorem dropRepeats_adj : ∀ (l : List Int) (i : Nat) (a b : Int), (dropRepeats l)[i]? = some a →
    (dropRepeats l)[i + 1]? = some b → a ≠ b := by
  intro l
  induction l with
  | nil => intro i a b h; simp [dropRepeats] at h
  | cons x l ih =>
    cases l with
    | nil => intro i a b _ h; simp [dropRepeats] at h
    | cons y l =>
      intro i a b
      rw [dropRepeats_cons2]
      split
      · exact ih i a b
      · rename_i hxy
        intro h1 h2
        cases i with
        | succ i => exact ih i a b (by simpa using h1) (by simpa using h2)
        | zero =>
          have hd := dropRepeats_head (y :: l)
          rw [List.head?_eq_getElem?, List.head?_cons] at hd
          simp only [List.getElem?_cons_zero, Option.some.injEq, Nat.zero_add,
            List.getElem?_cons_succ] at h1 h2
          rw [hd] at h2
          rw [← h1, ← Option.some.inj h2]; exact hxy

/-- A list in which equal entries are equal in between, or outside. -/
def Returns (l : List Int) : Prop :=
  ∀ p q v, p < q → l[p]? = some v → l[q]? = some v →
    (∀ s, p ≤ s → s ≤ q → l[s]? = some v) ∨
    ((∀ s ≤ p, l[s]? = some v) ∧ ∀ s, q ≤ s → s < l.length → l[s]? = some v)

theorem Returns.sublist {l l' : List Int} (h : Returns l) (hs : l'.Sublist l) : Returns l' := by
  obtain ⟨f, hf⟩ := List.sublist_iff_exists_orderEmbedding_getElem?_eq.1 hs
  intro p q v hpq h1 h2
  rw [hf] at h1 h2
  rcases h (f p) (f q) v (f.strictMono hpq) h1 h2 with h3 | ⟨h3, h4⟩
  · exact Or.inl fun s hs hs' => by rw [hf]; exact h3 _ (f.monotone hs) (f.monotone hs')
  · refine Or.inr ⟨fun s hs => by rw [hf]; exact h3 _ (f.monotone hs), fun s hs hs' => ?_⟩
    rw [hf]
    refine h4 _ (f.monotone hs) ?_
    have := hf s
    rw [List.getElem?_eq_getElem hs'] at this
    exact (List.getElem?_eq_some_iff.1 this.symm).1

theorem returns_tail_nodup {l : List Int} (h : Returns l) : (dropRepeats l).tail.Nodup := by
  have hD := h.sublist (dropRepeats_sublist l)
  have hadj := dropRepeats_adj l
  rw [List.nodup_iff_getElem?_ne_getElem?]
  intro p q hpq hq heq
  simp only [List.getElem?_tail] at heq
  rw [List.length_tail] at hq
  have hq' : q + 1 < (dropRepeats l).length := by omega
  have e2 := List.getElem?_eq_getElem hq'
  rw [e2] at heq
  rcases hD (p + 1) (q + 1) _ (by omega) heq e2 with h3 | ⟨h3, _⟩
  · exact hadj (p + 1) _ _ heq (h3 (p + 2) (by omega) (by omega)) rfl
  · exact hadj p _ _ (h3 p (by omega)) heq rfl

/-- Equal entries are equal in between. -/
theorem between_nodup {l : List Int} (h : ∀ (p q : Nat) (v : Int), p < q → l[p]? = some v → l[q]? = some v →
    ∀ s, p ≤ s → s ≤ q → l[s]? = some v) : (dropRepeats l).Nodup := by
  obtain ⟨f, hf⟩ := List.sublist_iff_exists_orderEmbedding_getElem?_eq.1 (dropRepeats_sublist l)
  have hadj := dropRepeats_adj l
  rw [List.nodup_iff_getElem?_ne_getElem?]
  intro p q hpq hq heq
  have e2 := List.getElem?_eq_getElem hq
  rw [e2] at heq
  have h1 := hf p
  have h2 := hf q
  rw [heq] at h1
  rw [e2] at h2
  have h3 := h (f p) (f q) _ (f.strictMono hpq) h1.symm h2.symm (f (p + 1)) (f.monotone (by omega))
    (f.monotone (by omega))
  rw [← hf] at h3
  exact hadj p _ _ heq h3 rfl

/-- Sum of `g` along the hops of a path. -/
def pathSum (g : Int → Int → K) (l : List Int) : K := ((l.zip l.tail).map (fun e => g e.1 e.2)).sum

theorem pathSum_cons2 (g : Int → Int → K) (a b : Int) (l : List Int) :
    pathSum g (a :: b :: l) = g a b + pathSum g (b :: l) := by
  simp [pathSum]

theorem pathSum_dropRepeats (g : Int → Int → K) (hg : ∀ a, g a a = 0) :
    ∀ (l : List Int), pathSum g (dropRepeats l) = pathSum g l := by
  intro l
  induction l with
  | nil => rfl
  | cons a l ih =>
    cases l with
    | nil => rfl
    | cons b l =>
      rw [dropRepeats_cons2, pathSum_cons2]
      split
      · rename_i h
        rw [ih, h, hg, zero_add]
      · have h := dropRepeats_head (b :: l)
        cases hd : dropRepeats (b :: l) with
        | nil => rw [hd] at h; simp at h
        | cons c D =>
          rw [hd] at h; simp at h; subst h
          rw [pathSum_cons2, ← hd, ih]

/-- Sum of `g` over the sides of a polygon. -/
def cycSum (g : Int → Int → K) (l : List Int) : K := ((cycPairs l).map (fun e => g e.1 e.2)).sum

/-- A closed path that does not return has the sum of its polygon. -/
theorem cycSum_closed (g : Int → Int → K) (hg : ∀ a, g a a = 0) {idx : List Int} {c : Int}
    (h1 : idx.head? = some c) (h2 : idx.getLast? = some c) (hn : (dropRepeats idx).tail.Nodup) :
    cycSum g (firsts idx) = pathSum g idx := by
  rw [← pathSum_dropRepeats g hg, ← firsts_dropRepeats]
  rw [← dropRepeats_head] at h1
  rw [← dropRepeats_last] at h2
  generalize dropRepeats idx = D at *
  cases D with
  | nil => simp at h1
  | cons x T =>
    simp at h1; subst h1
    simp only [List.tail_cons] at hn
    rcases List.eq_nil_or_concat' T with rfl | ⟨T', z, rfl⟩
    · have : firsts [x] = [x] := rfl
      rw [this]
      simp [cycSum, pathSum, cycPairs, hg]
    · have hz : z = x := by
        rw [← List.cons_append, List.getLast?_append] at h2
        simpa using h2
      subst hz
      have hn' := List.nodup_append.1 hn
      have hz : z ∉ T' := fun hz => hn'.2.2 z hz z (by simp) rfl
      have hn2 : (z :: T').Nodup := List.nodup_cons.2 ⟨hz, hn'.1⟩
      have hf : firsts (z :: (T' ++ [z])) = z :: T' := by
        rw [← List.cons_append, firsts_append, firsts_nodup hn2]
        exact addNew_mem (by simp)
      rw [hf]
      obtain ⟨w, hw⟩ : ∃ w, (z :: T').getLast? = some w := ⟨_, List.getLast?_eq_some_getLast (by simp)⟩
      unfold cycSum pathSum
      rw [cycPairs_zip (a := z) (z := w) rfl hw, ← List.cons_append, zip_tail_snoc _ w z hw]

/-- An open path that does not return, closed by its last hop. -/
theorem cycSum_open (g : Int → Int → K) (hg : ∀ a, g a a = 0) {idx : List Int} {a z : Int}
    (h1 : idx.head? = some a) (h2 : idx.getLast? = some z) (hn : (dropRepeats idx).Nodup) :
    cycSum g (firsts idx) = pathSum g idx + g z a := by
  rw [← pathSum_dropRepeats g hg, ← firsts_dropRepeats, firsts_nodup hn]
  rw [← dropRepeats_head] at h1
  rw [← dropRepeats_last] at h2
  unfold cycSum pathSum
  rw [cycPairs_zip h1 h2, List.map_append, List.sum_append]
  simp

theorem cycSum_reverse (g : Int → Int → K) (hg : ∀ a b, g a b = -g b a) (l : List Int) :
    cycSum g l.reverse = -cycSum g l := by
  unfold cycSum
  have hp := (cycPairs_reverse_perm l).map (fun e : Int × Int => g e.1 e.2)
  rw [hp.sum_eq, List.map_map]
  have : ((fun e : Int × Int => g e.1 e.2) ∘ Prod.swap) = fun e : Int × Int => -g e.1 e.2 := by
    funext e; simp only [Function.comp, Prod.fst_swap, Prod.snd_swap]; rw [hg]
  rw [this]
  have hs : ∀ L : List (Int × Int), (L.map (fun e : Int × Int => -g e.1 e.2)).sum =
      -(L.map (fun e : Int × Int => g e.1 e.2)).sum := by
    intro L
    induction L with
    | nil => simp
    | cons x L ih => rw [List.map_cons, List.sum_cons, ih, List.map_cons, List.sum_cons, neg_add]
  exact hs _

end Delynoi
