import Verif.Spec.UniqueList
import Mathlib.Data.List.Basic
import Mathlib.Data.List.Pairwise
/-! Helper lemmas for `UniqueList`. -/
namespace Delynoi
variable {T : Type u} {lt : T → T → Bool} {S : Set T}

namespace SWO
theorem asymm (h : SWO lt S) {a b : T} (ha : a ∈ S) (hb : b ∈ S) (hab : lt a b = true) :
    lt b a = false := by
  by_contra hc
  have hc : lt b a = true := by simpa using hc
  have := h.trans a ha b hb a ha hab hc
  rw [h.irrefl a ha] at this
  exact absurd this (by simp)

/-- `a < b` and `b ~ c` give `a < c`. -/
theorem lt_of_lt_equiv (h : SWO lt S) {a b c : T} (ha : a ∈ S) (hb : b ∈ S) (hc : c ∈ S)
    (hab : lt a b = true) (h1 : lt b c = false) (h2 : lt c b = false) : lt a c = true := by
  by_contra hac
  have hac : lt a c = false := by simpa using hac
  by_cases hca : lt c a = true
  · have := h.trans c hc a ha b hb hca hab
    rw [h2] at this; exact absurd this (by simp)
  · have hca : lt c a = false := by simpa using hca
    have := (h.equivTrans a ha c hc b hb hac hca h2 h1).1
    rw [this] at hab; exact absurd hab (by simp)

theorem lt_of_equiv_lt (h : SWO lt S) {a b c : T} (ha : a ∈ S) (hb : b ∈ S) (hc : c ∈ S)
    (h1 : lt a b = false) (h2 : lt b a = false) (hbc : lt b c = true) : lt a c = true := by
  by_contra hac
  have hac : lt a c = false := by simpa using hac
  by_cases hca : lt c a = true
  · have := h.trans b hb c hc a ha hbc hca
    rw [h2] at this; exact absurd this (by simp)
  · have hca : lt c a = false := by simpa using hca
    have := (h.equivTrans b hb a ha c hc h2 h1 hac hca).1
    rw [this] at hbc; exact absurd hbc (by simp)

theorem equiv_symm {a b : T} (h : Equiv' lt a b) : Equiv' lt b a := ⟨h.2, h.1⟩

theorem equiv_trans (h : SWO lt S) {a b c : T} (ha : a ∈ S) (hb : b ∈ S) (hc : c ∈ S)
    (h1 : Equiv' lt a b) (h2 : Equiv' lt b c) : Equiv' lt a c :=
  h.equivTrans a ha b hb c hc h1.1 h1.2 h2.1 h2.2

theorem mono {S' : Set T} (h : SWO lt S) (hs : ∀ x, x ∈ S' → x ∈ S) : SWO lt S' :=
  ⟨fun a ha => h.irrefl a (hs a ha),
   fun a ha b hb c hc => h.trans a (hs a ha) b (hs b hb) c (hs c hc),
   fun a ha b hb c hc => h.equivTrans a (hs a ha) b (hs b hb) c (hs c hc)⟩
end SWO

namespace SMap
variable {V : Type v}

/-- Sorted association list. -/
def Sorted (lt : T → T → Bool) (m : List (T × V)) : Prop :=
  m.Pairwise (fun a b => lt a.1 b.1 = true)

def KeysIn (S : Set T) (m : List (T × V)) : Prop := ∀ e ∈ m, e.1 ∈ S

theorem mem_insert (m : List (T × V)) (k : T) (v : V) (e : T × V)
    (he : e ∈ insert lt m k v) : e = (k, v) ∨ e ∈ m := by
  induction m with
  | nil => simp [insert] at he; exact Or.inl he
  | cons a m ih =>
    unfold insert at he
    split at he
    · rcases List.mem_cons.1 he with h | h
      · right; simp [h]
      · rcases ih h with h | h
        · exact Or.inl h
        · right; simp [h]
    · split at he
      · rcases List.mem_cons.1 he with h | h
        · exact Or.inl h
        · exact Or.inr h
      · exact Or.inr he

theorem sorted_insert (h : SWO lt S) {m : List (T × V)} {k : T} {v : V}
    (hm : Sorted lt m) (hk : KeysIn S m) (hkS : k ∈ S) : Sorted lt (insert lt m k v) := by
  induction m with
  | nil => simp [insert, Sorted]
  | cons a m ih =>
    have hm' := List.pairwise_cons.1 hm
    have haS : a.1 ∈ S := hk a (by simp)
    have hk' : KeysIn S m := fun e he => hk e (by simp [he])
    unfold insert
    split
    · rename_i hlt
      refine List.pairwise_cons.2 ⟨?_, ih hm'.2 hk'⟩
      intro e he
      rcases mem_insert m k v e he with rfl | he
      · exact hlt
      · exact hm'.1 e he
    · split
      · rename_i hlt
        refine List.pairwise_cons.2 ⟨?_, hm⟩
        intro e he
        rcases List.mem_cons.1 he with rfl | he
        · exact hlt
        · exact h.trans k hkS a.1 haS e.1 (hk' e he) hlt (hm'.1 e he)
      · exact hm

theorem keysIn_insert {m : List (T × V)} {k : T} {v : V} (hk : KeysIn S m) (hkS : k ∈ S) :
    KeysIn S (insert lt m k v) := by
  intro e he
  rcases mem_insert m k v e he with rfl | he
  · exact hkS
  · exact hk e he

/-- Inserting a key with no equivalent adds exactly that pair. -/
theorem mem_insert_fresh {m : List (T × V)} {k : T} {v : V}
    (hf : ∀ e ∈ m, ¬ Equiv' lt e.1 k) (e : T × V) :
    e ∈ insert lt m k v ↔ e = (k, v) ∨ e ∈ m := by
  constructor
  · exact mem_insert m k v e
  · induction m with
    | nil => simp [insert]
    | cons a m ih =>
      intro he
      have ih := ih (fun e he => hf e (by simp [he]))
      unfold insert
      split
      · rcases he with he | he
        · exact List.mem_cons_of_mem _ (ih (Or.inl he))
        · rcases List.mem_cons.1 he with rfl | he
          · simp
          · exact List.mem_cons_of_mem _ (ih (Or.inr he))
      · split
        · rcases he with he | he
          · simp [he]
          · exact List.mem_cons_of_mem _ he
        · rename_i h1 h2
          exact absurd ⟨by simpa using h1, by simpa using h2⟩ (hf a (by simp))

theorem find_some_iff (h : SWO lt S) {m : List (T × V)} {k : T} {v : V}
    (hm : Sorted lt m) (hk : KeysIn S m) (hkS : k ∈ S) :
    find lt m k = some v ↔ ∃ e ∈ m, Equiv' lt e.1 k ∧ e.2 = v := by
  induction m with
  | nil => simp [find]
  | cons a m ih =>
    have hm' := List.pairwise_cons.1 hm
    have haS : a.1 ∈ S := hk a (by simp)
    have hk' : KeysIn S m := fun e he => hk e (by simp [he])
    have ih := ih hm'.2 hk'
    unfold find
    split
    · rename_i hlt
      rw [ih]
      constructor
      · rintro ⟨e, he, h1⟩; exact ⟨e, by simp [he], h1⟩
      · rintro ⟨e, he, h1, h2⟩
        rcases List.mem_cons.1 he with rfl | he
        · rw [h1.1] at hlt; exact absurd hlt (by simp)
        · exact ⟨e, he, h1, h2⟩
    · split
      · rename_i hn hlt
        simp only [reduceCtorEq, false_iff]
        rintro ⟨e, he, h1, h2⟩
        rcases List.mem_cons.1 he with rfl | he
        · rw [h1.2] at hlt; exact absurd hlt (by simp)
        · have := h.trans k hkS a.1 haS e.1 (hk' e he) hlt (hm'.1 e he)
          rw [h1.2] at this; exact absurd this (by simp)
      · rename_i hn1 hn2
        have hn1 : lt a.1 k = false := by simpa using hn1
        have hn2 : lt k a.1 = false := by simpa using hn2
        constructor
        · intro hv
          exact ⟨a, by simp, ⟨hn1, hn2⟩, by simpa using hv⟩
        · rintro ⟨e, he, h1, h2⟩
          rcases List.mem_cons.1 he with rfl | he
          · simp [h2]
          · have := h.lt_of_equiv_lt hkS haS (hk' e he) hn2 hn1 (hm'.1 e he)
            rw [h1.2] at this; exact absurd this (by simp)

theorem find_none_iff (h : SWO lt S) {m : List (T × V)} {k : T}
    (hm : Sorted lt m) (hk : KeysIn S m) (hkS : k ∈ S) :
    find lt m k = none ↔ ∀ e ∈ m, ¬ Equiv' lt e.1 k := by
  rw [Option.eq_none_iff_forall_ne_some]
  constructor
  · intro hn e he hq
    exact hn e.2 ((find_some_iff h hm hk hkS).2 ⟨e, he, hq, rfl⟩)
  · intro hn v hv
    obtain ⟨e, he, hq, _⟩ := (find_some_iff h hm hk hkS).1 hv
    exact hn e he hq

end SMap

namespace UList
open SMap

/-- Representation invariant: the map is sorted and is the inverse of the vector. -/
structure Inv (lt : T → T → Bool) (S : Set T) (u : UList T) : Prop where
  inS : ∀ x ∈ u.list, x ∈ S
  sorted : Sorted lt u.map
  pairs : ∀ k i, (k, i) ∈ u.map ↔ u.list[i]? = some k

theorem inv_empty : Inv lt S (empty : UList T) :=
  ⟨by simp [empty], by simp [empty, Sorted], by simp [empty]⟩

theorem Inv.keysIn {u : UList T} (hi : Inv lt S u) : KeysIn S u.map := by
  intro e he
  have := (hi.pairs e.1 e.2).1 he
  exact hi.inS _ (List.mem_of_getElem? this)

theorem Inv.mem_iff {u : UList T} (hi : Inv lt S u) (x : T) :
    x ∈ u.list ↔ ∃ e ∈ u.map, e.1 = x := by
  constructor
  · intro hx
    obtain ⟨i, hi'⟩ := List.mem_iff_getElem?.1 hx
    exact ⟨(x, i), (hi.pairs x i).2 hi', rfl⟩
  · rintro ⟨e, he, rfl⟩
    exact List.mem_of_getElem? ((hi.pairs e.1 e.2).1 he)

theorem Inv.nodup (_h : SWO lt S) {u : UList T} (hi : Inv lt S u) : NoDup lt u.list := by
  unfold NoDup
  rw [List.pairwise_iff_getElem]
  intro i j hi' hj' hij hq
  have h1 : (u.list[i], i) ∈ u.map := (hi.pairs _ _).2 (List.getElem?_eq_getElem hi')
  have h2 : (u.list[j], j) ∈ u.map := (hi.pairs _ _).2 (List.getElem?_eq_getElem hj')
  have hs := hi.sorted
  unfold Sorted at hs
  have hne : (u.list[i], i) ≠ (u.list[j], j) := by
    intro hc; have := (Prod.mk.injEq _ _ _ _ ▸ hc).2; omega
  obtain ⟨a, ha, hae⟩ := List.mem_iff_getElem.1 h1
  obtain ⟨b, hb, hbe⟩ := List.mem_iff_getElem.1 h2
  rcases Nat.lt_trichotomy a b with hab | hab | hab
  · have := List.pairwise_iff_getElem.1 hs a b ha hb hab
    rw [hae, hbe] at this
    simp only at this
    rw [hq.1] at this; exact absurd this (by simp)
  · subst hab; rw [hae] at hbe; exact hne hbe
  · have := List.pairwise_iff_getElem.1 hs b a hb ha hab
    rw [hae, hbe] at this
    simp only at this
    rw [hq.2] at this; exact absurd this (by simp)

/-- What the prefix before `upper_bound` looks like. -/
theorem upperBound_split (h : SWO lt S) {V : Type v} {m : List (T × V)} {x : T}
    (hm : Sorted lt m) (hk : KeysIn S m) (hx : x ∈ S) :
    (∀ e ∈ m.take (upperBound lt m x), lt x e.1 = false) ∧
    (∀ e ∈ m.drop (upperBound lt m x), lt x e.1 = true) := by
  induction m with
  | nil => simp
  | cons a m ih =>
    have hm' := List.pairwise_cons.1 hm
    have haS : a.1 ∈ S := hk a (by simp)
    have hk' : KeysIn S m := fun e he => hk e (by simp [he])
    have ih := ih hm'.2 hk'
    unfold upperBound at *
    rw [List.findIdx_cons]
    by_cases hlt : lt x a.1 = true
    · simp only [hlt, cond_true, List.take_zero, List.drop_zero]
      refine ⟨by simp, ?_⟩
      intro e he
      rcases List.mem_cons.1 he with rfl | he
      · exact hlt
      · exact h.trans x hx a.1 haS e.1 (hk' e he) hlt (hm'.1 e he)
    · have hlt : lt x a.1 = false := by simpa using hlt
      simp only [hlt, cond_false, List.take_succ_cons, List.drop_succ_cons]
      refine ⟨?_, ih.2⟩
      intro e he
      rcases List.mem_cons.1 he with rfl | he
      · exact hlt
      · exact ih.1 e he

/-- Decision made by `push_back`. -/
theorem pushBack_cases (h : SWO lt S) {u : UList T} {x : T} (hi : Inv lt S u) (hx : x ∈ S) :
    ((∀ y ∈ u.list, ¬ Equiv' lt y x) ∧
      pushBack lt u x = (⟨u.list ++ [x], SMap.insert lt u.map x u.list.length⟩, u.list.length))
    ∨ (∃ y i, u.list[i]? = some y ∧ Equiv' lt y x ∧ pushBack lt u x = (u, i)) := by
  obtain ⟨hpre, hpost⟩ := upperBound_split h hi.sorted hi.keysIn hx
  set j := upperBound lt u.map x with hj
  have hsplit : u.map.take j ++ u.map.drop j = u.map := List.take_append_drop _ _
  have hmemsplit : ∀ e ∈ u.map, e ∈ u.map.take j ∨ e ∈ u.map.drop j := by
    intro e he; rw [← hsplit] at he; exact List.mem_append.1 he
  unfold pushBack
  simp only [← hj]
  cases hl : (u.map.take j).getLast? with
  | none =>
    left
    refine ⟨?_, by simp⟩
    have htk : u.map.take j = [] := List.getLast?_eq_none_iff.1 hl
    intro y hy hq
    obtain ⟨e, he, rfl⟩ := (hi.mem_iff y).1 hy
    rcases hmemsplit e he with h1 | h1
    · rw [htk] at h1; simp at h1
    · have := hpost e h1
      rw [hq.2] at this; exact absurd this (by simp)
  | some e =>
    have heT : e ∈ u.map.take j := List.mem_of_getLast? hl
    have heM : e ∈ u.map := List.mem_of_mem_take heT
    have heS := hi.keysIn e heM
    simp only
    by_cases hlt : lt e.1 x = true
    · left
      refine ⟨?_, by simp [hlt]⟩
      intro y hy hq
      obtain ⟨f, hf, rfl⟩ := (hi.mem_iff y).1 hy
      rcases hmemsplit f hf with h1 | h1
      · -- f is before or equal e in the sorted prefix
        obtain ⟨l, hl'⟩ := List.getLast?_eq_some_iff.1 hl
        have hs : Sorted lt (u.map.take j) := hi.sorted.sublist (List.take_sublist _ _)
        rw [hl'] at hs h1
        rcases List.mem_append.1 h1 with h2 | h2
        · have hfe := (List.pairwise_append.1 hs).2.2 f h2 e (by simp)
          have := h.trans f.1 (hi.keysIn f hf) e.1 heS x hx hfe hlt
          rw [hq.1] at this; exact absurd this (by simp)
        · have : f = e := by simpa using h2
          subst this
          rw [hq.1] at hlt; exact absurd hlt (by simp)
      · have := hpost f h1
        rw [hq.2] at this; exact absurd this (by simp)
    · right
      refine ⟨e.1, e.2, (hi.pairs e.1 e.2).1 heM, ⟨by simpa using hlt, hpre e heT⟩, ?_⟩
      simp [hlt]

theorem inv_append {u : UList T} {x : T} (h : SWO lt S) (hi : Inv lt S u) (hx : x ∈ S)
    (hf : ∀ y ∈ u.list, ¬ Equiv' lt y x) :
    Inv lt S ⟨u.list ++ [x], SMap.insert lt u.map x u.list.length⟩ := by
  refine ⟨?_, sorted_insert h hi.sorted hi.keysIn hx, ?_⟩
  · intro y hy
    rcases List.mem_append.1 hy with hy | hy
    · exact hi.inS y hy
    · have : y = x := by simpa using hy
      rw [this]; exact hx
  · intro k i
    simp only
    rw [mem_insert_fresh (fun e he => hf e.1 ((hi.mem_iff _).2 ⟨e, he, rfl⟩)), hi.pairs]
    rw [List.getElem?_append]
    constructor
    · rintro (h1 | h1)
      · have h2 := (Prod.mk.injEq _ _ _ _ ▸ h1)
        rw [h2.1, h2.2]; simp
      · obtain ⟨hlt, _⟩ := List.getElem?_eq_some_iff.1 h1
        rw [if_pos hlt]; exact h1
    · split
      · intro h1; exact Or.inr h1
      · rename_i hge
        intro h1
        left
        rw [List.getElem?_singleton] at h1
        split at h1
        · rename_i h0
          have : i = u.list.length := by omega
          simp at h1; simp [this, h1]
        · simp at h1

theorem inv_pushBack {u : UList T} {x : T} (h : SWO lt S) (hi : Inv lt S u) (hx : x ∈ S) :
    Inv lt S (pushBack lt u x).1 := by
  rcases pushBack_cases h hi hx with ⟨hf, he⟩ | ⟨y, i, _, _, he⟩
  · rw [he]; exact inv_append h hi hx hf
  · rw [he]; exact hi

theorem pushBack_list {u : UList T} {x : T} (h : SWO lt S) (hi : Inv lt S u) (hx : x ∈ S) :
    (pushBack lt u x).1.list = specPush lt u.list x := by
  unfold specPush
  rcases pushBack_cases h hi hx with ⟨hf, he⟩ | ⟨y, i, hy, hq, he⟩
  · rw [he, if_neg]
    rintro ⟨y, hy, hq⟩; exact hf y hy hq
  · rw [he, if_pos ⟨y, List.mem_of_getElem? hy, hq⟩]

theorem inv_pushList {xs : List T} : ∀ {u : UList T}, SWO lt S → Inv lt S u → (∀ x ∈ xs, x ∈ S) →
    Inv lt S (pushList lt u xs).1 ∧ (pushList lt u xs).1.list = xs.foldl (specPush lt) u.list := by
  induction xs with
  | nil => intro u h hi _; exact ⟨hi, rfl⟩
  | cons x xs ih =>
    intro u h hi hx
    have hxS := hx x (by simp)
    have h1 := inv_pushBack h hi hxS
    have := ih h h1 (fun y hy => hx y (by simp [hy]))
    refine ⟨this.1, ?_⟩
    show (pushList lt (pushBack lt u x).1 xs).1.list = _
    rw [this.2, pushBack_list h hi hxS]; rfl

/-- Refilling the map from a duplicate-free vector. -/
theorem reindex_inv (h : SWO lt S) : ∀ (l p : List T) (m : List (T × Nat)),
    Inv lt S ⟨p, m⟩ → (∀ x ∈ l, x ∈ S) → NoDup lt (p ++ l) →
    Inv lt S ⟨p ++ l, reindex lt l p.length m⟩ := by
  intro l
  induction l with
  | nil => intro p m hi _ _; simpa [reindex] using hi
  | cons e l ih =>
    intro p m hi hS hn
    have hp := List.pairwise_append.1 hn
    have h1 : Inv lt S ⟨p ++ [e], SMap.insert lt m e p.length⟩ :=
      inv_append h hi (hS e (by simp)) (fun y hy => hp.2.2 y hy e (by simp))
    have := ih (p ++ [e]) _ h1 (fun x hx => hS x (by simp [hx])) (by simpa using hn)
    simpa [reindex] using this

theorem contains_iff (h : SWO lt S) {u : UList T} {x : T} (hi : Inv lt S u) (hx : x ∈ S) :
    contains lt u x = true ↔ ∃ y ∈ u.list, Equiv' lt y x := by
  unfold contains
  rw [Option.isSome_iff_exists]
  constructor
  · rintro ⟨v, hv⟩
    obtain ⟨e, he, hq, _⟩ := (find_some_iff h hi.sorted hi.keysIn hx).1 hv
    exact ⟨e.1, (hi.mem_iff _).2 ⟨e, he, rfl⟩, hq⟩
  · rintro ⟨y, hy, hq⟩
    obtain ⟨e, he, rfl⟩ := (hi.mem_iff y).1 hy
    exact ⟨e.2, (find_some_iff h hi.sorted hi.keysIn hx).2 ⟨e, he, hq, rfl⟩⟩

theorem delete_cases (h : SWO lt S) {u : UList T} {x : T} (hi : Inv lt S u) (hx : x ∈ S) :
    ((∀ y ∈ u.list, ¬ Equiv' lt y x) ∧ deleteElement lt u x = u) ∨
    (∃ y i, u.list[i]? = some y ∧ Equiv' lt y x ∧
      deleteElement lt u x = ⟨u.list.eraseIdx i, reindex lt (u.list.eraseIdx i) 0 []⟩) := by
  unfold deleteElement
  by_cases hc : contains lt u x = true
  · right
    obtain ⟨v, hv⟩ := Option.isSome_iff_exists.1 (by simpa [contains] using hc)
    obtain ⟨e, he, hq, hev⟩ := (find_some_iff h hi.sorted hi.keysIn hx).1 hv
    refine ⟨e.1, e.2, (hi.pairs _ _).1 he, hq, ?_⟩
    rw [if_pos hc, hv, hev]
  · left
    refine ⟨?_, by rw [if_neg hc]⟩
    intro y hy hq
    exact hc ((contains_iff h hi hx).2 ⟨y, hy, hq⟩)

theorem eraseIdx_eq_filter {p : T → Bool} : ∀ {l : List T} {i : Nat} {y : T},
    l[i]? = some y → p y = false → (∀ j z, l[j]? = some z → j ≠ i → p z = true) →
    l.eraseIdx i = l.filter p := by
  intro l
  induction l with
  | nil => intro i y h1; simp at h1
  | cons a l ih =>
    intro i y h1 h2 h3
    cases i with
    | zero =>
      simp at h1; subst h1
      have : l.filter p = l := by
        rw [List.filter_eq_self]
        intro z hz
        obtain ⟨j, hj⟩ := List.mem_iff_getElem?.1 hz
        exact h3 (j + 1) z (by simpa using hj) (by omega)
      simp [h2, this]
    | succ i =>
      have ha : p a = true := h3 0 a (by simp) (by omega)
      have := ih (i := i) (y := y) (by simpa using h1) h2
        (fun j z hj hne => h3 (j + 1) z (by simpa using hj) (by omega))
      simp [ha, this]

theorem inv_delete (h : SWO lt S) {u : UList T} {x : T} (hi : Inv lt S u) (hx : x ∈ S) :
    Inv lt S (deleteElement lt u x) ∧ (deleteElement lt u x).list = specDelete lt u.list x := by
  have hn := hi.nodup h
  rcases delete_cases h hi hx with ⟨hf, he⟩ | ⟨y, i, hy, hq, he⟩
  · rw [he]
    refine ⟨hi, ?_⟩
    unfold specDelete
    symm
    rw [List.filter_eq_self]
    intro z hz
    simpa using hf z hz
  · rw [he]
    have hsub := List.eraseIdx_sublist u.list i
    refine ⟨?_, ?_⟩
    · have := reindex_inv h (u.list.eraseIdx i) [] [] inv_empty
        (fun z hz => hi.inS z (hsub.subset hz)) (by simpa [NoDup] using hn.sublist hsub)
      simpa using this
    · unfold specDelete
      refine eraseIdx_eq_filter hy (by simpa using hq) ?_
      intro j z hj hne
      obtain ⟨hil, hie⟩ := List.getElem?_eq_some_iff.1 hy
      obtain ⟨hjl, hje⟩ := List.getElem?_eq_some_iff.1 hj
      have hzS : z ∈ S := hi.inS z (List.mem_of_getElem? hj)
      have hyS : y ∈ S := hi.inS y (List.mem_of_getElem? hy)
      simp only [decide_eq_true_eq]
      intro hzx
      have hzy := h.equiv_trans hzS hx hyS hzx (SWO.equiv_symm hq)
      rcases Nat.lt_or_gt_of_ne hne with hlt | hlt
      · have := List.pairwise_iff_getElem.1 hn j i hjl hil hlt
        rw [hje, hie] at this; exact this hzy
      · have := List.pairwise_iff_getElem.1 hn i j hil hjl hlt
        rw [hje, hie] at this; exact this (SWO.equiv_symm hzy)

theorem inv_step (h : SWO lt S) {u : UList T} (hi : Inv lt S u) (op : Op T) (ho : OpIn S op) :
    Inv lt S (step lt u op) ∧ (step lt u op).list = specStep lt u.list op := by
  cases op with
  | push x => exact ⟨inv_pushBack h hi ho, pushBack_list h hi ho⟩
  | pushAll xs => exact inv_pushList h hi ho
  | delete x => exact inv_delete h hi ho
  | clear => exact ⟨inv_empty, rfl⟩

theorem inv_run_aux (h : SWO lt S) (ops : List (Op T)) : ∀ (u : UList T), Inv lt S u →
    (∀ o ∈ ops, OpIn S o) →
    Inv lt S (ops.foldl (step lt) u) ∧
      (ops.foldl (step lt) u).list = ops.foldl (specStep lt) u.list := by
  induction ops with
  | nil => intro u hi _; exact ⟨hi, rfl⟩
  | cons o ops ih =>
    intro u hi ho
    have h1 := inv_step h hi o (ho o (by simp))
    have h2 := ih (step lt u o) h1.1 (fun o' ho' => ho o' (by simp [ho']))
    refine ⟨h2.1, ?_⟩
    rw [List.foldl_cons, List.foldl_cons, h2.2, h1.2]

theorem inv_run (h : SWO lt S) (ops : List (Op T)) (ho : ∀ o ∈ ops, OpIn S o) :
    Inv lt S (run lt ops) := (inv_run_aux h ops empty inv_empty ho).1

theorem run_list (h : SWO lt S) (ops : List (Op T)) (ho : ∀ o ∈ ops, OpIn S o) :
    (run lt ops).list = specRun lt ops := (inv_run_aux h ops empty inv_empty ho).2

end UList
end Delynoi
