import Verif.Proofs.UniqueList
/-!
# Properties C01-C07: the duplicate-free list behind every mesh

`S` is the set of elements that are ever used; the C++ standard requires the comparator to be
a strict weak order on it (`SWO`).  C09 says when that is the case for points.
-/
namespace Delynoi
open UList
variable {T : Type u} {lt : T → T → Bool} {S : Set T}

/-- Natural numbers with the usual order: the hypotheses are satisfiable. -/
theorem swo_nat : SWO (fun a b : Nat => decide (a < b)) Set.univ := by
  refine ⟨?_, ?_, ?_⟩ <;> simp <;> omega

/-- A coarser order (compare tens): equivalence is not equality here. -/
theorem swo_tens : SWO (fun a b : Nat => decide (a / 10 < b / 10)) Set.univ := by
  refine ⟨?_, ?_, ?_⟩ <;> simp <;> omega

/-- C01: the index returned by `push_back` is valid, denotes an equivalent element, and the old
content is a prefix of the new one (so old indices keep their elements). -/
theorem C01_push_back_index (h : SWO lt S) (ops : List (Op T)) (ho : ∀ o ∈ ops, OpIn S o)
    (x : T) (hx : x ∈ S) :
    let r := pushBack lt (run lt ops) x
    (∃ y, r.1.list[r.2]? = some y ∧ Equiv' lt y x) ∧
      ∃ tail, r.1.list = (run lt ops).list ++ tail := by
  intro r
  have hi := inv_run h ops ho
  rcases pushBack_cases h hi hx with ⟨_, he⟩ | ⟨y, i, hy, hq, he⟩
  · have hr : r = _ := he
    rw [hr]
    exact ⟨⟨x, by simp, h.irrefl x hx, h.irrefl x hx⟩, [x], rfl⟩
  · have hr : r = _ := he
    rw [hr]
    exact ⟨⟨y, hy, hq⟩, [], by simp⟩

example : (pushBack (fun a b : Nat => decide (a / 10 < b / 10))
    (run (fun a b : Nat => decide (a / 10 < b / 10)) [.push 31, .push 12, .push 55]) 17) =
    (⟨[31, 12, 55], [(12, 1), (31, 0), (55, 2)]⟩, 1) := by decide

/-- C02: after any history the content is that of the reference insertion-ordered set... -/
theorem C02_history_refines_ordered_set (h : SWO lt S) (ops : List (Op T))
    (ho : ∀ o ∈ ops, OpIn S o) : (run lt ops).list = specRun lt ops :=
  run_list h ops ho

/-- ... and has no two equivalent elements. -/
theorem C02_no_duplicates (h : SWO lt S) (ops : List (Op T)) (ho : ∀ o ∈ ops, OpIn S o) :
    NoDup lt (run lt ops).list :=
  (inv_run h ops ho).nodup h

/-- C02: if only pushes happen, an element is represented iff it was pushed. -/
theorem C02_pushes_represented (h : SWO lt S) (xs : List T) (hx : ∀ x ∈ xs, x ∈ S) (x : T)
    (hxS : x ∈ S) :
    (∃ y ∈ (run lt [.pushAll xs]).list, Equiv' lt y x) ↔ ∃ y ∈ xs, Equiv' lt y x := by
  have hrun : (run lt [.pushAll xs]).list = xs.foldl (specPush lt) [] :=
    C02_history_refines_ordered_set h [.pushAll xs] (by simpa [OpIn] using hx)
  rw [hrun]
  have key : ∀ (xs l : List T), (∀ x ∈ xs, x ∈ S) → (∀ x ∈ l, x ∈ S) →
      ((∃ y ∈ xs.foldl (specPush lt) l, Equiv' lt y x) ↔
        (∃ y ∈ l, Equiv' lt y x) ∨ ∃ y ∈ xs, Equiv' lt y x) := by
    intro xs
    induction xs with
    | nil => intro l _ _; simp
    | cons a xs ih =>
      intro l hxs hl
      have haS := hxs a (by simp)
      rw [List.foldl_cons]
      by_cases hex : ∃ y ∈ l, Equiv' lt y a
      · rw [show specPush lt l a = l from if_pos hex]
        rw [ih l (fun z hz => hxs z (by simp [hz])) hl]
        constructor
        · rintro (hy | ⟨y, hy, hq⟩)
          · exact Or.inl hy
          · exact Or.inr ⟨y, by simp [hy], hq⟩
        · rintro (hy | ⟨y, hy, hq⟩)
          · exact Or.inl hy
          · rcases List.mem_cons.1 hy with rfl | hy
            · obtain ⟨z, hz, hzq⟩ := hex
              exact Or.inl ⟨z, hz, h.equiv_trans (hl z hz) haS hxS hzq hq⟩
            · exact Or.inr ⟨y, hy, hq⟩
      · rw [show specPush lt l a = l ++ [a] from if_neg hex]
        rw [ih (l ++ [a]) (fun z hz => hxs z (by simp [hz])) (by
          intro z hz
          rcases List.mem_append.1 hz with hz | hz
          · exact hl z hz
          · have : z = a := by simpa using hz
            rw [this]; exact haS)]
        simp only [List.mem_append, List.mem_cons, List.not_mem_nil, or_false]
        constructor
        · rintro (⟨y, hy | hy, hq⟩ | ⟨y, hy, hq⟩)
          · exact Or.inl ⟨y, hy, hq⟩
          · exact Or.inr ⟨y, Or.inl hy, hq⟩
          · exact Or.inr ⟨y, Or.inr hy, hq⟩
        · rintro (⟨y, hy, hq⟩ | ⟨y, hy | hy, hq⟩)
          · exact Or.inl ⟨y, Or.inl hy, hq⟩
          · exact Or.inl ⟨y, Or.inr hy, hq⟩
          · exact Or.inr ⟨y, hy, hq⟩
  have := key xs [] hx (by simp)
  simpa using this

example : specRun (fun a b : Nat => decide (a / 10 < b / 10))
    [.push 31, .pushAll [12, 39, 13, 7], .delete 35, .push 38] = [12, 7, 38] := by decide

/-- C03: pushing an element equivalent to a stored one changes nothing and returns the position
of the stored one. -/
theorem C03_push_idempotent (h : SWO lt S) (ops : List (Op T)) (ho : ∀ o ∈ ops, OpIn S o)
    (x y : T) (hx : x ∈ S) (i : Nat) (hy : (run lt ops).list[i]? = some y)
    (hq : Equiv' lt y x) : pushBack lt (run lt ops) x = (run lt ops, i) := by
  have hi := inv_run h ops ho
  have hn := hi.nodup h
  rcases pushBack_cases h hi hx with ⟨hf, _⟩ | ⟨z, j, hz, hzq, he⟩
  · exact absurd hq (hf y (List.mem_of_getElem? hy))
  · rw [he]
    have hij : i = j := by
      by_contra hne
      obtain ⟨hil, hie⟩ := List.getElem?_eq_some_iff.1 hy
      obtain ⟨hjl, hje⟩ := List.getElem?_eq_some_iff.1 hz
      have hyS := hi.inS y (List.mem_of_getElem? hy)
      have hzS := hi.inS z (List.mem_of_getElem? hz)
      have hyz := h.equiv_trans hyS hx hzS hq (SWO.equiv_symm hzq)
      rcases Nat.lt_or_gt_of_ne hne with hlt | hlt
      · have := List.pairwise_iff_getElem.1 hn i j hil hjl hlt
        rw [hje, hie] at this; exact this hyz
      · have := List.pairwise_iff_getElem.1 hn j i hjl hil hlt
        rw [hje, hie] at this; exact this (SWO.equiv_symm hyz)
    rw [hij]

/-- C03: an index handed out keeps denoting the same element after any number of later
pushes. -/
theorem C03_indices_stable (h : SWO lt S) (ops : List (Op T)) (ho : ∀ o ∈ ops, OpIn S o)
    (xs : List T) (hx : ∀ x ∈ xs, x ∈ S) (i : Nat) (y : T)
    (hy : (run lt ops).list[i]? = some y) :
    (pushList lt (run lt ops) xs).1.list[i]? = some y := by
  have hi := inv_run h ops ho
  revert hi hy
  generalize run lt ops = u
  intro hy hi
  induction xs generalizing u with
  | nil => simpa [pushList] using hy
  | cons x xs ih =>
    have hxS := hx x (by simp)
    have := ih (fun z hz => hx z (by simp [hz])) (pushBack lt u x).1 ?_ (inv_pushBack h hi hxS)
    · simpa [pushList] using this
    · rcases pushBack_cases h hi hxS with ⟨_, he⟩ | ⟨z, j, _, _, he⟩
      · rw [he]
        obtain ⟨hil, _⟩ := List.getElem?_eq_some_iff.1 hy
        simp [List.getElem?_append, hil] at hy ⊢
        exact hy
      · rw [he]; exact hy

example : (pushBack (fun a b : Nat => decide (a < b))
    (run (fun a b : Nat => decide (a < b)) [.pushAll [5, 3, 9]]) 3).2 = 1 := by decide

/-- C04: `push_list` returns one valid index per element, decoding to an equivalent element. -/
theorem C04_push_list_decodes (h : SWO lt S) (ops : List (Op T)) (ho : ∀ o ∈ ops, OpIn S o)
    (xs : List T) (hx : ∀ x ∈ xs, x ∈ S) :
    let r := pushList lt (run lt ops) xs
    r.2.length = xs.length ∧
      ∀ (k : Nat) (x : T), xs[k]? = some x →
        ∃ (i : Nat) (y : T), r.2[k]? = some i ∧ r.1.list[i]? = some y ∧ Equiv' lt y x := by
  have hi := inv_run h ops ho
  revert hi
  generalize run lt ops = u
  intro hi
  -- elements stay put when pushing
  have stay : ∀ (xs : List T) (u : UList T), Inv lt S u → (∀ x ∈ xs, x ∈ S) →
      ∀ (i : Nat) (y : T), u.list[i]? = some y → (pushList lt u xs).1.list[i]? = some y := by
    intro xs
    induction xs with
    | nil => intro u _ _ i y hy; simpa [pushList] using hy
    | cons x xs ih =>
      intro u hi hx i y hy
      have hxS := hx x (by simp)
      have := ih (pushBack lt u x).1 (inv_pushBack h hi hxS) (fun z hz => hx z (by simp [hz])) i y ?_
      · simpa [pushList] using this
      · rcases pushBack_cases h hi hxS with ⟨_, he⟩ | ⟨z, j, _, _, he⟩
        · rw [he]
          obtain ⟨hil, _⟩ := List.getElem?_eq_some_iff.1 hy
          simp [List.getElem?_append, hil] at hy ⊢
          exact hy
        · rw [he]; exact hy
  induction xs generalizing u with
  | nil => simp [pushList]
  | cons x xs ih =>
    have hxS := hx x (by simp)
    have hxs : ∀ z ∈ xs, z ∈ S := fun z hz => hx z (by simp [hz])
    have hi1 := inv_pushBack h hi hxS
    obtain ⟨h1, h2⟩ := ih hxs (pushBack lt u x).1 hi1
    refine ⟨by simp [pushList, h1], ?_⟩
    intro k z hz
    cases k with
    | zero =>
      have hzx : x = z := by simpa using hz
      subst hzx
      rcases pushBack_cases h hi hxS with ⟨_, he⟩ | ⟨y, j, hy, hq, he⟩
      · refine ⟨(pushBack lt u x).2, x, by simp [pushList], ?_, h.irrefl x hxS, h.irrefl x hxS⟩
        exact stay xs _ hi1 hxs _ _ (by rw [he]; simp)
      · refine ⟨(pushBack lt u x).2, y, by simp [pushList], ?_, hq⟩
        exact stay xs _ hi1 hxs _ _ (by rw [he]; exact hy)
    | succ k =>
      obtain ⟨i, y, ha, hb, hc⟩ := h2 k z (by simpa using hz)
      exact ⟨i, y, by simpa [pushList] using ha, by simpa [pushList] using hb, hc⟩

example : (pushList (fun a b : Nat => decide (a / 10 < b / 10)) empty [31, 12, 35, 14, 50]).2 =
    [0, 1, 0, 1, 2] := by decide

/-- C05: `contains` is membership up to equivalence, after any history. -/
theorem C05_contains_iff (h : SWO lt S) (ops : List (Op T)) (ho : ∀ o ∈ ops, OpIn S o)
    (x : T) (hx : x ∈ S) :
    contains lt (run lt ops) x = true ↔ ∃ y ∈ (run lt ops).list, Equiv' lt y x :=
  contains_iff h (inv_run h ops ho) hx

/-- C05: `hasCommonElement`. -/
theorem C05_hasCommonElement_iff (h : SWO lt S) (ops ops' : List (Op T))
    (ho : ∀ o ∈ ops, OpIn S o) (ho' : ∀ o ∈ ops', OpIn S o) :
    hasCommonElement lt (run lt ops) (run lt ops') = true ↔
      ∃ x ∈ (run lt ops').list, ∃ y ∈ (run lt ops).list, Equiv' lt y x := by
  unfold hasCommonElement
  rw [List.any_eq_true]
  have hi' := inv_run h ops' ho'
  constructor
  · rintro ⟨x, hx, hc⟩
    exact ⟨x, hx, (C05_contains_iff h ops ho x (hi'.inS x hx)).1 hc⟩
  · rintro ⟨x, hx, hc⟩
    exact ⟨x, hx, (C05_contains_iff h ops ho x (hi'.inS x hx)).2 hc⟩

example : contains (fun a b : Nat => decide (a / 10 < b / 10))
    (run (fun a b : Nat => decide (a / 10 < b / 10)) [.pushAll [31, 12], .delete 15]) 33 = true ∧
    contains (fun a b : Nat => decide (a / 10 < b / 10))
    (run (fun a b : Nat => decide (a / 10 < b / 10)) [.pushAll [31, 12], .delete 15]) 12 = false :=
  by decide

/-- C06: `delete_element` drops exactly the equivalent element, keeping the order... -/
theorem C06_delete_exact (h : SWO lt S) (ops : List (Op T)) (ho : ∀ o ∈ ops, OpIn S o)
    (x : T) (hx : x ∈ S) :
    (deleteElement lt (run lt ops) x).list = (run lt ops).list.filter (fun y => ¬ Equiv' lt y x) :=
  (inv_delete h (inv_run h ops ho) hx).2

/-- ... at most one element goes ... -/
theorem C06_delete_at_most_one (h : SWO lt S) (ops : List (Op T)) (ho : ∀ o ∈ ops, OpIn S o)
    (x : T) (hx : x ∈ S) :
    (run lt ops).list.length ≤ (deleteElement lt (run lt ops) x).list.length + 1 := by
  rcases delete_cases h (inv_run h ops ho) hx with ⟨_, he⟩ | ⟨y, i, hy, _, he⟩
  · rw [he]; omega
  · rw [he]
    obtain ⟨hil, _⟩ := List.getElem?_eq_some_iff.1 hy
    simp only [List.length_eraseIdx, hil, if_true]; omega

/-- ... and later pushes of survivors return their new positions. -/
theorem C06_delete_reindexes (h : SWO lt S) (ops : List (Op T)) (ho : ∀ o ∈ ops, OpIn S o)
    (x : T) (hx : x ∈ S) (i : Nat) (y : T)
    (hy : (deleteElement lt (run lt ops) x).list[i]? = some y) :
    (pushBack lt (deleteElement lt (run lt ops) x) y).2 = i := by
  have hrun : run lt (ops ++ [.delete x]) = deleteElement lt (run lt ops) x := by
    simp [run, step]
  have ho' : ∀ o ∈ ops ++ [Op.delete x], OpIn S o := by
    intro o hoo
    rcases List.mem_append.1 hoo with h1 | h1
    · exact ho o h1
    · have : o = .delete x := by simpa using h1
      rw [this]; exact hx
  rw [← hrun] at hy ⊢
  have hyS := (inv_run h _ ho').inS y (List.mem_of_getElem? hy)
  rw [C03_push_idempotent h _ ho' y y hyS i hy ⟨h.irrefl y hyS, h.irrefl y hyS⟩]

example : (pushBack (fun a b : Nat => decide (a < b))
    (deleteElement (fun a b : Nat => decide (a < b))
      (run (fun a b : Nat => decide (a < b)) [.pushAll [5, 3, 9]]) 5) 9).2 = 1 := by decide

/-- C07 is violated: after `pop_front` the map still holds the old positions, so pushing an
element that is present returns an index that denotes something else, or nothing. -/
theorem C07_pop_front_refuted :
    ∃ (ops : List (Op Nat)) (u : UList Nat) (x : Nat),
      popFront (fun a b => decide (a < b)) (run (fun a b => decide (a < b)) ops) = .ok u ∧
      x ∈ u.list ∧ u.list[(pushBack (fun a b => decide (a < b)) u x).2]? ≠ some x :=
  ⟨[.pushAll [1, 2, 3]], ⟨[2, 3], [(2, 1), (3, 2)]⟩, 2, by decide, by decide, by decide⟩

/-- C07, general form of the defect: for every history, after `pop_front` pushing a surviving
element returns its position plus one (never its position). -/
theorem C07_pop_front_off_by_one (h : SWO lt S) (ops : List (Op T)) (ho : ∀ o ∈ ops, OpIn S o)
    (u : UList T) (hp : popFront lt (run lt ops) = .ok u) (i : Nat) (y : T)
    (hy : u.list[i]? = some y) : (pushBack lt u y).2 = i + 1 := by
  have hi := inv_run h ops ho
  have hn := hi.nodup h
  unfold popFront at hp
  split at hp
  · simp at hp
  · rename_i a l hl
    simp only [Outcome.ok.injEq] at hp
    subst hp
    simp only at hy
    have hy' : (run lt ops).list[i + 1]? = some y := by rw [hl]; simpa using hy
    have hyS := hi.inS y (List.mem_of_getElem? hy')
    have haS := hi.inS a (by rw [hl]; simp)
    have hay : ¬ Equiv' lt a y := by
      have := hn
      unfold NoDup at this
      rw [hl] at this
      exact (List.pairwise_cons.1 this).1 y (List.mem_of_getElem? hy)
    have hmem : (y, i + 1) ∈ SMap.erase lt (run lt ops).map a := by
      unfold SMap.erase
      rw [List.mem_filter]
      refine ⟨(hi.pairs _ _).2 hy', ?_⟩
      by_contra hc
      apply hay
      simp only [Bool.or_eq_true, not_or, Bool.not_eq_true] at hc
      exact ⟨hc.2, hc.1⟩
    have hsort : SMap.Sorted lt (SMap.erase lt (run lt ops).map a) :=
      hi.sorted.sublist List.filter_sublist
    have hkeys : SMap.KeysIn S (SMap.erase lt (run lt ops).map a) :=
      fun e he => hi.keysIn e (List.mem_of_mem_filter he)
    obtain ⟨hpre, hpost⟩ := upperBound_split h hsort hkeys hyS
    unfold pushBack
    simp only
    set m := SMap.erase lt (run lt ops).map a with hm
    set j := SMap.upperBound lt m y with hj
    have hin : (y, i + 1) ∈ m.take j := by
      have hsp : m.take j ++ m.drop j = m := List.take_append_drop _ _
      rw [← hsp] at hmem
      rcases List.mem_append.1 hmem with h1 | h1
      · exact h1
      · have := hpost _ h1
        simp only at this
        rw [h.irrefl y hyS] at this; exact absurd this (by simp)
    cases hl2 : (m.take j).getLast? with
    | none => rw [List.getLast?_eq_none_iff.1 hl2] at hin; simp at hin
    | some e =>
      simp only
      obtain ⟨l', hl'⟩ := List.getLast?_eq_some_iff.1 hl2
      have heT : e ∈ m.take j := List.mem_of_getLast? hl2
      have hs : SMap.Sorted lt (m.take j) := hsort.sublist (List.take_sublist _ _)
      rw [hl'] at hin hs
      rcases List.mem_append.1 hin with h1 | h1
      · have := (List.pairwise_append.1 hs).2.2 _ h1 e (by simp)
        simp only at this
        rw [hpre e heT] at this; exact absurd this (by simp)
      · have hee : (y, i + 1) = e := by simpa using h1
        subst hee
        simp [h.irrefl y hyS]

/-- C07, the part that holds: the element list itself is right after `pop_front`, and the
removed element can be pushed again, landing at the end. -/
theorem C07_pop_front_partial (h : SWO lt S) (ops : List (Op T)) (ho : ∀ o ∈ ops, OpIn S o)
    (x : T) (l : List T) (hl : (run lt ops).list = x :: l) :
    ∃ u, popFront lt (run lt ops) = .ok u ∧ u.list = l ∧ contains lt u x = false ∧
      ∀ y ∈ S, (contains lt u y = true ↔ ∃ z ∈ l, Equiv' lt z y) := by
  have hi := inv_run h ops ho
  have hn := hi.nodup h
  have hxS := hi.inS x (by rw [hl]; simp)
  refine ⟨⟨l, SMap.erase lt (run lt ops).map x⟩, ?_, rfl, ?_, ?_⟩
  · unfold popFront; rw [hl]
  all_goals
    have hsort : SMap.Sorted lt (SMap.erase lt (run lt ops).map x) :=
      hi.sorted.sublist List.filter_sublist
    have hkeys : SMap.KeysIn S (SMap.erase lt (run lt ops).map x) :=
      fun e he => hi.keysIn e (List.mem_of_mem_filter he)
  · unfold contains
    have := (SMap.find_none_iff h hsort hkeys hxS).2 (by
      intro e he hq
      have := (List.mem_filter.1 he).2
      simp [hq.1, hq.2] at this)
    simp [this]
  · intro y hyS
    have key : contains lt (⟨l, SMap.erase lt (run lt ops).map x⟩ : UList T) y = true ↔
        ∃ e ∈ SMap.erase lt (run lt ops).map x, Equiv' lt e.1 y := by
      unfold contains
      rw [Option.isSome_iff_exists]
      constructor
      · rintro ⟨v, hv⟩
        obtain ⟨e, he, hq, _⟩ := (SMap.find_some_iff h hsort hkeys hyS).1 hv
        exact ⟨e, he, hq⟩
      · rintro ⟨e, he, hq⟩
        exact ⟨e.2, (SMap.find_some_iff h hsort hkeys hyS).2 ⟨e, he, hq, rfl⟩⟩
    rw [key]
    have hnx : ∀ z ∈ l, ¬ Equiv' lt x z := by
      unfold NoDup at hn; rw [hl] at hn; exact (List.pairwise_cons.1 hn).1
    constructor
    · rintro ⟨e, he, hq⟩
      have he' := List.mem_filter.1 he
      have hel : e.1 ∈ (run lt ops).list := (hi.mem_iff _).2 ⟨e, he'.1, rfl⟩
      rw [hl] at hel
      rcases List.mem_cons.1 hel with h1 | h1
      · have h2 := he'.2
        rw [h1, h.irrefl x hxS] at h2; simp at h2
      · exact ⟨e.1, h1, hq⟩
    · rintro ⟨z, hz, hq⟩
      have hzl : z ∈ (run lt ops).list := by rw [hl]; simp [hz]
      obtain ⟨e, he, rfl⟩ := (hi.mem_iff z).1 hzl
      refine ⟨e, List.mem_filter.2 ⟨he, ?_⟩, hq⟩
      by_contra hc
      simp only [Bool.or_eq_true, not_or, Bool.not_eq_true] at hc
      exact hnx e.1 hz ⟨hc.2, hc.1⟩

/-- `force_push_back` always appends; the element is not known to `contains` afterwards. -/
theorem C07_force_push_back_appends (u : UList T) (x : T) :
    (forcePushBack u x).1.list = u.list ++ [x] ∧ (forcePushBack u x).2 = u.list.length ∧
      ∀ y, contains lt (forcePushBack u x).1 y = contains lt u y := by
  simp [forcePushBack, contains]

end Delynoi
