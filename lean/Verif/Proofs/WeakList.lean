import Verif.Proofs.UniqueList
/-! Facts about `UniqueList` that need no property of the comparator. -/
namespace Delynoi
namespace UList
variable {T : Type u} {lt : T → T → Bool}

/-- Every map entry points at its element. -/
def Decodes (u : UList T) : Prop := ∀ e ∈ u.map, u.list[e.2]? = some e.1

theorem decodes_empty : Decodes (empty : UList T) := by intro e he; simp [empty] at he

theorem decodes_fresh {u : UList T} (h : Decodes u) (x : T) :
    Decodes ⟨u.list ++ [x], SMap.insert lt u.map x u.list.length⟩ := by
  intro e he
  rcases SMap.mem_insert u.map x _ e he with rfl | he
  · simp
  · have := h e he
    have hlt := (List.getElem?_eq_some_iff.1 this).1
    simp only
    rw [List.getElem?_append_left hlt]; exact this

theorem before_upperBound {V : Type v} (m : List (T × V)) (x : T) :
    ∀ e ∈ m.take (SMap.upperBound lt m x), lt x e.1 = false := by
  induction m with
  | nil => simp
  | cons a m ih =>
    unfold SMap.upperBound at *
    rw [List.findIdx_cons]
    by_cases hlt : lt x a.1 = true
    · simp [hlt]
    · have hlt : lt x a.1 = false := by simpa using hlt
      simp only [hlt, cond_false, List.take_succ_cons]
      intro e he
      rcases List.mem_cons.1 he with rfl | he
      · exact hlt
      · exact ih e he

/-- `push_back` for any comparator: the index returned denotes the element itself or one
incomparable with it, and the old elements keep their places. -/
theorem pushBack_weak {u : UList T} (h : Decodes u) (x : T) :
    Decodes (u.pushBack lt x).1 ∧
    (∃ y, (u.pushBack lt x).1.list[(u.pushBack lt x).2]? = some y ∧ (y = x ∨ Equiv' lt y x)) ∧
    (∃ tail, (u.pushBack lt x).1.list = u.list ++ tail) := by
  unfold pushBack
  simp only
  cases hl : (u.map.take (SMap.upperBound lt u.map x)).getLast? with
  | none => exact ⟨decodes_fresh h x, ⟨x, by simp, Or.inl rfl⟩, ⟨[x], rfl⟩⟩
  | some e =>
    simp only
    by_cases hlt : lt e.1 x = true
    · rw [if_pos hlt]
      exact ⟨decodes_fresh h x, ⟨x, by simp, Or.inl rfl⟩, ⟨[x], rfl⟩⟩
    · rw [if_neg hlt]
      have heT : e ∈ u.map.take (SMap.upperBound lt u.map x) := List.mem_of_getLast? hl
      refine ⟨h, ⟨e.1, h e (List.mem_of_mem_take heT), Or.inr ⟨by simpa using hlt, ?_⟩⟩, ⟨[], by simp⟩⟩
      exact before_upperBound u.map x e heT

/-- `push_back` appends the element or nothing. -/
theorem pushBack_tail (u : UList T) (x : T) :
    (u.pushBack lt x).1.list = u.list ∨ (u.pushBack lt x).1.list = u.list ++ [x] := by
  unfold pushBack
  simp only
  cases hl : (u.map.take (SMap.upperBound lt u.map x)).getLast? with
  | none => exact Or.inr rfl
  | some e =>
    simp only
    by_cases hlt : lt e.1 x = true
    · rw [if_pos hlt]; exact Or.inr rfl
    · rw [if_neg hlt]; exact Or.inl rfl

/-- `push_list` for any comparator. -/
theorem pushList_weak (xs : List T) : ∀ {u : UList T}, Decodes u →
    Decodes (u.pushList lt xs).1 ∧ (u.pushList lt xs).2.length = xs.length ∧
    (∀ (k : Nat) (x : T), xs[k]? = some x → ∃ (i : Nat) (y : T), (u.pushList lt xs).2[k]? = some i ∧
      (u.pushList lt xs).1.list[i]? = some y ∧ (y = x ∨ Equiv' lt y x)) ∧
    (∃ tail, (u.pushList lt xs).1.list = u.list ++ tail) := by
  induction xs with
  | nil => intro u h; exact ⟨h, rfl, by simp, [], by simp [pushList]⟩
  | cons x xs ih =>
    intro u h
    obtain ⟨p1, ⟨y, p2, p3⟩, ⟨t1, p4⟩⟩ := pushBack_weak (lt := lt) h x
    obtain ⟨i1, i2, i3, ⟨t2, i4⟩⟩ := ih p1
    refine ⟨i1, by simp [pushList, i2], ?_, ⟨t1 ++ t2, ?_⟩⟩
    · intro k z hk
      cases k with
      | zero =>
        simp at hk; subst hk
        refine ⟨_, y, rfl, ?_, p3⟩
        show ((u.pushBack lt x).1.pushList lt xs).1.list[(u.pushBack lt x).2]? = some y
        rw [i4, List.getElem?_append_left (List.getElem?_eq_some_iff.1 p2).1]
        exact p2
      | succ k =>
        obtain ⟨i, y', q1, q2, q3⟩ := i3 k z (by simpa using hk)
        exact ⟨i, y', by simpa [pushList] using q1, q2, q3⟩
    · show ((u.pushBack lt x).1.pushList lt xs).1.list = _
      rw [i4, p4, List.append_assoc]

end UList
end Delynoi
