import Verif.Model.IndexSegment
import Verif.Proofs.UniqueList
import Mathlib.Data.List.Nodup
/-! Helper lemmas for association-list models of `std::unordered_map` and `std::map`. -/
namespace Delynoi

namespace UMap
variable {α : Type u} {β : Type v} {H : Type w} [DecidableEq H] {C : Type x}
  {h : α → H} {eq : α → α → Bool} {S : α → Prop} {cls : α → C}

/-- On keys satisfying `S`, "same hash and equal" is the kernel of `cls`. -/
def Kernel (h : α → H) (eq : α → α → Bool) (S : α → Prop) (cls : α → C) : Prop :=
  ∀ a b, S a → S b → ((h a = h b ∧ eq a b = true) ↔ cls a = cls b)

theorem find_cons (e : α × β) (m : List (α × β)) (k : α) :
    find h eq (e :: m : List (α × β)) k
      = if h e.1 = h k ∧ eq e.1 k = true then some e.2 else find h eq m k := rfl

theorem upsert_cons (d : β) (f : β → β) (e : α × β) (m : List (α × β)) (k : α) :
    upsert h eq d f (e :: m : List (α × β)) k
      = if h e.1 = h k ∧ eq e.1 k = true then ((e.1, f e.2) :: m : List (α × β))
        else (e :: (upsert h eq d f m k : List (α × β)) : List (α × β)) := rfl

theorem find_upsert (hk : Kernel h eq S cls) (d : β) (f : β → β) (m : List (α × β)) (k k' : α)
    (hm : ∀ e ∈ m, S e.1) (hS : S k) (hS' : S k') :
    (cls k = cls k' → find h eq (upsert h eq d f m k) k'
        = some ((find h eq m k).elim d f)) ∧
    (cls k ≠ cls k' → find h eq (upsert h eq d f m k) k' = find h eq m k') := by
  induction m with
  | nil =>
    have e1 : upsert h eq d f ([] : List (α × β)) k = ([(k, d)] : List (α × β)) := rfl
    have e2 : ∀ k, find h eq ([] : List (α × β)) k = none := fun _ => rfl
    rw [e1, find_cons, e2, e2]
    constructor
    · intro hc; rw [if_pos ((hk k k' hS hS').2 hc)]; rfl
    · intro hc; rw [if_neg (fun hh => hc ((hk k k' hS hS').1 hh))]
  | cons e m ih =>
    have he : S e.1 := hm e (by simp)
    have ih := ih (fun e he => hm e (by simp [he]))
    rw [upsert_cons, find_cons e m k, find_cons e m k']
    by_cases hek : cls e.1 = cls k
    · rw [if_pos ((hk e.1 k he hS).2 hek), if_pos ((hk e.1 k he hS).2 hek), find_cons]
      constructor
      · intro hc; rw [if_pos ((hk e.1 k' he hS').2 (hek.trans hc))]; rfl
      · intro hc
        have : ¬ (h e.1 = h k' ∧ eq e.1 k' = true) :=
          fun hh => hc (hek.symm.trans ((hk e.1 k' he hS').1 hh))
        rw [if_neg this, if_neg this]
    · have hn : ¬ (h e.1 = h k ∧ eq e.1 k = true) := fun hh => hek ((hk e.1 k he hS).1 hh)
      rw [if_neg hn, if_neg hn, find_cons]
      constructor
      · intro hc
        have : ¬ (h e.1 = h k' ∧ eq e.1 k' = true) :=
          fun hh => hek (((hk e.1 k' he hS').1 hh).trans hc.symm)
        rw [if_neg this]; exact ih.1 hc
      · intro hc
        by_cases hh : h e.1 = h k' ∧ eq e.1 k' = true
        · rw [if_pos hh, if_pos hh]
        · rw [if_neg hh, if_neg hh]; exact ih.2 hc

theorem upsert_keys (d : β) (f : β → β) (m : List (α × β)) (k : α) (hm : ∀ e ∈ m, S e.1)
    (hS : S k) : ∀ e ∈ (upsert h eq d f m k : List (α × β)), S e.1 := by
  induction m with
  | nil =>
    intro e he
    have he : e ∈ [(k, d)] := he
    simp at he; rw [he]; exact hS
  | cons a m ih =>
    have ih := ih (fun e he => hm e (by simp [he]))
    rw [upsert_cons]
    intro e he
    split at he
    · rcases List.mem_cons.1 he with rfl | he
      · exact hm a (by simp)
      · exact hm e (by simp [he])
    · rcases List.mem_cons.1 he with rfl | he
      · exact hm e (by simp)
      · exact ih e he

theorem mem_upsert_cls (hk : Kernel h eq S cls) (d : β) (f : β → β) (m : List (α × β)) (k : α)
    (hm : ∀ e ∈ m, S e.1) (hS : S k) (c : C) :
    c ∈ (upsert h eq d f m k : List (α × β)).map (fun e => cls e.1) ↔
      c = cls k ∨ c ∈ m.map (fun e => cls e.1) := by
  induction m with
  | nil =>
    have e1 : upsert h eq d f ([] : List (α × β)) k = ([(k, d)] : List (α × β)) := rfl
    rw [e1]; simp
  | cons a m ih =>
    have ih := ih (fun e he => hm e (by simp [he]))
    rw [upsert_cons]
    split
    · rename_i hh
      have := (hk a.1 k (hm a (by simp)) hS).1 hh
      simp only [List.map_cons, List.mem_cons, this]
      tauto
    · rw [List.map_cons, List.mem_cons, ih, List.map_cons, List.mem_cons]
      tauto

theorem nodup_upsert (hk : Kernel h eq S cls) (d : β) (f : β → β) (m : List (α × β)) (k : α)
    (hm : ∀ e ∈ m, S e.1) (hS : S k) (hn : (m.map (fun e => cls e.1)).Nodup) :
    ((upsert h eq d f m k : List (α × β)).map (fun e => cls e.1)).Nodup := by
  induction m with
  | nil =>
    have e1 : upsert h eq d f ([] : List (α × β)) k = ([(k, d)] : List (α × β)) := rfl
    rw [e1]; simp
  | cons a m ih =>
    have ih := ih (fun e he => hm e (by simp [he])) (List.nodup_cons.1 hn).2
    rw [upsert_cons]
    split
    · exact hn
    · rename_i hh
      rw [List.map_cons, List.nodup_cons]
      refine ⟨?_, ih⟩
      intro hc
      rcases (mem_upsert_cls hk d f m k (fun e he => hm e (by simp [he])) hS _).1 hc with hc | hc
      · exact hh ((hk a.1 k (hm a (by simp)) hS).2 hc)
      · exact (List.nodup_cons.1 hn).1 hc

theorem upsert_id (d : β) (m : List (α × β)) (k : α) (hf : find h eq m k ≠ none) :
    upsert h eq d id m k = m := by
  induction m with
  | nil => exact absurd rfl hf
  | cons a m ih =>
    rw [find_cons] at hf
    rw [upsert_cons]
    split
    · rfl
    · rename_i hh
      rw [if_neg hh] at hf
      rw [ih hf]

end UMap

namespace SMap
variable {T : Type u} {V : Type v} {lt : T → T → Bool} {S : Set T}

/-- Keys of an update of a present key. -/
theorem upsert_keys_present {m : List (T × V)} {k : T} (d : V) (f : V → V)
    (hf : find lt m k ≠ none) : (upsert lt d f m k).map Prod.fst = m.map Prod.fst := by
  induction m with
  | nil => exact absurd rfl hf
  | cons a m ih =>
    unfold find at hf; unfold upsert
    by_cases h1 : lt a.1 k = true
    · rw [if_pos h1] at hf ⊢; simp [ih hf]
    · rw [if_neg h1] at hf ⊢
      by_cases h2 : lt k a.1 = true
      · rw [if_pos h2] at hf; exact absurd rfl hf
      · rw [if_neg h2]; simp

theorem sorted_of_keys {m m' : List (T × V)} (h : m'.map Prod.fst = m.map Prod.fst)
    (hs : Sorted lt m) : Sorted lt m' := by
  unfold Sorted at hs ⊢
  have : (m.map Prod.fst).Pairwise (fun a b => lt a b = true) := List.pairwise_map.2 hs
  rw [← h] at this
  exact List.pairwise_map.1 this

theorem keysIn_of_keys {m m' : List (T × V)} (h : m'.map Prod.fst = m.map Prod.fst)
    (hs : KeysIn S m) : KeysIn S m' := by
  intro e he
  have : e.1 ∈ m'.map Prod.fst := List.mem_map_of_mem he
  rw [h] at this
  obtain ⟨e', he', h1⟩ := List.mem_map.1 this
  rw [← h1]; exact hs e' he'

theorem find_upsert_present (h : SWO lt S) {m : List (T × V)} {k k' : T} {v : V} (d : V)
    (f : V → V) (hm : Sorted lt m) (hk : KeysIn S m) (hS : k ∈ S) (hS' : k' ∈ S)
    (hf : find lt m k = some v) :
    (Equiv' lt k k' → find lt (upsert lt d f m k) k' = some (f v)) ∧
    (¬ Equiv' lt k k' → find lt (upsert lt d f m k) k' = find lt m k') := by
  induction m with
  | nil => simp [find] at hf
  | cons a m ih =>
    have hm' := List.pairwise_cons.1 hm
    have haS : a.1 ∈ S := hk a (by simp)
    have hk' : KeysIn S m := fun e he => hk e (by simp [he])
    have ih := ih hm'.2 hk'
    unfold find at hf
    by_cases h1 : lt a.1 k = true
    · rw [if_pos h1] at hf
      have ih := ih hf
      have hu : upsert lt d f (a :: m) k = a :: upsert lt d f m k := by
        rw [upsert, if_pos h1]
      rw [hu, find, find]
      constructor
      · intro hq
        have : lt a.1 k' = true := h.lt_of_lt_equiv haS hS hS' h1 hq.1 hq.2
        rw [if_pos this]; exact ih.1 hq
      · intro hq
        by_cases h2 : lt a.1 k' = true
        · rw [if_pos h2, if_pos h2]; exact ih.2 hq
        · rw [if_neg h2, if_neg h2]
    · rw [if_neg h1] at hf
      by_cases h2 : lt k a.1 = true
      · rw [if_pos h2] at hf; exact absurd hf (by simp)
      · rw [if_neg h2] at hf
        have hv : a.2 = v := by simpa using hf
        have hak : Equiv' lt a.1 k := ⟨by simpa using h1, by simpa using h2⟩
        have hu : upsert lt d f (a :: m) k = (a.1, f a.2) :: m := by
          rw [upsert, if_neg h1, if_neg h2]
        rw [hu, find, find]
        constructor
        · intro hq
          have := h.equiv_trans haS hS hS' hak hq
          rw [if_neg (by simp [this.1]), if_neg (by simp [this.2]), hv]
        · intro hq
          by_cases h3 : lt a.1 k' = true
          · simp only [h3, if_true]
          · by_cases h4 : lt k' a.1 = true
            · simp only [h3, h4, if_true]
            · exact absurd (h.equiv_trans hS haS hS' (SWO.equiv_symm hak)
                ⟨by simpa using h3, by simpa using h4⟩) hq

theorem find_insert_absent (h : SWO lt S) {m : List (T × V)} {k k' : T} (v : V)
    (hm : Sorted lt m) (hk : KeysIn S m) (hS : k ∈ S) (hS' : k' ∈ S)
    (hf : find lt m k = none) :
    (Equiv' lt k k' → find lt (insert lt m k v) k' = some v) ∧
    (¬ Equiv' lt k k' → find lt (insert lt m k v) k' = find lt m k') := by
  have hfr := (find_none_iff h hm hk hS).1 hf
  have hs' := sorted_insert (v := v) h hm hk hS
  have hk' := keysIn_insert (lt := lt) (v := v) hk hS
  constructor
  · intro hq
    exact (find_some_iff h hs' hk' hS').2 ⟨(k, v), (mem_insert_fresh hfr _).2 (Or.inl rfl), hq, rfl⟩
  · intro hq
    ext w
    rw [find_some_iff h hs' hk' hS', find_some_iff h hm hk hS']
    constructor
    · rintro ⟨e, he, h1, h2⟩
      rcases (mem_insert_fresh hfr e).1 he with rfl | he
      · exact absurd h1 hq
      · exact ⟨e, he, h1, h2⟩
    · rintro ⟨e, he, h1, h2⟩
      exact ⟨e, (mem_insert_fresh hfr e).2 (Or.inr he), h1, h2⟩

end SMap
end Delynoi
