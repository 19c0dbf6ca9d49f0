import Verif.Model.Polygon
import Mathlib.Data.List.Rotate
import Mathlib.Algebra.BigOperators.Group.List.Basic
import Mathlib.Tactic.Ring
import Mathlib.Tactic.Linarith
import Mathlib.Tactic.LinearCombination
/-! Lemmas about cyclic pairs and sums over them. -/
namespace Delynoi
variable {α : Type}

theorem cycPairs_length (l : List α) : (cycPairs l).length = l.length := by
  unfold cycPairs
  simp only [List.length_zip, List.length_append, List.length_drop, List.length_take]
  omega

theorem next_getElem? (l : List α) (i : Nat) (h : i < l.length) :
    (l.drop 1 ++ l.take 1)[i]? = some (l[(i + 1) % l.length]'(Nat.mod_lt _ (by omega))) := by
  by_cases hi : i + 1 < l.length
  · rw [List.getElem?_append_left (by simp only [List.length_drop]; omega)]
    rw [List.getElem?_drop, List.getElem?_eq_getElem (by omega)]
    congr 1
    simp only [Nat.mod_eq_of_lt hi]
    congr 1; omega
  · have he : i + 1 = l.length := by omega
    rw [List.getElem?_append_right (by simp only [List.length_drop]; omega)]
    have e0 : i - (l.drop 1).length = 0 := by simp only [List.length_drop]; omega
    have e1 : (i + 1) % l.length = 0 := by rw [he, Nat.mod_self]
    rw [e0]
    simp only [e1]
    rw [List.getElem?_take, if_pos (by omega), List.getElem?_eq_getElem]

theorem cycPairs_getElem (l : List α) (i : Nat) (h : i < (cycPairs l).length) :
    (cycPairs l)[i] = (l[i]'(by rwa [cycPairs_length] at h),
      l[(i + 1) % l.length]'(Nat.mod_lt _ (by rw [cycPairs_length] at h; omega))) := by
  have h' : i < l.length := by rwa [cycPairs_length] at h
  have : (cycPairs l)[i]? = some (l[i]'h', l[(i + 1) % l.length]'(Nat.mod_lt _ (by omega))) := by
    unfold cycPairs
    rw [List.getElem?_zip_eq_some]
    exact ⟨List.getElem?_eq_getElem h', next_getElem? l i h'⟩
  rw [List.getElem?_eq_getElem h] at this
  exact Option.some.inj this

theorem cycPairs_getElem? (l : List α) (i : Nat) (h : i < l.length) :
    (cycPairs l)[i]? = some (l[i], l[(i + 1) % l.length]'(Nat.mod_lt _ (by omega))) := by
  rw [List.getElem?_eq_getElem (by rwa [cycPairs_length]), cycPairs_getElem]

theorem cycPairs_cons (a : α) (l : List α) : cycPairs (a :: l) = (a :: l).zip (l ++ [a]) := by
  simp [cycPairs]

theorem cycPairs_fst (l : List α) : (cycPairs l).map Prod.fst = l := by
  unfold cycPairs
  rw [List.map_fst_zip]
  simp only [List.length_append, List.length_drop, List.length_take]; omega

theorem cycPairs_snd (l : List α) : (cycPairs l).map Prod.snd = l.drop 1 ++ l.take 1 := by
  unfold cycPairs
  rw [List.map_snd_zip]
  simp only [List.length_append, List.length_drop, List.length_take]; omega

theorem cycPairs_snd_perm (l : List α) : ((cycPairs l).map Prod.snd).Perm l := by
  rw [cycPairs_snd]
  exact (List.perm_append_comm).trans (by rw [List.take_append_drop])

theorem cycPairs_mem {l : List α} {e : α × α} (h : e ∈ cycPairs l) : e.1 ∈ l ∧ e.2 ∈ l := by
  constructor
  · have : e.1 ∈ (cycPairs l).map Prod.fst := List.mem_map_of_mem h
    rwa [cycPairs_fst] at this
  · have : e.2 ∈ (cycPairs l).map Prod.snd := List.mem_map_of_mem h
    exact (cycPairs_snd_perm l).mem_iff.1 this

theorem cycPairs_map {β : Type} (f : α → β) (l : List α) :
    cycPairs (l.map f) = (cycPairs l).map (Prod.map f f) := by
  unfold cycPairs
  rw [← List.map_drop, ← List.map_take, ← List.map_append, List.zip_map]

theorem cycPairs_rotate (l : List α) (k : Nat) :
    cycPairs (l.rotate k) = (cycPairs l).rotate k := by
  apply List.ext_getElem
  · simp [cycPairs_length]
  · intro i h1 h2
    have hn : i < l.length := by simpa [cycPairs_length] using h1
    have hpos : 0 < l.length := by omega
    simp only [cycPairs_getElem, List.getElem_rotate, List.length_rotate, cycPairs_length]
    congr 2
    rw [Nat.mod_add_mod, Nat.mod_add_mod]
    congr 1; omega

theorem cycPairs_reverse (l : List α) :
    cycPairs l.reverse = (((cycPairs l).map Prod.swap).reverse).rotate 1 := by
  apply List.ext_getElem
  · simp [cycPairs_length]
  · intro i h1 h2
    have hn : i < l.length := by simpa [cycPairs_length] using h1
    rw [cycPairs_getElem, List.getElem_rotate]
    simp only [List.getElem_reverse, List.getElem_map, cycPairs_getElem, List.length_reverse,
      List.length_map, cycPairs_length, Prod.swap]
    by_cases hi : i + 1 < l.length
    · have e1 : (i + 1) % l.length = i + 1 := Nat.mod_eq_of_lt hi
      have e2 : (l.length - 1 - (i + 1) + 1) % l.length = l.length - 1 - i := by
        rw [Nat.mod_eq_of_lt (by omega)]; omega
      simp only [e1, e2]
    · have he : i + 1 = l.length := by omega
      have e1 : (i + 1) % l.length = 0 := by rw [he, Nat.mod_self]
      have e2 : (l.length - 1 - 0 + 1) % l.length = 0 := by
        rw [show l.length - 1 - 0 + 1 = l.length by omega, Nat.mod_self]
      have e3 : l.length - 1 - i = 0 := by omega
      simp only [e1, e2, e3]

theorem cycPairs_reverse_perm (l : List α) :
    (cycPairs l.reverse).Perm ((cycPairs l).map Prod.swap) := by
  rw [cycPairs_reverse]
  exact (List.rotate_perm _ _).trans (List.reverse_perm _)

section Sums
variable {K : Type} [Field K]

/-- Telescoping around the cycle. -/
theorem cyc_telescope (f : α → K) (l : List α) :
    ((cycPairs l).map (fun e => f e.2 - f e.1)).sum = 0 := by
  have h1 : ((cycPairs l).map (fun e => f e.2)).sum = (l.map f).sum := by
    have : (cycPairs l).map (fun e => f e.2) = ((cycPairs l).map Prod.snd).map f := by simp
    rw [this]
    exact ((cycPairs_snd_perm l).map f).sum_eq
  have h2 : ((cycPairs l).map (fun e => f e.1)).sum = (l.map f).sum := by
    have : (cycPairs l).map (fun e => f e.1) = ((cycPairs l).map Prod.fst).map f := by simp
    rw [this, cycPairs_fst]
  have h3 : ∀ m : List (α × α), (m.map (fun e => f e.2 - f e.1)).sum =
      (m.map (fun e => f e.2)).sum - (m.map (fun e => f e.1)).sum := by
    intro m
    induction m with
    | nil => simp
    | cons a m ih => simp only [List.map_cons, List.sum_cons, ih]; ring
  rw [h3, h1, h2, sub_self]

theorem list_sum_add (f g : α → K) (l : List α) :
    (l.map (fun e => f e + g e)).sum = (l.map f).sum + (l.map g).sum := by
  induction l with
  | nil => simp
  | cons a l ih => simp only [List.map_cons, List.sum_cons, ih]; ring

theorem list_sum_mul (c : K) (f : α → K) (l : List α) :
    (l.map (fun e => c * f e)).sum = c * (l.map f).sum := by
  induction l with
  | nil => simp
  | cons a l ih => simp only [List.map_cons, List.sum_cons, ih]; ring

end Sums
end Delynoi
