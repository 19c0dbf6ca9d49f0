import Verif.Spec.TriPool
import Mathlib.Data.List.Basic
import Mathlib.Data.List.Nodup
import Mathlib.Data.List.Perm.Basic
import Mathlib.Tactic.Linarith
/-!
# Memory pools: proofs
-/
namespace Delynoi.Tri

variable {first per : Nat}

theorem slot_low {k : Nat} (h : k < first) : slot first per k = (0, k) := by simp [slot, h]

theorem slot_high {q r : Nat} (h : r < per) : slot first per (first + (q * per + r)) = (q + 1, r) := by
  have h0 : ¬ (first + (q * per + r) < first) := by omega
  have e : first + (q * per + r) - first = r + per * q := by rw [Nat.add_sub_cancel_left, Nat.mul_comm]; omega
  simp only [slot, h0, if_false, e]
  rw [Nat.add_mul_div_left _ _ (by omega), Nat.add_mul_mod_self_left, Nat.div_eq_of_lt h, Nat.mod_eq_of_lt h]
  simp

theorem slot_inj (hp : 0 < per) {j k : Nat} (h : slot first per j = slot first per k) : j = k := by
  unfold slot at h
  split_ifs at h with h1 h2 h2
  · simpa using h
  · simp at h
  · simp at h
  · simp only [Prod.mk.injEq, Nat.add_right_cancel_iff] at h
    have a := Nat.div_add_mod (j - first) per
    have b := Nat.div_add_mod (k - first) per
    rw [h.1, h.2] at a
    omega

/-- The position after `j` items: the place of the next one, and the number of places left in the block. -/
def At (first per j : Nat) (x : Item) (left : Nat) : Prop :=
  (x = (0, j) ∧ j + left = first) ∨ ∃ q r, j = first + (q * per + r) ∧ 0 < r ∧ r + left = per ∧ x = (q + 1, r)

theorem At.zero : At first per 0 (0, 0) first := Or.inl ⟨rfl, by simp⟩

theorem At.stay {j left : Nat} {x : Item} (h : At first per j x left) (h0 : left ≠ 0) :
    x = slot first per j ∧ At first per (j + 1) (x.1, x.2 + 1) (left - 1) := by
  rcases h with ⟨rfl, h⟩ | ⟨q, r, rfl, h1, h2, rfl⟩
  · exact ⟨(slot_low (by omega)).symm, Or.inl ⟨rfl, by omega⟩⟩
  · exact ⟨(slot_high (by omega)).symm, Or.inr ⟨q, r + 1, by omega, by omega, by omega, rfl⟩⟩

theorem At.move (hp : 0 < per) {j : Nat} {x : Item} (h : At first per j x 0) :
    (x.1 + 1, 0) = slot first per j ∧ At first per (j + 1) (x.1 + 1, 1) (per - 1) := by
  rcases h with ⟨rfl, h⟩ | ⟨q, r, rfl, h1, h2, rfl⟩
  · obtain rfl : j = first := by omega
    have := slot_high (first := j) (q := 0) hp
    simp only [Nat.zero_mul, Nat.add_zero] at this
    exact ⟨this.symm, Or.inr ⟨0, 1, by omega, by omega, by omega, rfl⟩⟩
  · obtain rfl : r = per := by omega
    have := slot_high (first := first) (q := q + 1) hp
    have e : (q + 1) * r = q * r + r := Nat.succ_mul q r
    rw [Nat.add_zero, e] at this
    exact ⟨this.symm, Or.inr ⟨q + 1, 1, by rw [e]; omega, by omega, by omega, rfl⟩⟩

theorem At.block_le {j k left left' : Nat} {x y : Item} (h : At first per j x left) (h' : At first per k y left') (hjk : j ≤ k) : x.1 ≤ y.1 := by
  rcases h with ⟨rfl, h⟩ | ⟨q, r, rfl, h1, h2, rfl⟩
  · exact Nat.zero_le _
  · rcases h' with ⟨rfl, h'⟩ | ⟨q', r', rfl, h1', h2', rfl⟩
    · omega
    · show q + 1 ≤ q' + 1
      by_contra hc
      have : (q' + 1) * per ≤ q * per := Nat.mul_le_mul_right _ (by omega)
      rw [Nat.succ_mul] at this
      omega

theorem At.inj {j k left left' : Nat} {x : Item} (h : At first per j x left) (h' : At first per k x left') : j = k := by
  rcases h with ⟨rfl, h⟩ | ⟨q, r, rfl, h1, h2, rfl⟩ <;> rcases h' with ⟨e, h'⟩ | ⟨q', r', rfl, h1', h2', e⟩ <;>
    simp only [Prod.mk.injEq] at e
  · exact e.2
  · omega
  · omega
  · obtain ⟨e1, e2⟩ := e
    obtain rfl : q = q' := by omega
    obtain rfl := e2
    rfl

/-- What holds of every pool. -/
structure Pool.Good (first per : Nat) (p : Pool) (live : List Item) : Prop where
  ef : p.itemsfirstblock = first
  ep : p.itemsperblock = per
  blocks : p.blocks = p.nowblock + 1
  now : p.nowblock = p.nextitem.1
  pos : At first per p.maxitems p.nextitem p.unallocateditems
  perm : (live ++ p.dead).Perm ((List.range p.maxitems).map (slot first per))
  items : p.items = live.length

theorem Pool.Good.alloc (hp : 0 < per) {p : Pool} {live : List Item} (G : p.Good first per live) :
    p.alloc.2.Good first per (p.alloc.1 :: live) := by
  obtain ⟨f, n, b, nb, ni, u, mx, it, dead⟩ := p
  obtain ⟨g1, g2, g3, g4, g5, g6, g7⟩ := G
  simp only at g1 g2 g3 g4 g5 g6 g7
  cases dead with
  | cons d ds =>
    refine ⟨g1, g2, g3, g4, g5, ?_, by simp [Pool.alloc, g7]⟩
    exact (List.perm_middle.symm).trans g6
  | nil =>
    rw [List.append_nil] at g6
    subst g1 g2 g4 g3 g7
    by_cases h0 : u = 0
    · subst h0
      obtain ⟨k1, k2⟩ := g5.move hp
      unfold Pool.alloc
      simp only [if_true]
      refine ⟨rfl, rfl, rfl, rfl, k2, ?_, rfl⟩
      rw [List.append_nil, List.range_succ, List.map_append, List.map_singleton, ← k1]
      exact (List.perm_append_singleton _ _).symm.trans (g6.append_right _)
    · obtain ⟨k1, k2⟩ := g5.stay h0
      unfold Pool.alloc
      simp only [if_neg h0]
      refine ⟨rfl, rfl, rfl, rfl, k2, ?_, rfl⟩
      rw [List.append_nil, List.range_succ, List.map_append, List.map_singleton, ← k1]
      exact (List.perm_append_singleton _ _).symm.trans (g6.append_right _)

theorem Pool.Good.nodup (hp : 0 < per) {p : Pool} {live : List Item} (G : p.Good first per live) : (live ++ p.dead).Nodup :=
  G.perm.nodup_iff.mpr (List.nodup_range.map fun _ _ h => slot_inj hp h)

theorem Pool.Good.dealloc {p : Pool} {live : List Item} {x : Item} (G : p.Good first per live) (hx : x ∈ live) :
    (p.dealloc x).Good first per (live.erase x) := by
  refine ⟨G.ef, G.ep, G.blocks, G.now, G.pos, ?_, ?_⟩
  · refine List.Perm.trans ?_ G.perm
    refine List.perm_middle.trans ?_
    rw [← List.cons_append]
    exact (List.perm_cons_erase hx).symm.append_right _
  · show p.items - 1 = _
    rw [G.items, List.length_erase_of_mem hx]

theorem Reach.good (hf : 0 < first) (hp : 0 < per) {p : Pool} {live : List Item} (h : Reach first per p live) : p.Good first per live := by
  induction h with
  | init =>
    have e : (if first = 0 then per else first) = first := if_neg (by omega)
    refine ⟨e, rfl, rfl, rfl, ?_, by simp [poolinit], rfl⟩
    show At first per 0 (0, 0) (if first = 0 then per else first)
    rw [e]; exact At.zero
  | alloc _ ih => exact ih.alloc hp
  | dealloc _ hx ih => exact ih.dealloc hx

/-- Fresh items. -/
theorem Pool.Good.fresh (hp : 0 < per) {p : Pool} {live : List Item} (G : p.Good first per live) : p.alloc.1 ∉ live := by
  have := (G.alloc hp).nodup hp
  exact (List.nodup_cons.mp (List.Nodup.of_append_left this)).1

theorem Pool.Good.slots {p : Pool} {live : List Item} (G : p.Good first per live) {x : Item} (hx : x ∈ live) : ∃ k < p.maxitems, x = slot first per k := by
  have := G.perm.mem_iff.mp (List.mem_append_left _ hx)
  simp only [List.mem_map, List.mem_range] at this
  obtain ⟨k, h, e⟩ := this
  exact ⟨k, h, e.symm⟩

theorem Pool.Good.traverse (hp : 0 < per) {p : Pool} {live : List Item} (G : p.Good first per live) {j : Nat} {c : Pool.Path}
    (hc : At first per j c.item c.left) (hb : c.block = c.item.1) (hj : j < p.maxitems) :
    ∃ c', p.traverse c = .ok (some (slot first per j), c') ∧ At first per (j + 1) c'.item c'.left ∧ c'.block = c'.item.1 := by
  have hne : c.item ≠ p.nextitem := fun e => by
    have hG := G.pos; rw [← e] at hG; have := hc.inj hG; omega
  unfold Pool.traverse
  rw [if_neg hne]
  obtain ⟨b, x, left⟩ := c
  simp only at hc hb hne ⊢
  subst hb
  by_cases h0 : left = 0
  · subst h0
    obtain ⟨k1, k2⟩ := hc.move hp
    have := k2.block_le G.pos hj
    rw [if_pos rfl, if_pos (by rw [G.blocks, G.now]; simp only at this; omega), Outcome.bind_ok, G.ep]
    exact ⟨⟨x.1 + 1, (x.1 + 1, 1), per - 1⟩, by simp [← k1], k2, rfl⟩
  · obtain ⟨k1, k2⟩ := hc.stay h0
    rw [if_neg h0, Outcome.bind_ok]
    exact ⟨_, by rw [← k1], k2, rfl⟩

theorem Pool.Good.walk (hp : 0 < per) {p : Pool} {live : List Item} (G : p.Good first per live) : ∀ (n : Nat) (j fuel : Nat) (c : Pool.Path),
    At first per j c.item c.left → c.block = c.item.1 → j + n = p.maxitems → n < fuel →
    p.walk fuel c = .ok ((List.range' j n).map (slot first per)) := by
  intro n
  induction n with
  | zero =>
    intro j fuel c hc hb hj hf
    obtain ⟨fuel, rfl⟩ : ∃ f, fuel = f + 1 := ⟨fuel - 1, by omega⟩
    have e : c.item = p.nextitem := by
      have hG := G.pos
      obtain rfl : j = p.maxitems := by omega
      rcases hc with ⟨e, h⟩ | ⟨q, r, hjq, h1, h2, e⟩ <;> rcases hG with ⟨e', h'⟩ | ⟨q', r', hjq', h1', h2', e'⟩
      · rw [e, e']
      · omega
      · omega
      · rw [e, e']
        have : q = q' := by
          rcases lt_trichotomy q q' with h | h | h
          · have : (q + 1) * per ≤ q' * per := Nat.mul_le_mul_right _ h
            rw [Nat.succ_mul] at this; omega
          · exact h
          · have : (q' + 1) * per ≤ q * per := Nat.mul_le_mul_right _ h
            rw [Nat.succ_mul] at this; omega
        subst this
        obtain rfl : r = r' := by omega
        rfl
    simp [Pool.walk, Pool.traverse, e]
  | succ n ih =>
    intro j fuel c hc hb hj hf
    obtain ⟨fuel, rfl⟩ : ∃ f, fuel = f + 1 := ⟨fuel - 1, by omega⟩
    obtain ⟨c', e, h1, h2⟩ := G.traverse hp hc hb (by omega)
    unfold Pool.walk
    rw [e]
    simp only [Outcome.bind_ok]
    rw [ih (j + 1) fuel c' h1 h2 (by omega) (by omega)]
    simp [List.range'_succ]

theorem Pool.Good.seek (hp : 0 < per) {p : Pool} {live : List Item} (G : p.Good first per live) (fn : Int) (q r : Nat) (hr : r < per)
    (hk : first + (q * per + r) < p.maxitems) : ∀ (n i fuel : Nat), i + n = q → n < fuel →
    p.seek (fn + (first + (q * per + r) : Nat)) fuel (i + 1) (fn + first + (i * per : Nat)) = .ok (q + 1, fn + first + (q * per : Nat)) := by
  have hb : q + 1 < p.blocks := by
    have h1 := G.pos
    rw [G.blocks, G.now]
    rcases h1 with ⟨-, h⟩ | ⟨q', r', e, h1, h2, h3⟩
    · omega
    · rw [h3]
      show q + 1 < q' + 1 + 1
      by_contra hc
      have : (q' + 1) * per ≤ q * per := Nat.mul_le_mul_right _ (by omega)
      rw [Nat.succ_mul] at this
      omega
  intro n
  induction n with
  | zero =>
    intro i fuel hi hf
    obtain ⟨fuel, rfl⟩ : ∃ f, fuel = f + 1 := ⟨fuel - 1, by omega⟩
    obtain rfl : i = q := by omega
    unfold Pool.seek
    rw [G.ep, if_neg (by push_cast; omega)]
  | succ n ih =>
    intro i fuel hi hf
    obtain ⟨fuel, rfl⟩ : ∃ f, fuel = f + 1 := ⟨fuel - 1, by omega⟩
    unfold Pool.seek
    have hle : (i + 1) * per ≤ q * per := Nat.mul_le_mul_right _ (by omega)
    have e1 : (i + 1) * per = i * per + per := Nat.succ_mul i per
    rw [e1] at hle
    rw [G.ep, if_pos (by push_cast [-Nat.cast_mul]; omega), if_pos (by omega)]
    have := ih (i + 1) fuel (by omega) (by omega)
    rw [e1] at this
    rw [← this]
    congr 1
    push_cast; omega

theorem Pool.Good.getvertex (hp : 0 < per) {p : Pool} {live : List Item} (G : p.Good first per live) (fn : Int) {k fuel : Nat}
    (hk : k < p.maxitems) (hf : k < fuel) : p.getvertex fn (fn + k) fuel = .ok (slot first per k) := by
  unfold Pool.getvertex
  rw [G.ef]
  by_cases h : k < first
  · rw [if_neg (by omega), Outcome.bind_ok, slot_low h]
    simp only
    rw [if_neg (by omega)]
    congr 2
    omega
  · obtain ⟨q, r, hr, rfl⟩ : ∃ q r, r < per ∧ k = first + (q * per + r) := by
      refine ⟨(k - first) / per, (k - first) % per, Nat.mod_lt _ hp, ?_⟩
      have := Nat.div_add_mod (k - first) per
      rw [Nat.mul_comm] at this
      omega
    have hq : q ≤ q * per := Nat.le_mul_of_pos_right _ hp
    have hs := G.seek hp fn q r hr hk q 0 fuel (by omega) (by omega)
    have hb : 1 < p.blocks := by
      have h1 := G.pos
      rw [G.blocks, G.now]
      rcases h1 with ⟨-, h⟩ | ⟨q', r', e, h1, h2, h3⟩
      · omega
      · rw [h3]; show 1 < q' + 1 + 1; omega
    simp only [Nat.zero_mul, Nat.zero_add, Nat.cast_zero, add_zero] at hs
    rw [if_pos (by push_cast; omega), if_pos hb, hs, Outcome.bind_ok, slot_high hr]
    simp only
    rw [if_neg (by push_cast; omega)]
    congr 2
    push_cast; omega

end Delynoi.Tri
