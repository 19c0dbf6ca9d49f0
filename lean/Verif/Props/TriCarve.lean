import Verif.Proofs.TriCarve4
import Mathlib.Data.Fintype.Basic
/-!
# C136: removing triangles from Triangle's mesh

`plague` removes the triangles that can be reached from the infected ones without crossing a
subsegment (triangle.c:12653-12845).  `ts` are the triangles before, `P` the infected ones.
-/
set_option linter.unusedSectionVars false
namespace Delynoi
open Tri

section
variable {m : Heap} {ts P : List Nat} {s : Carve} {fuel : Nat}

/-- C136: `plague` ends without touching anything it has given back, and gives back exactly the
triangles reached from infected ones without crossing a subsegment, each once. -/
theorem C136_removed (r : Ready m ts P s) (hf : 3 * ts.length ≤ fuel) :
    ∃ s', Carve.plague fuel s P = .ok s' ∧ s'.dead.Nodup ∧ ∀ t, t ∈ s'.dead ↔ Doomed m (· ∈ ts) P t := by
  obtain ⟨s1, s', D, R, T, e, hD, I1, I⟩ := plague_inv r hf
  refine ⟨s', e, ?_, ?_⟩
  · rw [I.dead]; exact I1.nodup
  · rw [I.dead]; exact hD

/-- C136: the triangles that stay are linked as before among themselves, and their links to
triangles that went lead to the outside. -/
theorem C136_linked (r : Ready m ts P s) (hf : 3 * ts.length ≤ fuel) :
    ∃ s', Carve.plague fuel s P = .ok s' ∧ Linked s'.mesh (Stays m ts P) ∧
      ∀ y : Otri, Stays m ts P y.1 → s'.mesh.corner y = m.corner y ∧
        (Stays m ts P (m.nbr y).1 → s'.mesh.nbr y = m.nbr y) ∧
        (¬ Stays m ts P (m.nbr y).1 → s'.mesh.nbr y = (0, 0)) := by
  obtain ⟨s1, s', D, R, T, e, hD, I1, I⟩ := plague_inv r hf
  refine ⟨s', e, stays_linked hD I r.linked, fun y hy => ⟨stays_corner hD I hy, ?_, ?_⟩⟩
  · exact fun hn => (stays_nbr hD I hy).2 hn.2
  · intro hn
    by_cases hd : Doomed m (· ∈ ts) P (m.nbr y).1
    · exact (stays_nbr hD I hy).1 hd
    · rw [(stays_nbr hD I hy).2 hd]
      rcases r.linked.links y hy.1 with h0 | ⟨v, w, -, h2⟩
      · exact h0
      · exact absurd ⟨h2.1, hd⟩ hn

/-- C136: the triangles that stay keep their subsegments, whose links stay consistent. -/
theorem C136_segments (r : Ready m ts P s) (hf : 3 * ts.length ≤ fuel) :
    ∃ s', Carve.plague fuel s P = .ok s' ∧ Segmented s'.mesh (Stays m ts P) ∧
      ∀ y : Otri, Stays m ts P y.1 → s'.mesh.sub y = m.sub y := by
  obtain ⟨s1, s', D, R, T, e, hD, I1, I⟩ := plague_inv r hf
  exact ⟨s', e, stays_segmented hD I1 I r.linked r.segmented, fun y hy => stays_sub hD I1 I hy⟩

/-- C136: exactly the subsegments of which no triangle stays are given back, each once. -/
theorem C136_freed (r : Ready m ts P s) (hf : 3 * ts.length ≤ fuel) :
    ∃ s', Carve.plague fuel s P = .ok s' ∧ s'.freed.Nodup ∧
      ∀ k, k ∈ s'.freed ↔ k ≠ 0 ∧ (∃ x : Otri, x.1 ∈ ts ∧ (m.sub x).1 = k) ∧
        ∀ x : Otri, x.1 ∈ ts → (m.sub x).1 = k → ¬ Stays m ts P x.1 := by
  obtain ⟨s1, s', D, R, T, e, hD, I1, I⟩ := plague_inv r hf
  refine ⟨s', e, ?_, fun k => ?_⟩
  · rw [I.freed]; exact I1.once
  · rw [freed_iff hD I1 I r.linked r.segmented]
    refine and_congr_right fun _ => and_congr_right fun _ => ?_
    constructor
    · exact fun a x hx e h => h.2 (a x hx e)
    · intro a x hx e
      by_contra hn
      exact a x hx e ⟨hx, hn⟩

/-- C136: between a triangle that stays and one that goes there is a subsegment; it forgets the
triangle that goes, and it and its endpoints have nonzero boundary markers afterwards. -/
theorem C136_cut (r : Ready m ts P s) (hf : 3 * ts.length ≤ fuel) :
    ∃ s', Carve.plague fuel s P = .ok s' ∧ ∀ y : Otri, Stays m ts P y.1 → (m.nbr y).1 ∈ ts → ¬ Stays m ts P (m.nbr y).1 →
      (m.sub y).1 ≠ 0 ∧ s'.mesh.stri (m.sub y) = y ∧ s'.mesh.stri ((m.sub y).1, !(m.sub y).2) = (0, 0) ∧
      s'.smark (m.sub y).1 ≠ 0 ∧ ∀ v w, m.Dir (· ∈ ts) y v w → s'.vmark v ≠ 0 ∧ s'.vmark w ≠ 0 := by
  obtain ⟨s1, s', D, R, T, e, hD, I1, I⟩ := plague_inv r hf
  refine ⟨s', e, fun y hy hn hns => ?_⟩
  have hd : Doomed m (· ∈ ts) P (m.nbr y).1 := by
    by_contra h; exact hns ⟨hn, h⟩
  obtain ⟨h1, h2, h3, h4⟩ := cut_spec hD I1 I r.linked r.segmented hy hd hn
  refine ⟨h1, ?_, h2, h3, h4⟩
  have := (stays_segmented hD I1 I r.linked r.segmented).back y hy (by rw [stays_sub hD I1 I hy]; exact h1)
  rw [stays_sub hD I1 I hy] at this; exact this

/-- C136: boundary markers only change from 0 to 1, and only those of subsegments of triangles that
go and of their endpoints. -/
theorem C136_marks (r : Ready m ts P s) (hf : 3 * ts.length ≤ fuel) :
    ∃ s', Carve.plague fuel s P = .ok s' ∧
      (∀ k, s'.smark k = s.smark k ∨ (s.smark k = 0 ∧ s'.smark k = 1 ∧
        ∃ x : Otri, Doomed m (· ∈ ts) P x.1 ∧ (m.sub x).1 = k)) ∧
      ∀ v, s'.vmark v = s.vmark v ∨ (s.vmark v = 0 ∧ s'.vmark v = 1 ∧
        ∃ x w, Doomed m (· ∈ ts) P x.1 ∧ (m.sub x).1 ≠ 0 ∧ (m.Dir (· ∈ ts) x v w ∨ m.Dir (· ∈ ts) x w v)) := by
  obtain ⟨s1, s', D, R, T, e, hD, I1, I⟩ := plague_inv r hf
  refine ⟨s', e, fun k => ?_, fun v => ?_⟩
  · rw [I.smark]
    rcases I1.smarks k with h | ⟨h1, h2, x, h3, h4⟩
    · exact Or.inl h
    · exact Or.inr ⟨h1, h2, x, (hD _).1 h3, h4⟩
  · rw [I.vmark]
    rcases I1.vmarks v with h | ⟨h1, h2, x, w, h3, h4⟩
    · exact Or.inl h
    · exact Or.inr ⟨h1, h2, x, w, (hD _).1 h3, h4⟩

/-- C136: exactly the vertices of which no triangle stays become `UNDEADVERTEX`, each once. -/
theorem C136_undead (r : Ready m ts P s) (hf : 3 * ts.length ≤ fuel) :
    ∃ s', Carve.plague fuel s P = .ok s' ∧ s'.undead.Nodup ∧
      ∀ v, v ∈ s'.undead ↔ (∃ y : Otri, y.1 ∈ ts ∧ m.corner y = some v) ∧
        ∀ y : Otri, y.1 ∈ ts → m.corner y = some v → ¬ Stays m ts P y.1 := by
  obtain ⟨s1, s', D, R, T, e, hD, I1, I⟩ := plague_inv r hf
  refine ⟨s', e, I.once, fun v => ?_⟩
  rw [undead_iff hD I1 I]
  refine and_congr_right fun _ => ?_
  constructor
  · exact fun a x hx e h => h.2 (a x hx e)
  · intro a x hx e
    by_contra hn
    exact a x hx e ⟨hx, hn⟩

/-- C136: `hullsize` is the number of boundary edges again. -/
theorem C136_hullsize (r : Ready m ts P s) (hf : 3 * ts.length ≤ fuel) :
    ∃ s', Carve.plague fuel s P = .ok s' ∧ s'.hullsize = hullEdges s'.mesh (Stays m ts P) := by
  obtain ⟨s1, s', D, R, T, e, hD, I1, I⟩ := plague_inv r hf
  exact ⟨s', e, stays_hull hD I1 I⟩

/-- C136: what lies flat in the plane still does. -/
theorem C136_flat {K : Type} [Field K] [LinearOrder K] {pos : Nat → Pt K} (r : Ready m ts P s)
    (f : Flat m (· ∈ ts) pos) (hf : 3 * ts.length ≤ fuel) :
    ∃ s', Carve.plague fuel s P = .ok s' ∧ Flat s'.mesh (Stays m ts P) pos := by
  obtain ⟨s1, s', D, R, T, e, hD, I1, I⟩ := plague_inv r hf
  refine ⟨s', e, ?_⟩
  have t3 : ∀ x v a b, s'.mesh.Tri3 (Stays m ts P) x v a b → m.Tri3 (· ∈ ts) x v a b := by
    rintro x v a b ⟨h1, h2, h3, h4⟩
    have c : ∀ o, s'.mesh.corner (x.1, o) = m.corner (x.1, o) := fun o => stays_corner hD I (y := (x.1, o)) h1
    exact ⟨h1.1, (stays_corner hD I h1).symm.trans h2, (c _).symm.trans h3, (c _).symm.trans h4⟩
  have adj : ∀ v w, s'.mesh.Adj (Stays m ts P) v w → m.Adj (· ∈ ts) v w := by
    rintro v w ⟨x, h | h⟩
    · exact ⟨x, Or.inl ((stays_dir hD I).1 h).2⟩
    · exact ⟨x, Or.inr ((stays_dir hD I).1 h).2⟩
  exact ⟨fun x v a b h => f.ccw x v a b (t3 x v a b h), fun x v a b w h1 h2 => f.cone x v a b w (t3 x v a b h1) (adj v w h2),
    fun v w w' h1 h2 => f.rays v w w' (adj v w h1) (adj v w' h2)⟩

end

/-! ## A square with four triangles -/

/-- Checks the links of a mesh. -/
theorem linked_of_table {m : Heap} {ts : List Nat} (h0 : 0 ∉ ts)
    (h1 : ∀ t ∈ ts, ∀ o, (m.corner (t, o)).isSome = true)
    (h2 : ∀ t ∈ ts, ∀ o, ∀ t' ∈ ts, ∀ o', m.corner (t, o + 1) = m.corner (t', o' + 1) →
      m.corner (t, o + 2) = m.corner (t', o' + 2) → (t, o) = (t', o'))
    (h3 : ∀ t ∈ ts, ∀ o, m.nbr (t, o) = (0, 0) ∨ ((m.nbr (t, o)).1 ∈ ts ∧
      m.corner ((m.nbr (t, o)).1, (m.nbr (t, o)).2 + 1) = m.corner (t, o + 2) ∧
      m.corner ((m.nbr (t, o)).1, (m.nbr (t, o)).2 + 2) = m.corner (t, o + 1)))
    (h4 : ∀ t ∈ ts, ∀ o, ∀ t' ∈ ts, ∀ o', m.corner (t, o + 1) = m.corner (t', o' + 2) →
      m.corner (t, o + 2) = m.corner (t', o' + 1) → m.nbr (t, o) = (t', o')) : Linked m (· ∈ ts) where
  dummy := h0
  corners := fun t ht o => Option.isSome_iff_exists.1 (h1 t ht o)
  once := by
    rintro ⟨t, o⟩ ⟨t', o'⟩ v w ⟨k1, k2, k3⟩ ⟨l1, l2, l3⟩
    exact h2 t k1 o t' l1 o' (k2.trans l2.symm) (k3.trans l3.symm)
  links := by
    rintro ⟨t, o⟩ ht
    rcases h3 t ht o with e | ⟨k1, k2, k3⟩
    · exact Or.inl e
    · obtain ⟨v, hv⟩ := Option.isSome_iff_exists.1 (h1 t ht (o + 1))
      obtain ⟨w, hw⟩ := Option.isSome_iff_exists.1 (h1 t ht (o + 2))
      exact Or.inr ⟨v, w, ⟨ht, hv, hw⟩, ⟨k1, k2.trans hw, k3.trans hv⟩⟩
  complete := by
    rintro ⟨t, o⟩ ⟨t', o'⟩ v w ⟨k1, k2, k3⟩ ⟨l1, l2, l3⟩
    exact h4 t k1 o t' l1 o' (k2.trans l3.symm) (k3.trans l2.symm)

/-- Can one turn from `x` to `y` in at most `n` steps? -/
def turnTo (m : Heap) (ts : List Nat) : Nat → Otri → Otri → Bool
  | 0, x, y => decide (x = y)
  | n + 1, x, y => decide (x = y) ||
    (decide (x.1 ∈ ts) && decide ((m.nbr (x.1, x.2 + 2)).1 ∈ ts) && turnTo m ts n (m.nbr (x.1, x.2 + 2)) y)

theorem turnTo_sound {m : Heap} {ts : List Nat} : ∀ n x y, turnTo m ts n x y = true →
    Relation.EqvGen (fun a b : Otri => a.1 ∈ ts ∧ b.1 ∈ ts ∧ m.nbr (a.1, a.2 + 2) = b) x y := by
  intro n
  induction n with
  | zero =>
    intro x y h
    simp only [turnTo, decide_eq_true_eq] at h
    rw [h]; exact .refl _
  | succ n ih =>
    intro x y h
    simp only [turnTo, Bool.or_eq_true, Bool.and_eq_true, decide_eq_true_eq] at h
    rcases h with h | ⟨⟨h1, h2⟩, h3⟩
    · rw [h]; exact .refl _
    · exact .trans _ _ _ (.rel _ _ ⟨h1, h2, rfl⟩) (ih _ _ h3)

theorem fans_of_table {m : Heap} {ts : List Nat} (n : Nat)
    (h : ∀ t ∈ ts, ∀ o, ∀ t' ∈ ts, ∀ o', m.corner (t, o + 1) = m.corner (t', o' + 1) →
      turnTo m ts n (t, o) (t', o') = true ∨ turnTo m ts n (t', o') (t, o) = true) : Fans m (· ∈ ts) := by
  rintro ⟨t, o⟩ ⟨t', o'⟩ v w w' ⟨k1, k2, -⟩ ⟨l1, l2, -⟩
  rcases h t k1 o t' l1 o' (k2.trans l2.symm) with h | h
  · exact turnTo_sound _ _ _ h
  · exact .symm _ _ (turnTo_sound _ _ _ h)

theorem hullEdges_of_table (m : Heap) (ts : List Nat) :
    hullEdges m (· ∈ ts) = ((ts.toFinset ×ˢ (Finset.univ : Finset (Fin 3))).filter (fun y : Otri => m.nbr y = (0, 0))).card := by
  unfold hullEdges
  rw [← Set.ncard_coe_finset]
  congr 1
  ext y
  simp

/-- A square with the corners 0, 1, 2, 3 and the centre 4, cut into four triangles; subsegment 1 is
on the edge from 0 to 4, subsegment 2 on the edge from 2 to 4, subsegment 3 on the edge from 3 to 0. -/
def square : Heap where
  nbr x := if x = (0, 0) then (1, 0) else if x.2 = 0 then (0, 0) else if x.2 = 1 then (x.1 % 4 + 1, 2) else ((x.1 + 2) % 4 + 1, 1)
  corner x := if x.2 = 0 then some 4 else if x.2 = 1 then some (x.1 - 1) else some (x.1 % 4)
  sub x := if x = (1, 2) then (1, false) else if x = (4, 1) then (1, true) else
    if x = (2, 1) then (2, false) else if x = (3, 2) then (2, true) else if x = (4, 0) then (3, false) else (0, false)
  stri s := if s = (1, false) then (1, 2) else if s = (1, true) then (4, 1) else
    if s = (2, false) then (2, 1) else if s = (2, true) then (3, 2) else if s = (3, false) then (4, 0) else (0, 0)

/-- The square with triangle 3 infected. -/
def squareSick : Carve where
  mesh := square
  sick t := decide (t = 3)
  smark _ := 0
  vmark _ := 0
  freed := []
  dead := []
  undead := []
  hullsize := 4

theorem square_linked : Linked square (· ∈ [1, 2, 3, 4]) :=
  linked_of_table (by decide +kernel) (by decide +kernel) (by decide +kernel) (by decide +kernel) (by decide +kernel)

theorem square_segmented : Segmented square (· ∈ [1, 2, 3, 4]) := by
  have conv : ∀ p : Otri → Prop, (∀ t ∈ [1, 2, 3, 4], ∀ o, p (t, o)) → ∀ x : Otri, x.1 ∈ [1, 2, 3, 4] → p x :=
    fun p h x hx => h x.1 hx x.2
  refine ⟨conv _ (by decide +kernel), conv _ (by decide +kernel), conv _ (by decide +kernel), conv _ (by decide +kernel), ?_⟩
  intro x y hx hy
  exact conv (fun y => ((square.sub x).1 ≠ 0 → (square.sub x).1 = (square.sub y).1 → y = x ∨ y = square.nbr x))
    (conv (fun x => ∀ t ∈ [1, 2, 3, 4], ∀ o, ((square.sub x).1 ≠ 0 → (square.sub x).1 = (square.sub (t, o)).1 →
      (t, o) = x ∨ (t, o) = square.nbr x)) (by decide +kernel) x hx) y hy

theorem square_ready : Ready square [1, 2, 3, 4] [3] squareSick where
  linked := square_linked
  segmented := square_segmented
  proper := by unfold Proper; decide +kernel
  fans := fans_of_table 4 (by decide +kernel)
  mesh := rfl
  nodup := by decide +kernel
  live := by decide +kernel
  sick := by simp [squareSick]
  freed := rfl
  dead := rfl
  undead := rfl
  hullsize := by
    rw [hullEdges_of_table]
    decide +kernel

/-- Triangles 3 and 4 go with subsegment 3 and vertex 3; the boundary has again 4 edges. -/
example : (do
    let s' ← Carve.plague 12 squareSick [3]
    Outcome.ok ([s'.dead, s'.freed, s'.undead], s'.hullsize, [s'.smark 1, s'.smark 2, s'.smark 3] ++
      [s'.vmark 0, s'.vmark 1, s'.vmark 2, s'.vmark 3, s'.vmark 4])) =
    Outcome.ok ([[3, 4], [3], [3]], 4, [1, 1, 0] ++ [1, 0, 1, 0, 1]) := by
  decide +kernel

example : ∃ s', Carve.plague 12 squareSick [3] = .ok s' ∧ Linked s'.mesh (Stays square [1, 2, 3, 4] [3]) := by
  obtain ⟨s', h1, h2, -⟩ := C136_linked square_ready (fuel := 12) (by decide +kernel)
  exact ⟨s', h1, h2⟩

end Delynoi
