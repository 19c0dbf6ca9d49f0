import Verif.Proofs.TriSegment4
import Verif.Props.TriLocate
/-!
# C140–C144: segments in the mesh
-/
set_option linter.unusedSectionVars false
namespace Delynoi
open Tri
variable {K : Type} [Field K] [LinearOrder K] [IsStrictOrderedRing K]
  {m : Heap} {s : Segs} {L : Nat → Prop} {ts : List Nat} {pos : Nat → Pt K} {p : Pt K} {v w : Nat} {x : Otri} {fuel turns : Nat}

/-! ## `insertsubseg` -/

/-- C140: `insertsubseg` never fails on an edge of the mesh.  Afterwards the edge has a subsegment
with the endpoints of the edge, on both sides; an edge that had one keeps it; marks are set only
where there were none; everything else is as before, and the mesh is consistent. -/
theorem C140_insert (M : SegMesh s L) (hd : s.mesh.Dir L x v w) (k : Int) :
    ∃ s', s.insertsubseg x k = .ok s' ∧ SegMesh s' L ∧ Subbed s s' L x v w k :=
  insertsubseg_spec M hd k

/-- C140: both sides have the same subsegment, seen from opposite directions, and it leads back to
them. -/
theorem C140_bothSides (M : SegMesh s L) (hd : s.mesh.Dir L x v w) (k : Int) (hn : L (s.mesh.nbr x).1) :
    ∃ s', s.insertsubseg x k = .ok s' ∧ (s'.mesh.sub x).1 ≠ 0 ∧
      s'.mesh.sub (s.mesh.nbr x) = ((s'.mesh.sub x).1, !(s'.mesh.sub x).2) ∧
      s'.mesh.stri (s'.mesh.sub x) = x ∧ s'.mesh.stri (s'.mesh.sub (s.mesh.nbr x)) = s.mesh.nbr x ∧
      s'.send (s'.mesh.sub x) = some w ∧ s'.send (s'.mesh.sub (s.mesh.nbr x)) = some v := by
  obtain ⟨s', e, M', b⟩ := insertsubseg_spec M hd k
  have hn' : L (s'.mesh.nbr x).1 := by rw [b.nbr]; exact hn
  have h1 := M'.segmented.both x hd.1 hn' b.has
  rw [b.nbr] at h1 hn'
  have h0 : (s'.mesh.sub (s.mesh.nbr x)).1 ≠ 0 := by rw [h1]; exact b.has
  have he := M'.endpointed.ends x v w ((dir_congr b.corner).2 hd) b.has
  refine ⟨s', e, b.has, h1, M'.segmented.back x hd.1 b.has, M'.segmented.back _ hn' h0, he.1, ?_⟩
  rw [h1]
  exact he.2

/-! ## `finddirection` -/

/-- C141: if no edge of the boundary at the vertex is in the way, `finddirection` ends and its answer
is right. -/
theorem C141_found (h : Linked m (· ∈ ts)) (c : Ccw m (· ∈ ts) pos) (hin : InsideAt m (· ∈ ts) pos v p)
    (hx : m.Dir (· ∈ ts) x v w) (hp : p ≠ pos v) (hf : 3 * ts.length ≤ fuel) :
    ∃ r y, finddirection m pos p fuel x = .ok (r, y) ∧ Toward m (· ∈ ts) pos v p r y := by
  rcases finddirection_spec (p := p) h c hf ⟨hx.1, hx.2.1⟩ hp with ⟨-, y, a, b, hd, hn, hv, hlt⟩ | h
  · exact absurd (hin y a b hd hn hv) (not_le.2 hlt)
  · exact h

/-- C141: in any mesh `finddirection` ends, reads no missing corner, and if it gives an answer, the
answer is right; it gives up only if the point is beyond an edge of the boundary at the vertex. -/
theorem C141_answer (h : Linked m (· ∈ ts)) (c : Ccw m (· ∈ ts) pos) (hx : m.Dir (· ∈ ts) x v w) (hp : p ≠ pos v)
    (hf : 3 * ts.length ≤ fuel) :
    finddirection m pos p fuel x ≠ .ub ∧
    (∀ r y, finddirection m pos p fuel x = .ok (r, y) → Toward m (· ∈ ts) pos v p r y) ∧
    (finddirection m pos p fuel x = .exn → ¬ InsideAt m (· ∈ ts) pos v p) := by
  rcases finddirection_spec (p := p) h c hf ⟨hx.1, hx.2.1⟩ hp with ⟨e, y, a, b, hd, hn, hv, hlt⟩ | ⟨r, y, e, ht⟩
  · rw [e]
    exact ⟨by simp, by simp, fun _ hin => absurd (hin y a b hd hn hv) (not_le.2 hlt)⟩
  · rw [e]
    refine ⟨by simp, ?_, by simp⟩
    intro r' y' e'
    cases e'
    exact ht

/-- Four of the triangles around vertex 0: its neighbours are 1, 2, 3, 4, 5, and the triangle between
5 and 1 is missing. -/
def openFan : Heap where
  nbr x := if x.1 = 0 ∨ 4 < x.1 then (0, 0) else if x.2 = 0 then (0, 0) else
    if x.2 = 1 then (if x.1 = 4 then (0, 0) else (x.1 + 1, 2)) else (if x.1 = 1 then (0, 0) else (x.1 - 1, 1))
  corner x := if x.1 = 0 then none else if x.2 = 0 then some 0 else if x.2 = 1 then some x.1 else some (x.1 + 1)
  sub _ := (0, false)
  stri _ := (0, 0)

def openFanPos (n : Nat) : Pt ℚ :=
  if n = 0 then ⟨0, 0⟩ else if n = 1 then ⟨1, 0⟩ else if n = 2 then ⟨0, 1⟩ else if n = 3 then ⟨-1, 0⟩ else
    if n = 4 then ⟨0, -1⟩ else ⟨1, -2⟩

theorem openFan_linked : Linked openFan (· ∈ [1, 2, 3, 4]) :=
  linked_of_table (by decide +kernel) (by decide +kernel) (by decide +kernel) (by decide +kernel) (by decide +kernel)

/-- C141: `finddirection` can give up although the way starts in a triangle of the mesh: from triangle
3 the point is straight behind, the search turns left and comes to the boundary; triangle 1, in which
the way starts, is to the right. -/
theorem C141_concave_refuted :
    Linked openFan (· ∈ [1, 2, 3, 4]) ∧ openFan.org (3, 2) = some 0 ∧ openFan.org (1, 2) = some 0 ∧
    finddirection openFan openFanPos ⟨1/2, 1/4⟩ 12 (3, 2) = .exn ∧
    finddirection openFan openFanPos ⟨1/2, 1/4⟩ 12 (1, 2) = .ok (.within, (1, 2)) :=
  ⟨openFan_linked, by decide +kernel⟩

/-! ## `scoutsegment` -/

/-- C142: `scoutsegment` inserts subsegments along a straight path from the vertex towards the end of
the segment, and nowhere else, until it has reached the end or has come to an edge that crosses the
segment. -/
theorem C142_scout (segmentintersection : Segs → Otri → Osub → Outcome (Segs × Otri)) (k : Int) (M : SegMesh s (· ∈ ts))
    (c : Ccw s.mesh (· ∈ ts) pos) (hin : Inside s.mesh (· ∈ ts) pos p) (hcl : Clear s.mesh (· ∈ ts) pos p)
    (hx : s.mesh.Dir (· ∈ ts) x v w) (hp : pos v ≠ p) (ht : 3 * ts.length ≤ turns) (hf : 3 * ts.length ≤ fuel) :
    ∃ path s' u, List.IsChain (OnWay s.mesh (· ∈ ts) pos p) (v :: path) ∧ (v :: path).getLast? = some u ∧ SegMesh s' (· ∈ ts) ∧
      Paved s s' (· ∈ ts) (v :: path) ∧
      ScoutEnd segmentintersection pos p k turns (· ∈ ts) s' u (scoutsegment segmentintersection pos p k turns fuel s x) := by
  refine scout_spec segmentintersection k ht fuel s x v M c hin hcl ⟨hx.1, hx.2.1⟩ hp ?_
  refine lt_of_lt_of_le (Finset.card_lt_card ⟨Finset.filter_subset _ _, fun hsub => ?_⟩) (vertsOf_card.trans hf)
  have := hsub (mem_vertsOf (x := lnext x) hx.1 hx.2.1)
  rw [nearer, Finset.mem_filter] at this
  exact lt_irrefl _ this.2

/-- C142: if it reports success, then all edges of a straight path from the vertex to the end of the
segment have subsegments, provided no subsegment crosses the segment. -/
theorem C142_success (k : Int) (M : SegMesh s (· ∈ ts)) (c : Ccw s.mesh (· ∈ ts) pos) (hin : Inside s.mesh (· ∈ ts) pos p)
    (hcl : Clear s.mesh (· ∈ ts) pos p) (hx : s.mesh.Dir (· ∈ ts) x v w) (hp : pos v ≠ p) (ht : 3 * ts.length ≤ turns)
    (hf : 3 * ts.length ≤ fuel) {s' : Segs} {y : Otri} (hok : scoutsegment (fun _ _ _ => .exn) pos p k turns fuel s x = .ok (true, s', y)) :
    ∃ path u, List.IsChain (OnWay s.mesh (· ∈ ts) pos p) (v :: path) ∧ (v :: path).getLast? = some u ∧ pos u = p ∧
      SegMesh s' (· ∈ ts) ∧ Paved s s' (· ∈ ts) (v :: path) := by
  obtain ⟨path, s1, u, c1, c2, c3, c4, c5⟩ := C142_scout (fun _ _ _ => .exn) k M c hin hcl hx hp ht hf
  rcases c5 with ⟨e, y', h⟩ | ⟨y', l, r, -, -, -, -, ⟨-, h⟩ | ⟨-, f, h⟩⟩
  · rw [hok] at h
    cases h
    exact ⟨path, u, c1, c2, e, c3, c4⟩
  · rw [hok] at h; cases h
  · rw [hok] at h; cases h

/-! ## `markhull` -/

/-- C143: `markhull` ends; afterwards every edge of the boundary has a subsegment, and it, its
subsegment and its endpoints have marks; marks and subsegments that were there are kept, and nothing
else has changed. -/
theorem C143_markhull (M : SegMesh s (· ∈ ts)) (f : Fans s.mesh (· ∈ ts)) (o : OneHull s.mesh (· ∈ ts))
    (h0 : Hull s.mesh (· ∈ ts) (s.mesh.nbr (0, 0))) (hf : 3 * ts.length ≤ fuel) :
    ∃ s', markhull fuel s = .ok s' ∧ SegMesh s' (· ∈ ts) ∧ SubbedAll s s' (· ∈ ts) (Hull s.mesh (· ∈ ts)) :=
  markhull_spec M f o h0 hf

/-- C143: after `markhull` no triangle has an unprotected edge, so that `carveholes` with `-c` off
removes nothing at the boundary. -/
theorem C143_protected (M : SegMesh s (· ∈ ts)) (f : Fans s.mesh (· ∈ ts)) (o : OneHull s.mesh (· ∈ ts))
    (h0 : Hull s.mesh (· ∈ ts) (s.mesh.nbr (0, 0))) (hf : 3 * ts.length ≤ fuel) :
    ∃ s', markhull fuel s = .ok s' ∧ ∀ t, ¬ Unprotected s'.mesh ts t := by
  obtain ⟨s', e, -, A⟩ := markhull_spec M f o h0 hf
  refine ⟨s', e, ?_⟩
  rintro t ⟨y, hy, -, hs⟩
  have hy' : Hull s.mesh (· ∈ ts) y := ⟨hy.1, by rw [← A.nbr]; exact hy.2⟩
  by_cases h : (s.mesh.sub y).1 = 0
  · have := (A.new y hy' h).1
    omega
  · rw [A.kept y hy' h] at hs
    exact h hs

/-! ## `makevertexmap` -/

/-- C144: after `makevertexmap` every corner of a triangle has a triangle with that origin; vertices
that are not corners keep what they had. -/
theorem C144_map (hc : ∀ t ∈ ts, ∀ o, ∃ v, m.corner (t, o) = some v) (v2t : Nat → Option Otri) :
    ∃ v2t', makevertexmap m ts v2t = .ok v2t' ∧
      ∀ v, (∃ x, x.1 ∈ ts ∧ m.org x = some v ∧ v2t' v = some x) ∨
        ((∀ x, x.1 ∈ ts → m.org x ≠ some v) ∧ v2t' v = v2t v) :=
  makevertexmap_spec hc v2t

/-- C144: so the search for a segment starts at once at any vertex of the mesh. -/
theorem C144_start (h : Linked m (· ∈ ts)) (v2t : Nat → Option Otri) (hx : m.Dir (· ∈ ts) x v w) :
    ∃ v2t' y w', makevertexmap m ts v2t = .ok v2t' ∧ startAt m v2t' v = some y ∧ m.Dir (· ∈ ts) y v w' := by
  obtain ⟨v2t', e, hv⟩ := makevertexmap_spec (m := m) (ts := ts) (fun t ht o => h.corners t ht o) v2t
  rcases hv v with ⟨y, h1, h2, h3⟩ | ⟨h1, -⟩
  · obtain ⟨w', hw'⟩ := h.corners y.1 h1 (lprev y).2
    refine ⟨v2t', y, w', e, ?_, h1, h2, hw'⟩
    simp only [startAt, h3, h2, if_true]
  · exact absurd hx.2.1 (h1 x hx.1)

/-! ## The square with four triangles again -/

/-- The square (see `square`) with its three subsegments; the first two have marks. -/
def diamondSegs : Segs where
  mesh := diamond
  send o := if o = (1, false) then some 0 else if o = (1, true) then some 4 else if o = (2, false) then some 4 else
    if o = (2, true) then some 2 else if o = (3, false) then some 0 else if o = (3, true) then some 3 else none
  segend _ := none
  smark n := if n = 1 then 7 else if n = 2 then 8 else 0
  vmark n := if n = 0 then 9 else 0
  count := 3

theorem diamond_segMesh : SegMesh diamondSegs (· ∈ [1, 2, 3, 4]) := by
  have conv : ∀ p : Otri → Prop, (∀ t ∈ [1, 2, 3, 4], ∀ o, p (t, o)) → ∀ x : Otri, x.1 ∈ [1, 2, 3, 4] → p x :=
    fun p h x hx => h x.1 hx x.2
  refine ⟨diamond_linked, ?_, by unfold Proper; decide +kernel, ⟨conv _ (by decide +kernel), ?_⟩⟩
  · refine ⟨conv _ (by decide +kernel), conv _ (by decide +kernel), conv _ (by decide +kernel), conv _ (by decide +kernel), ?_⟩
    intro x y hx hy
    exact conv (fun y => ((diamond.sub x).1 ≠ 0 → (diamond.sub x).1 = (diamond.sub y).1 → y = x ∨ y = diamond.nbr x))
      (conv (fun x => ∀ t ∈ [1, 2, 3, 4], ∀ o, ((diamond.sub x).1 ≠ 0 → (diamond.sub x).1 = (diamond.sub (t, o)).1 →
        (t, o) = x ∨ (t, o) = diamond.nbr x)) (by decide +kernel) x hx) y hy
  · rintro x v w ⟨h1, h2, h3⟩ hs
    have key := conv (fun x => (diamond.sub x).1 ≠ 0 → diamondSegs.send (diamond.sub x) = diamond.corner (x.1, x.2 + 2) ∧
      diamondSegs.send ((diamond.sub x).1, !(diamond.sub x).2) = diamond.corner (x.1, x.2 + 1)) (by decide +kernel) x h1 hs
    exact ⟨key.1.trans h3, key.2.trans h2⟩

/-- A new subsegment between 1 and 4, and an old one between 0 and 4. -/
example : (∃ s', diamondSegs.insertsubseg (1, 1) 5 = .ok s' ∧ s'.mesh.sub (1, 1) = (4, false) ∧ s'.mesh.sub (2, 2) = (4, true) ∧
      s'.smark 4 = 5 ∧ s'.vmark 1 = 5 ∧ s'.vmark 4 = 5) ∧
    (∃ s', diamondSegs.insertsubseg (1, 2) 5 = .ok s' ∧ s'.mesh.sub (1, 2) = (1, false) ∧ s'.smark 1 = 7 ∧ s'.vmark 0 = 9 ∧ s'.count = 3) :=
  ⟨⟨_, rfl, by decide +kernel⟩, ⟨_, rfl, by decide +kernel⟩⟩

example : ∃ s', diamondSegs.insertsubseg (1, 1) 5 = .ok s' ∧ SegMesh s' (· ∈ [1, 2, 3, 4]) ∧
    Subbed diamondSegs s' (· ∈ [1, 2, 3, 4]) (1, 1) 1 4 5 :=
  C140_insert diamond_segMesh ⟨by decide, by decide +kernel, by decide +kernel⟩ 5

/-- From the centre towards a point in triangle 3, and from a corner along an edge. -/
example : [finddirection diamond diamondPos ⟨-1/4, 1/4⟩ 12 (1, 2), finddirection diamond diamondPos ⟨0, 1⟩ 12 (1, 0),
    finddirection diamond diamondPos ⟨0, 1⟩ 12 (4, 2)] =
    [.ok (.within, (3, 2)), .ok (.leftCollinear, (1, 0)), .ok (.rightCollinear, (3, 2))] := by
  decide +kernel

theorem diamond_tables {P : Nat → Nat → Nat → Prop}
    (key : ∀ t ∈ [1, 2, 3, 4], ∀ o : Fin 3, ∀ v ∈ [0, 1, 2, 3, 4], ∀ a ∈ [0, 1, 2, 3, 4], ∀ b ∈ [0, 1, 2, 3, 4],
      diamond.corner (t, o) = some v → diamond.corner (t, o + 1) = some a → diamond.corner (t, o + 2) = some b → P v a b)
    {x : Otri} {v a b : Nat} (ht : diamond.Tri3 (· ∈ [1, 2, 3, 4]) x v a b) : P v a b := by
  have rng : ∀ t ∈ [1, 2, 3, 4], ∀ o : Fin 3, ∃ v ∈ [0, 1, 2, 3, 4], diamond.corner (t, o) = some v := by
    decide +kernel
  obtain ⟨t, o⟩ := x
  obtain ⟨h1, h2, h3, h4⟩ := ht
  obtain ⟨v', hv, ev⟩ := rng t h1 o
  obtain ⟨a', ha, ea⟩ := rng t h1 (o + 1)
  obtain ⟨b', hb, eb⟩ := rng t h1 (o + 2)
  cases h2.symm.trans ev; cases h3.symm.trans ea; cases h4.symm.trans eb
  exact key t h1 o v hv a ha b hb h2 h3 h4

theorem diamond_clear : Clear diamond (· ∈ [1, 2, 3, 4]) diamondPos ⟨-1, 0⟩ := by
  intro x v a b ht
  refine diamond_tables (P := fun v a b => 0 ≤ turn (diamondPos v) (diamondPos a) ⟨-1, 0⟩ → 0 ≤ turn (diamondPos a) (diamondPos b) ⟨-1, 0⟩ →
    0 ≤ turn (diamondPos b) (diamondPos v) ⟨-1, 0⟩ → ⟨-1, 0⟩ = diamondPos v ∨ ⟨-1, 0⟩ = diamondPos a ∨ ⟨-1, 0⟩ = diamondPos b) ?_ ht
  decide +kernel

theorem diamond_insideLeft : Inside diamond (· ∈ [1, 2, 3, 4]) diamondPos ⟨-1, 0⟩ := by
  have key : ∀ t ∈ [1, 2, 3, 4], ∀ o : Fin 3, ∀ a ∈ [0, 1, 2, 3, 4], ∀ b ∈ [0, 1, 2, 3, 4],
      diamond.corner (t, o + 1) = some a → diamond.corner (t, o + 2) = some b → diamond.nbr (t, o) = (0, 0) →
      0 ≤ turn (diamondPos a) (diamondPos b) ⟨-1, 0⟩ := by
    decide +kernel
  have rng : ∀ t ∈ [1, 2, 3, 4], ∀ o : Fin 3, ∃ v ∈ [0, 1, 2, 3, 4], diamond.corner (t, o) = some v := by
    decide +kernel
  rintro ⟨t, o⟩ a b ⟨h1, h3, h4⟩ hn
  obtain ⟨a', ha, ea⟩ := rng t h1 (o + 1)
  obtain ⟨b', hb, eb⟩ := rng t h1 (o + 2)
  cases h3.symm.trans ea; cases h4.symm.trans eb
  exact key t h1 o a ha b hb h3 h4 hn

/-- A segment from 1 to 3 goes over 4. -/
example : ∃ path s' u, List.IsChain (OnWay diamond (· ∈ [1, 2, 3, 4]) diamondPos ⟨-1, 0⟩) (1 :: path) ∧ (1 :: path).getLast? = some u ∧
    SegMesh s' (· ∈ [1, 2, 3, 4]) ∧ Paved diamondSegs s' (· ∈ [1, 2, 3, 4]) (1 :: path) ∧
    ScoutEnd (fun _ _ _ => .exn) diamondPos ⟨-1, 0⟩ 5 12 (· ∈ [1, 2, 3, 4]) s' u
      (scoutsegment (fun _ _ _ => .exn) diamondPos ⟨-1, 0⟩ 5 12 12 diamondSegs (1, 1)) :=
  C142_scout (w := 4) (fun _ _ _ => .exn) 5 diamond_segMesh diamond_ccw diamond_insideLeft diamond_clear
    ⟨by decide, by decide +kernel, by decide +kernel⟩ (by decide +kernel) (by decide) (by decide)

example : (do
    let r ← scoutsegment (fun _ _ _ => .exn) diamondPos ⟨-1, 0⟩ 5 12 12 diamondSegs (1, 1)
    Outcome.ok (r.1, [r.2.1.mesh.sub (1, 1), r.2.1.mesh.sub (2, 2), r.2.1.mesh.sub (3, 1), r.2.1.mesh.sub (4, 2)], r.2.1.count)) =
    .ok (true, [(4, false), (4, true), (5, true), (5, false)], 5) := by
  decide +kernel

theorem diamond_oneHull : OneHull diamond (· ∈ [1, 2, 3, 4]) := by
  have hz : ∀ z ∈ [((1, 0) : Otri), (2, 0), (3, 0), (4, 0)], Hull diamond (· ∈ [1, 2, 3, 4]) z := by
    unfold Hull; decide +kernel
  have only : ∀ t ∈ [1, 2, 3, 4], ∀ o : Fin 3, diamond.nbr (t, o) = (0, 0) → ((t, o) : Otri) ∈ [((1, 0) : Otri), (2, 0), (3, 0), (4, 0)] := by
    decide +kernel
  have all : ∀ x ∈ [((1, 0) : Otri), (2, 0), (3, 0), (4, 0)], ∀ y ∈ [((1, 0) : Otri), (2, 0), (3, 0), (4, 0)],
      alongTo diamond [(1, 0), (2, 0), (3, 0), (4, 0)] 4 x y = true := by
    decide +kernel
  intro x y hx hy
  exact alongTo_sound hz 4 x y hx (all x (only x.1 hx.1 x.2 hx.2) y (only y.1 hy.1 y.2 hy.2))

/-- `markhull` at the square: three new subsegments, and the old one between 3 and 0 gets a mark. -/
example : (do
    let r ← markhull 12 diamondSegs
    Outcome.ok ([r.mesh.sub (1, 0), r.mesh.sub (2, 0), r.mesh.sub (3, 0), r.mesh.sub (4, 0)], [r.smark 1, r.smark 2, r.smark 3, r.smark 4],
      [r.vmark 0, r.vmark 1, r.vmark 2, r.vmark 3, r.vmark 4])) =
    .ok ([(4, false), (5, false), (6, false), (3, false)], [7, 8, 1, 1], [9, 1, 1, 1, 0]) := by
  decide +kernel

example : ∃ s', markhull 12 diamondSegs = .ok s' ∧ ∀ t, ¬ Unprotected s'.mesh [1, 2, 3, 4] t :=
  C143_protected diamond_segMesh (fans_of_table 4 (by decide +kernel)) diamond_oneHull (by constructor <;> decide +kernel) (by decide)

example : ∃ v2t' y w', makevertexmap diamond [1, 2, 3, 4] (fun _ => none) = .ok v2t' ∧ startAt diamond v2t' 4 = some y ∧
    diamond.Dir (· ∈ [1, 2, 3, 4]) y 4 w' :=
  C144_start (x := (1, 2)) (w := 0) diamond_linked _ ⟨by decide, by decide +kernel, by decide +kernel⟩

end Delynoi
