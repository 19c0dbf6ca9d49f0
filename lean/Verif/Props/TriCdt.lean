import Verif.Spec.TriCdt
import Verif.Proofs.TriCdt2
import Verif.Props.TriInsert
/-!
# Constrained Delaunay triangulations (C161)

Inserting a vertex keeps a constrained Delaunay triangulation: not only the edges opposite to the new
vertex, which the loop looks at, but all edges are locally Delaunay, or subsegments.
-/
set_option linter.unusedSectionVars false
namespace Delynoi
open Tri
variable {K : Type} [Field K] [LinearOrder K] [IsStrictOrderedRing K]
variable {m : Heap} {L : Nat → Prop} {pos : Nat → Pt K} {e : Otri} {n1 n2 nv b r l fuel : Nat} {ts : List Nat}

theorem settled_iff {cs : Bool} : (∀ y, L y.1 → Settled cs m L pos y) ↔ ConstrainedDelaunay cs m L pos := by
  constructor
  · intro h x hx h1 h2
    rcases h x hx with k | k | k
    exacts [absurd (h2 k.1) k.2, absurd k h1, k]
  · intro h x hx
    by_cases h1 : m.nbr x = (0, 0)
    · exact Or.inr (Or.inl h1)
    by_cases h2 : cs = true ∧ (m.sub x).1 ≠ 0
    · exact Or.inl h2
    · exact Or.inr (Or.inr (h x hx h1 (fun hc => by by_contra h0; exact h2 ⟨hc, h0⟩)))

/-- C161: a vertex in a triangle. -/
theorem C161_inside (cs : Bool) (h : Linked m L) (f : Flat m L pos) (g : cs = true → Segmented m L) (hD : ConstrainedDelaunay cs m L pos)
    (ht : m.Tri3 L e b r l) (hn1 : ¬ L n1) (hn2 : ¬ L n2) (z1 : n1 ≠ 0) (z2 : n2 ≠ 0) (h12 : n1 ≠ n2) (hv : Fresh m L nv)
    (p1 : 0 < turn (pos r) (pos l) (pos nv)) (p2 : 0 < turn (pos l) (pos b) (pos nv)) (p3 : 0 < turn (pos b) (pos r) (pos nv))
    (hts : ∀ t, L t → t ∈ ts) (hf : 2 * ts.length < fuel) :
    ∃ m' x, insertAt cs pos nv n1 n2 fuel m .inTriangle e = .ok (some (m', x)) ∧
      Inserted cs m L pos nv m' (fun t => L t ∨ t = n1 ∨ t = n2) x ∧ ConstrainedDelaunay cs m' (fun t => L t ∨ t = n1 ∨ t = n2) pos := by
  obtain ⟨m', x, k1, k2, k3, -⟩ := C146_inside cs h f g ht hn1 hn2 z1 z2 h12 hv p1 p2 p3 hts hf
  exact ⟨m', x, k1, k2, settled_iff.1 (insertIn_settled cs h f g (splitAt_of f ht hn1 hn2 z1 z2 h12 hv) p1 p2 p3 (settled_iff.2 hD) k1 k2
    (fun hc => (k3 hc).1))⟩

/-- C161: a vertex on an edge without a subsegment. -/
theorem C161_edge (cs : Bool) (h : Linked m L) (f : Flat m L pos) (g : cs = true → Segmented m L ∧ (m.sub e).1 = 0)
    (hD : ConstrainedDelaunay cs m L pos) (ht : m.Tri3 L e b r l)
    (hn1 : ¬ L n1) (hn2 : ¬ L n2) (z1 : n1 ≠ 0) (z2 : n2 ≠ 0) (h12 : n1 ≠ n2) (hv : Fresh m L nv) (hm : Amid (pos r) (pos l) (pos nv))
    (hts : ∀ t, L t → t ∈ ts) (hf : 2 * ts.length < fuel) (i : Located) (hi : i = .onEdge ∨ i = .outside) :
    ∃ m' x L', insertAt cs pos nv n1 n2 fuel m i e = .ok (some (m', x)) ∧ (∀ t, L' t ↔ L t ∨ t = n1 ∨ (m.nbr e ≠ (0, 0) ∧ t = n2)) ∧
      Inserted cs m L pos nv m' L' x ∧ ConstrainedDelaunay cs m' L' pos := by
  rcases edgeAt_of h f ht hn1 hn2 z1 z2 h12 hv with ⟨h0, s⟩ | ⟨h0, d, T, s⟩ <;>
  · obtain ⟨m', x, k1, k2, k3, -⟩ := insertEdge_inserted h s cs f g hm ts hts fuel hf i hi
    exact ⟨m', x, _, k1, fun t => by simp [WithE, h0], k2,
      settled_iff.1 (insertEdge_settled h s cs f g hm (settled_iff.2 hD) hi k1 k2 (fun hc => (k3 hc).1))⟩

/-- C161: a vertex on a subsegment, which need not be locally Delaunay. -/
theorem C161_subsegment {s : Segs} (M : SegMesh s L) (f : Flat s.mesh L pos) (hD : ConstrainedDelaunay true s.mesh L pos)
    (ht : s.mesh.Tri3 L e b r l) (hs : (s.mesh.sub e).1 ≠ 0)
    (hn1 : ¬ L n1) (hn2 : ¬ L n2) (z1 : n1 ≠ 0) (z2 : n2 ≠ 0) (h12 : n1 ≠ n2) (hv : Fresh s.mesh L nv) (hm : Amid (pos r) (pos l) (pos nv))
    (hts : ∀ t, L t → t ∈ ts) (hf : 2 * ts.length < fuel) :
    ∃ s' x L', insertOn pos nv n1 n2 fuel s e (s.mesh.sub e) = .ok (s', x) ∧
      (∀ t, L' t ↔ L t ∨ t = n1 ∨ (s.mesh.nbr e ≠ (0, 0) ∧ t = n2)) ∧
      Inserted true s.mesh L pos nv s'.mesh L' x ∧ SubSplit s L s' L' (s.mesh.sub e) r l nv ∧ ConstrainedDelaunay true s'.mesh L' pos := by
  have h := M.linked
  rcases edgeAt_of h f ht hn1 hn2 z1 z2 h12 hv with ⟨h0, E⟩ | ⟨h0, d, T, E⟩ <;>
  · obtain ⟨s', x, k1, k2, k3, k4, -⟩ := insertOn_spec M E hs f hm ts hts fuel hf
    exact ⟨s', x, _, k1, fun t => by simp [WithE, h0], k2, k4,
      settled_iff.1 (insertOn_settled M E hs f hm (settled_iff.2 hD) k1 k2 k3)⟩

/-! ## Examples -/

/-- The kite with a subsegment on its diagonal, which is not Delaunay. -/
theorem barred_delaunay (p : Pt ℚ) : ConstrainedDelaunay true barred.mesh (· ∈ [1, 2]) (kiteWith p) := by
  have key : ∀ t ∈ [1, 2], ∀ o, barred.mesh.nbr (t, o) ≠ (0, 0) → (barred.mesh.sub (t, o)).1 ≠ 0 := by decide +kernel
  intro x hx h1 h2
  exact absurd (h2 rfl) (key x.1 hx x.2 h1)

/-- Without the subsegment it is not a Delaunay triangulation. -/
example (p : Pt ℚ) : ¬ ConstrainedDelaunay false barred.mesh (· ∈ [1, 2]) (kiteWith p) := by
  intro h
  have := h (1, 0) (by decide) (by decide) (by simp) 2 0 1 3 ⟨by decide, rfl, rfl, rfl⟩ ⟨by decide, rfl, rfl, rfl⟩ ⟨0, 3/2⟩
  have e : ∀ n, n ≠ 4 → kiteWith p n = kite n := fun n hn => if_neg hn
  rw [e 0 (by decide), e 1 (by decide), e 2 (by decide), e 3 (by decide)] at this
  exact absurd (this (by decide +kernel) (by decide +kernel)) (by decide +kernel)

/-- C161: a vertex in one of its triangles. -/
example : ∃ m' x, insertAt true (kiteWith ⟨0, -1/2⟩) 4 3 4 5 barred.mesh .inTriangle (1, 0) = .ok (some (m', x)) ∧
    ConstrainedDelaunay true m' (fun t => t ∈ [1, 2] ∨ t = 3 ∨ t = 4) (kiteWith ⟨0, -1/2⟩) := by
  obtain ⟨m', x, k1, -, k2⟩ := C161_inside (fuel := 5) true barred_segMesh.linked ((kiteWith_flat ⟨0, -1/2⟩).congr rfl) (fun _ => barred_segMesh.segmented)
    (barred_delaunay _) (e := (1, 0)) (b := 2) (r := 0) (l := 1) (n1 := 3) (n2 := 4) (nv := 4) ⟨by decide, rfl, rfl, rfl⟩ (by decide) (by decide)
    (by decide) (by decide) (by decide) two_fresh (by decide +kernel) (by decide +kernel) (by decide +kernel) (ts := [1, 2]) (fun _ h => h) (by decide)
  exact ⟨m', x, k1, k2⟩

/-- C161: a vertex on the subsegment. -/
example : ∃ s' x L', insertOn (kiteWith ⟨1, 0⟩) 4 3 4 5 barred (1, 0) (1, false) = .ok (s', x) ∧
    ConstrainedDelaunay true s'.mesh L' (kiteWith ⟨1, 0⟩) := by
  obtain ⟨s', x, L', k1, -, -, -, k3⟩ := C161_subsegment (fuel := 5) barred_segMesh ((kiteWith_flat ⟨1, 0⟩).congr rfl) (barred_delaunay _) (e := (1, 0)) (b := 2)
      (r := 0) (l := 1) (n1 := 3) (n2 := 4) (nv := 4) ⟨by decide, rfl, rfl, rfl⟩ (by decide) (by decide) (by decide) (by decide) (by decide) (by decide)
      two_fresh ⟨1/4, by decide +kernel⟩ (ts := [1, 2]) (fun _ h => h) (by decide)
  exact ⟨s', x, L', k1, k3⟩

/-- C161: a vertex on the edge at the boundary from 1 to 2, which has no subsegment. -/
example : ∃ m' x L', insertAt true (kiteWith ⟨-1, -1/2⟩) 4 3 4 5 barred.mesh .onEdge (1, 1) = .ok (some (m', x)) ∧
    ConstrainedDelaunay true m' L' (kiteWith ⟨-1, -1/2⟩) := by
  obtain ⟨m', x, L', k1, -, -, k3⟩ := C161_edge (fuel := 5) true barred_segMesh.linked ((kiteWith_flat ⟨-1, -1/2⟩).congr rfl)
      (fun _ => ⟨barred_segMesh.segmented, by decide⟩) (barred_delaunay _) (e := (1, 1)) (b := 0)
      (r := 1) (l := 2) (n1 := 3) (n2 := 4) (nv := 4) ⟨by decide, rfl, rfl, rfl⟩ (by decide) (by decide) (by decide) (by decide) (by decide)
      two_fresh ⟨1/2, by decide +kernel⟩ (ts := [1, 2]) (fun _ h => h) (by decide) .onEdge (Or.inl rfl)
  exact ⟨m', x, L', k1, k3⟩

end Delynoi
