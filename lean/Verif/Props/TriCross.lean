import Verif.Proofs.TriCross
/-!
# C150: a segment crosses a subsegment
-/
set_option linter.unusedSectionVars false
namespace Delynoi
open Tri
variable {K : Type} [Field K] [LinearOrder K] [IsStrictOrderedRing K]
  {pos : Nat → Pt K} {ts : List Nat} {s : Segs} {e : Otri} {n1 n2 nv b r l fuel : Nat} {p : Pt K}

/-- C150: where the way from the apex `b` of a triangle to `p` leaves it through its edge from `r` to `l`,
which has a subsegment, `segmentintersection` never fails; it puts a vertex on both segments, cuts the
subsegment there, and returns the edge from the new vertex to `b`. -/
theorem C150_cross (M : SegMesh s (· ∈ ts)) (f : Flat s.mesh (· ∈ ts) pos) (ht : s.mesh.Tri3 (· ∈ ts) e b r l) (hs : (s.mesh.sub e).1 ≠ 0)
    (hn1 : n1 ∉ ts) (hn2 : n2 ∉ ts) (z1 : n1 ≠ 0) (z2 : n2 ≠ 0) (h12 : n1 ≠ n2) (hv : Fresh s.mesh (· ∈ ts) nv)
    (p1 : 0 < turn (pos b) (pos r) p) (p2 : 0 < turn (pos b) p (pos l)) (p3 : turn (pos r) (pos l) p < 0)
    (hk : ∀ o : Osub, o.1 = (s.mesh.sub e).1 → s.slink o = (0, false)) (hf : 3 * (ts.length + 2) ≤ fuel) :
    ∃ s' pos' z L', segmentintersection pos nv n1 n2 fuel s e (s.mesh.sub e) p = .ok (s', pos', z) ∧
      (∀ t, L' t ↔ t ∈ ts ∨ t = n1 ∨ (s.mesh.nbr e ≠ (0, 0) ∧ t = n2)) ∧
      (∀ v, v ≠ nv → pos' v = pos v) ∧ Amid (pos r) (pos l) (pos' nv) ∧ Amid (pos b) p (pos' nv) ∧
      Inserted true s.mesh (· ∈ ts) pos' nv s'.mesh L' z ∧ SegMesh s' L' ∧ SubCut s (· ∈ ts) s' L' (s.mesh.sub e) r l nv ∧
      s'.mesh.Dir L' z nv b ∧ (∀ d, s.mesh.Tri3 (· ∈ ts) (s.mesh.nbr e) d l r → s'.mesh.Adj L' nv d) ∧
      ∀ v w, Lone s'.mesh L' v w ↔
        (Lone s.mesh (· ∈ ts) v w ∧ ¬ (v = r ∧ w = l)) ∨ (s.mesh.nbr e = (0, 0) ∧ ((v = nv ∧ w = l) ∨ (v = r ∧ w = nv))) :=
  segmentintersection_spec M f ht hs hn1 hn2 z1 z2 h12 hv p1 p2 p3 hk hf

/-- C150: parallel segments are an internal error. -/
theorem C150_parallel (ht : s.mesh.Tri3 (· ∈ ts) e b r l) (o : Osub)
    (hp : ((pos l).x - (pos r).x) * (p.y - (pos b).y) = ((pos l).y - (pos r).y) * (p.x - (pos b).x)) :
    segmentintersection pos nv n1 n2 fuel s e o p = .exn := by
  have eA : s.mesh.apex e = some b := ht.2.1
  have eO : s.mesh.org e = some r := (Tri3.dirs ht).1.2.1
  have eD : s.mesh.dest e = some l := (Tri3.dirs ht).1.2.2
  unfold segmentintersection
  simp only [eA, eO, eD, deref, Outcome.bind_ok]
  exact if_pos (by rw [hp]; ring)

/-! ## The kite with a bar -/

example : ∃ s' pos' z L', segmentintersection (kiteWith ⟨0, 0⟩) 4 3 4 12 barred (1, 0) (1, false) ⟨1, 1⟩ = .ok (s', pos', z) ∧
    Inserted true barred.mesh (· ∈ [1, 2]) pos' 4 s'.mesh L' z ∧ SubCut barred (· ∈ [1, 2]) s' L' (1, false) 0 1 4 ∧ s'.mesh.Dir L' z 4 2 := by
  obtain ⟨s', pos', z, L', k1, -, -, -, -, k2, -, k3, k4, -⟩ := C150_cross (pos := kiteWith ⟨0, 0⟩) (p := ⟨1, 1⟩) (fuel := 12) barred_segMesh
      ((kiteWith_flat ⟨0, 0⟩).congr rfl) (e := (1, 0)) (b := 2) (r := 0) (l := 1) (n1 := 3) (n2 := 4) (nv := 4) ⟨by decide, rfl, rfl, rfl⟩ (by decide)
      (by decide) (by decide) (by decide) (by decide) (by decide) two_fresh (by decide +kernel) (by decide +kernel) (by decide +kernel)
      (fun _ _ => rfl) (by decide)
  exact ⟨s', pos', z, L', k1, k2, k3, k4⟩

/-- The new vertex is at (1/2, 0) and has the mark 7; the two parts end at it. -/
example : (match segmentintersection (kiteWith ⟨0, 0⟩) 4 3 4 12 barred (1, 0) (1, false) ⟨1, 1⟩ with
    | .ok (s', pos', z) => some (z, [(pos' 4).x, (pos' 4).y], s'.vmark 4, [(1, false), (1, true), (2, false), (2, true)].map s'.segend)
    | _ => none) = some ((3, 2), [1 / 2, 0], 7, [some 1, some 4, some 4, some 0]) := by decide +kernel

/-- The segment from (0, -1) to (1, -1) is parallel to the bar. -/
example : segmentintersection (kiteWith ⟨0, 0⟩) 4 3 4 12 barred (1, 0) (1, false) ⟨1, -1⟩ = .exn :=
  C150_parallel (ts := [1, 2]) (b := 2) (r := 0) (l := 1) ⟨by decide, rfl, rfl, rfl⟩ _ (by decide +kernel)

end Delynoi
