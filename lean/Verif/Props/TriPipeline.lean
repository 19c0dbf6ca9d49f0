import Verif.Proofs.TriPipeline
import Verif.Props.TriEncroach
/-!
# C165: carving, then splitting

What `carveholes` leaves is what `enforcequality` needs, so the two phases can be put together.
-/
set_option linter.unusedSectionVars false
namespace Delynoi
open Tri
variable {K : Type} [Field K] [LinearOrder K] [IsStrictOrderedRing K]

/-- C165: inserting a subsegment on an edge keeps a constrained Delaunay triangulation, and a
subsegment at the boundary has no triangle on the other side. -/
theorem C165_insert {s : Segs} {L : Nat → Prop} {pos : Nat → Pt K} {x : Otri} {v w : Nat} (M : SegMesh s L) (hd : s.mesh.Dir L x v w)
    (hD : ConstrainedDelaunay true s.mesh L pos) (B : Bare s.mesh L) (C : Chained s) (k : Int) :
    ∃ s', s.insertsubseg x k = .ok s' ∧ SegMesh s' L ∧ ConstrainedDelaunay true s'.mesh L pos ∧ Bare s'.mesh L ∧ Chained s' :=
  insertsubseg_keeps M hd hD B C k

/-- C165: carving keeps a constrained Delaunay triangulation, and subsegments at the new boundary have
no triangle on the other side. -/
theorem C165_carved {s : Segs} {ts P : List Nat} {c : Carve} {fuel : Nat} {pos : Nat → Pt K} (r : Ready s.mesh ts P c) (hf : 3 * ts.length ≤ fuel)
    (M : SegMesh s (· ∈ ts)) (f : Flat s.mesh (· ∈ ts) pos) (hD : ConstrainedDelaunay true s.mesh (· ∈ ts) pos) (B : Bare s.mesh (· ∈ ts)) :
    ∃ c', Carve.plague fuel c P = .ok c' ∧ SegMesh (s.carved c') (Stays s.mesh ts P) ∧ Flat c'.mesh (Stays s.mesh ts P) pos ∧
      ConstrainedDelaunay true c'.mesh (Stays s.mesh ts P) pos ∧ Bare c'.mesh (Stays s.mesh ts P) := by
  obtain ⟨c', h1, h2, h3, h4, h5, -⟩ := plague_keeps (s := { s with slink := fun _ => dummysub }) (c := c) (pos := pos) r hf
    ⟨M.endpointed.made, M.endpointed.ends⟩ f hD B (fun o h _ => ⟨Nat.zero_le _, fun k => h (by rw [← k]; rfl)⟩)
  exact ⟨c', h1, ⟨h2.linked, h2.segmented, h2.proper, ⟨h2.endpointed.made, h2.endpointed.ends⟩⟩, h3, h4, h5⟩

/-- C165: both phases.  On a constrained Delaunay triangulation they do not fail; if they end, what is
left is Delaunay, without encroached subsegments, and covers the triangles which the infection did not
reach (C137), with their vertices and subsegments.  `hall` says that the subsegments made so far are
in the mesh. -/
theorem C165_phases {s : Segs} {c : Carve} {ts : List Nat} {pos : Nat → Pt K} {lo hi : Pt K} {locate : Heap → Pt K → Otri → Outcome (Option Otri)}
    {sqrt : K → K} (hsq : ∀ x, 0 < x → 0 < sqrt x) (pick : List Enc → Nat) (convex noholes : Bool) (holes : List (Pt K))
    {fuel steps nvert ntri : Nat} (w : Whole ts c) (hmesh : c.mesh = s.mesh) (E : Endpointed s (· ∈ ts))
    (f : Flat s.mesh (· ∈ ts) pos) (hD : ConstrainedDelaunay true s.mesh (· ∈ ts) pos) (B : Bare s.mesh (· ∈ ts)) (C : Chained s)
    (hall : ∀ n, 1 ≤ n → n ≤ s.count → ∃ y : Otri, y.1 ∈ ts ∧ (s.mesh.sub y).1 = n)
    (hv : ∀ v w, s.mesh.Adj (· ∈ ts) v w → v < nvert) (ht : ∀ t ∈ ts, t ≤ ntri)
    (hloc : ∀ p, ∃ r, locate s.mesh p (s.mesh.nbr (0, 0)) = .ok r ∧ ∀ x, r = some x → x.1 ∈ ts) (hf : 3 * ts.length ≤ fuel) :
    ∃ c' P, Carve.carveholes locate pos lo hi convex noholes holes fuel c = .ok c' ∧
      (∀ t, t ∈ P ↔ (convex = false ∧ Unprotected s.mesh ts t) ∨ (noholes = false ∧ HoleIn s.mesh ts locate pos lo hi holes t)) ∧
      (carveThenSplit locate pos lo hi convex noholes holes sqrt pick fuel steps nvert ntri s c = .ok none ∨
      ∃ st' L', carveThenSplit locate pos lo hi convex noholes holes sqrt pick fuel steps nvert ntri s c = .ok (some st') ∧
        SegMesh st'.segs L' ∧ Flat st'.segs.mesh L' st'.pos ∧ (∀ x, ¬ Encroached st'.segs.mesh L' st'.pos x) ∧ Delaunay st'.segs.mesh L' st'.pos ∧
        Refined c'.mesh (Stays s.mesh ts P) pos st'.segs.mesh L' st'.pos) := by
  obtain ⟨c1, P, e, r, hP, -⟩ := carve_ready (pos := pos) (lo := lo) (hi := hi) w convex noholes holes (locate := locate) (by rw [hmesh]; exact hloc) hf
  rw [hmesh] at r hP
  obtain ⟨c', h1, M', f', D', B', C', hadj, hsub, hfreed⟩ := plague_keeps r hf E f hD B C
  have hc := e.trans h1
  refine ⟨c', P, hc, hP, ?_⟩
  unfold carveThenSplit
  rw [hc]
  simp only [Outcome.bind_ok]
  exact C164_enforce hsq pick steps M' f' D' B' C' (fun v w h => hv v w (hadj v w h)) (fun t h => ht t h.1) (fun n => by
    unfold liveSubs
    rw [List.mem_filter, List.mem_range'_1, decide_eq_true_eq, hfreed]
    constructor
    · rintro ⟨⟨k1, k2⟩, k3⟩
      refine ⟨by omega, ?_⟩
      by_contra hno
      refine k3 ⟨by omega, hall n k1 (by omega), fun x hx hxn hS => hno ⟨x, hS, ?_⟩⟩
      show (c'.mesh.sub x).1 = n
      rw [hsub x hS, hxn]
    · rintro ⟨k0, y, hy, hn⟩
      have hn : (c'.mesh.sub y).1 = n := hn
      rw [hsub y hy] at hn
      refine ⟨⟨by omega, ?_⟩, fun k => k.2.2 y hy.1 hn hy⟩
      have := E.made y hy.1
      omega)

/-! ## Example -/

/-- Two triangles; the first one is surrounded by subsegments. -/
def fenced : Segs where
  mesh := { twoTriangles with
    sub := fun x => if x = (1, 0) then (1, false) else if x = (2, 0) then (1, true) else if x = (1, 1) then (2, false) else
      if x = (1, 2) then (3, false) else (0, false)
    stri := fun s => if s = (1, false) then (1, 0) else if s = (1, true) then (2, 0) else if s = (2, false) then (1, 1) else
      if s = (3, false) then (1, 2) else (0, 0) }
  send := fun s => if s = (1, false) then some 1 else if s = (1, true) then some 0 else if s = (2, false) then some 2 else
    if s = (2, true) then some 1 else if s = (3, false) then some 0 else if s = (3, true) then some 2 else none
  segend := fun _ => none
  smark := fun _ => 0
  vmark := fun _ => 0
  count := 3

/-- The same for `carveholes`. -/
def fencedCarve : Carve where
  mesh := fenced.mesh
  sick _ := false
  smark _ := 0
  vmark _ := 0
  freed := []
  dead := []
  undead := []
  hullsize := 4

theorem fenced_linked : Linked fenced.mesh (· ∈ [1, 2]) := two_linked.congr rfl rfl

theorem fenced_conv : ∀ (P : Otri → Prop), (∀ t ∈ [1, 2], ∀ o, P (t, o)) → ∀ x : Otri, x.1 ∈ [1, 2] → P x := fun _ h x hx => h x.1 hx x.2

theorem fenced_segmented : Segmented fenced.mesh (· ∈ [1, 2]) := by
  refine ⟨fenced_conv _ (by decide +kernel), fenced_conv _ (by decide +kernel), fenced_conv _ (by decide +kernel), fenced_conv _ (by decide +kernel), ?_⟩
  intro x y hx hy
  exact fenced_conv (fun y => ((fenced.mesh.sub x).1 ≠ 0 → (fenced.mesh.sub x).1 = (fenced.mesh.sub y).1 → y = x ∨ y = fenced.mesh.nbr x))
    (fenced_conv (fun x => ∀ t ∈ [1, 2], ∀ o, ((fenced.mesh.sub x).1 ≠ 0 → (fenced.mesh.sub x).1 = (fenced.mesh.sub (t, o)).1 →
      (t, o) = x ∨ (t, o) = fenced.mesh.nbr x)) (by decide +kernel) x hx) y hy

theorem fenced_endpointed : Endpointed fenced (· ∈ [1, 2]) := by
  refine ⟨fenced_conv _ (by decide +kernel), ?_⟩
  rintro x v w ⟨h1, h2, h3⟩ hs
  have key := fenced_conv (fun x => (fenced.mesh.sub x).1 ≠ 0 → fenced.send (fenced.mesh.sub x) = fenced.mesh.corner (x.1, x.2 + 2) ∧
    fenced.send ((fenced.mesh.sub x).1, !(fenced.mesh.sub x).2) = fenced.mesh.corner (x.1, x.2 + 1)) (by decide +kernel) x h1 hs
  rw [h2, h3] at key
  exact key

theorem fenced_bare : Bare fenced.mesh (· ∈ [1, 2]) :=
  fun y hy => fenced_conv (fun y => (fenced.mesh.sub y).1 ≠ 0 → fenced.mesh.nbr y = (0, 0) → (fenced.mesh.stri (ssym (fenced.mesh.sub y))).1 = 0)
    (by decide +kernel) y hy

theorem fenced_chained : Chained fenced := by
  intro o h _
  refine ⟨Nat.zero_le _, fun k => h ?_⟩
  rw [← k]
  rfl

theorem fenced_delaunay (p : Pt ℚ) : ConstrainedDelaunay true fenced.mesh (· ∈ [1, 2]) (kiteWith p) := by
  have key : ∀ t ∈ [1, 2], ∀ o, fenced.mesh.nbr (t, o) ≠ (0, 0) → (fenced.mesh.sub (t, o)).1 ≠ 0 := by decide +kernel
  intro x hx h1 h2
  exact absurd (h2 rfl) (key x.1 hx x.2 h1)

theorem fenced_whole : Whole [1, 2] fencedCarve where
  linked := fenced_linked
  segmented := fenced_segmented
  proper := by unfold Proper; decide +kernel
  fans := fans_of_table 4 (by decide +kernel)
  hull := by
    have hz : ∀ z ∈ [((1, 1) : Otri), (1, 2), (2, 1), (2, 2)], Hull fenced.mesh (· ∈ [1, 2]) z := by
      unfold Hull; decide +kernel
    have only : ∀ t ∈ [1, 2], ∀ o : Fin 3, fenced.mesh.nbr (t, o) = (0, 0) → ((t, o) : Otri) ∈ [((1, 1) : Otri), (1, 2), (2, 1), (2, 2)] := by
      decide +kernel
    have all : ∀ x ∈ [((1, 1) : Otri), (1, 2), (2, 1), (2, 2)], ∀ y ∈ [((1, 1) : Otri), (1, 2), (2, 1), (2, 2)],
        alongTo fenced.mesh [(1, 1), (1, 2), (2, 1), (2, 2)] 4 x y = true := by
      decide +kernel
    intro x y hx hy
    exact alongTo_sound hz 4 x y hx (all x (only x.1 hx.1 x.2 hx.2) y (only y.1 hy.1 y.2 hy.2))
  start := by unfold Hull; decide +kernel
  sick := fun _ => rfl
  freed := rfl
  dead := rfl
  undead := rfl
  hullsize := by
    rw [hullEdges_of_table]
    decide +kernel

/-- C165: a subsegment at the boundary of triangle 2. -/
example : ∃ s', fenced.insertsubseg (2, 1) 5 = .ok s' ∧ Bare s'.mesh (· ∈ [1, 2]) := by
  obtain ⟨s', e, -, -, h, -⟩ := C165_insert (pos := kiteWith ⟨1, 0⟩) (v := 0) (w := 3) (x := (2, 1)) ⟨fenced_linked, fenced_segmented,
    by unfold Proper; decide +kernel, fenced_endpointed⟩ ⟨by decide, rfl, rfl⟩ (fenced_delaunay ⟨1, 0⟩) fenced_bare fenced_chained 5
  exact ⟨s', e, h⟩

/-- C165: the kite. -/
example (steps : Nat) (pick : List Enc → Nat) : ∃ P : List Nat, (∀ t, t ∈ P ↔ Unprotected fenced.mesh [1, 2] t) ∧
    (carveThenSplit (fun _ _ _ => .ok none) (kiteWith ⟨1, 0⟩) ⟨-2, -1⟩ ⟨2, 1⟩ false false [] (fun x => x / 4) pick 6 steps 4 2 fenced fencedCarve = .ok none ∨
    ∃ st' L', carveThenSplit (fun _ _ _ => .ok none) (kiteWith ⟨1, 0⟩) ⟨-2, -1⟩ ⟨2, 1⟩ false false [] (fun x => x / 4) pick 6 steps 4 2 fenced fencedCarve =
      .ok (some st') ∧ Delaunay st'.segs.mesh L' st'.pos) := by
  obtain ⟨c', P, -, h1, h2⟩ := C165_phases (K := ℚ) (s := fenced) (lo := ⟨-2, -1⟩) (hi := ⟨2, 1⟩) (locate := fun _ _ _ => .ok none) (sqrt := fun x => x / 4)
    (fun x h => by linarith) pick false false [] (fuel := 6) (steps := steps) (nvert := 4) (ntri := 2) fenced_whole rfl fenced_endpointed
    ((kiteWith_flat ⟨1, 0⟩).congr rfl) (fenced_delaunay ⟨1, 0⟩) fenced_bare fenced_chained
    (fun n h1 h2 => by
      have : n = 1 ∨ n = 2 ∨ n = 3 := by have : n ≤ 3 := h2; omega
      rcases this with rfl | rfl | rfl
      exacts [⟨(1, 0), by decide, rfl⟩, ⟨(1, 1), by decide, rfl⟩, ⟨(1, 2), by decide, rfl⟩])
    (fun v w h => by
      have := two_adj (h : twoTriangles.Adj (· ∈ [1, 2]) v w)
      simp only [twoAdj, List.mem_cons, List.not_mem_nil, or_false, Prod.mk.injEq] at this
      omega) (by decide) (fun p => ⟨none, rfl, fun x h => by cases h⟩) (by decide)
  refine ⟨P, fun t => ?_, ?_⟩
  · rw [h1]
    simp [HoleIn]
  · rcases h2 with k | ⟨st', L', k, -, -, -, k', -⟩
    exacts [Or.inl k, Or.inr ⟨st', L', k, k'⟩]

/-- Triangle 2 is removed, the edge from 0 to 1 is split in the middle, and all is done in four steps. -/
example : (match carveThenSplit (fun _ _ _ => .ok none) (kiteWith ⟨1, 0⟩) ⟨-2, -1⟩ ⟨2, 1⟩ false false [] (fun x => x / 4) (fun _ => 0) 6 4 4 2 fenced fencedCarve with
    | .ok (some st) => (st.nvert, st.pos 4, st.segs.count, st.bad.length)
    | _ => (0, ⟨0, 1⟩, 0, 7)) = (5, ⟨0, 0⟩, 4, 0) := by decide +kernel

end Delynoi
