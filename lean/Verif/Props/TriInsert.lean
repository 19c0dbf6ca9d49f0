import Verif.Proofs.TriInsert11
import Verif.Props.TriSegment
import Verif.Props.TriMesh
/-!
# C145–C149: inserting vertices
-/
set_option linter.unusedSectionVars false
namespace Delynoi
open Tri

section
variable {m : Heap} {L : Nat → Prop} {e : Otri} {n1 n2 nv b r l d : Nat}

theorem splitAt_of {K : Type} [Field K] [LinearOrder K] [IsStrictOrderedRing K] {pos : Nat → Pt K} (f : Flat m L pos)
    (ht : m.Tri3 L e b r l) (hn1 : ¬ L n1) (hn2 : ¬ L n2) (z1 : n1 ≠ 0) (z2 : n2 ≠ 0) (h12 : n1 ≠ n2) (hv : Fresh m L nv) :
    SplitAt m L e n1 n2 nv b r l := by
  obtain ⟨d1, d2, d3⟩ := f.distinct ht
  exact ⟨ht, hn1, hn2, z1, z2, h12, hv, d2, d3.symm, d1⟩

theorem edgeAt_of {K : Type} [Field K] [LinearOrder K] [IsStrictOrderedRing K] {pos : Nat → Pt K} (h : Linked m L) (f : Flat m L pos)
    (ht : m.Tri3 L e b r l) (hn1 : ¬ L n1) (hn2 : ¬ L n2) (z1 : n1 ≠ 0) (z2 : n2 ≠ 0) (h12 : n1 ≠ n2) (hv : Fresh m L nv) :
    (m.nbr e = (0, 0) ∧ EdgeAt m L e n1 n2 nv b r l 0 false) ∨
    (m.nbr e ≠ (0, 0) ∧ ∃ d, m.Tri3 L (m.nbr e) d l r ∧ EdgeAt m L e n1 n2 nv b r l d true) := by
  have s := splitAt_of f ht hn1 hn2 z1 z2 h12 hv
  by_cases h0 : m.nbr e = (0, 0)
  · exact Or.inl ⟨h0, s, fun _ => h0, fun hh => absurd hh (by simp)⟩
  · right
    refine ⟨h0, ?_⟩
    obtain ⟨hl, -, v, w, j1, j2⟩ := h.across ht.1 h0
    obtain ⟨i1, i2⟩ := (Tri3.dirs ht).1.2
    have e1 := j1.2.1.symm.trans i1
    have e2 := j1.2.2.symm.trans i2
    cases e1; cases e2
    obtain ⟨d, hd⟩ := h.corners _ hl (m.nbr e).2
    have T : m.Tri3 L (m.nbr e) d l r := ⟨hl, hd, j2.2.1, j2.2.2⟩
    obtain ⟨d1, d2, d3⟩ := f.distinct T
    refine ⟨d, T, s, fun hh => absurd hh (by simp), fun _ => ⟨h0, T, ?_, d1, d3⟩⟩
    rintro rfl
    have t1 := f.ccw _ _ _ _ ht
    have t2 := f.ccw _ _ _ _ T
    unfold turn at t1 t2
    linarith
end

variable {K : Type} [Field K] [LinearOrder K] [IsStrictOrderedRing K]
  {m : Heap} {L : Nat → Prop} {pos : Nat → Pt K} {e : Otri} {n1 n2 nv b r l fuel : Nat} {ts : List Nat}

/-! ## Splitting a triangle -/

/-- C145: the triangle with the corners `b`, `r`, `l` is split into three; the others stay. -/
theorem C145_split (cs : Bool) (h : Linked m L) (f : Flat m L pos) (ht : m.Tri3 L e b r l) (hn1 : ¬ L n1) (hn2 : ¬ L n2) (z1 : n1 ≠ 0)
    (z2 : n2 ≠ 0) (h12 : n1 ≠ n2) (hv : Fresh m L nv) (p1 : 0 < turn (pos r) (pos l) (pos nv)) (p2 : 0 < turn (pos l) (pos b) (pos nv))
    (p3 : 0 < turn (pos b) (pos r) (pos nv)) :
    Linked (m.splitTriangle cs n1 n2 nv e) (fun t => L t ∨ t = n1 ∨ t = n2) ∧
    Flat (m.splitTriangle cs n1 n2 nv e) (fun t => L t ∨ t = n1 ∨ t = n2) pos ∧
    (m.splitTriangle cs n1 n2 nv e).Tri3 (fun t => L t ∨ t = n1 ∨ t = n2) e nv r l ∧
    (m.splitTriangle cs n1 n2 nv e).Tri3 (fun t => L t ∨ t = n1 ∨ t = n2) (n1, 0) nv l b ∧
    (m.splitTriangle cs n1 n2 nv e).Tri3 (fun t => L t ∨ t = n1 ∨ t = n2) (n2, 0) nv b r ∧
    ∀ x v A B, L x.1 → x.1 ≠ e.1 →
      ((m.splitTriangle cs n1 n2 nv e).Tri3 (fun t => L t ∨ t = n1 ∨ t = n2) x v A B ↔ m.Tri3 L x v A B) := by
  have s := splitAt_of f ht hn1 hn2 z1 z2 h12 hv
  obtain ⟨T0, T1, T2, T3⟩ := splitTriangle_tris h s cs
  refine ⟨(splitTriangle_starred h s cs).linked h, splitTriangle_flat h s cs f p1 p2 p3, T0, T1, T2, fun x v A B hx he => ⟨fun k => ?_, T3 x v A B he⟩⟩
  obtain ⟨v', A', B', T⟩ := h.tri (x := x) hx
  have T' := T3 x _ _ _ he T
  have i1 := T'.2.1.symm.trans k.2.1
  have i2 := T'.2.2.1.symm.trans k.2.2.1
  have i3 := T'.2.2.2.symm.trans k.2.2.2
  cases i1; cases i2; cases i3
  exact T

/-- C145: subsegments stay at their edges, and the new edges have none. -/
theorem C145_segments (h : Linked m L) (f : Flat m L pos) (g : Segmented m L) (ht : m.Tri3 L e b r l) (hn1 : ¬ L n1) (hn2 : ¬ L n2) (z1 : n1 ≠ 0)
    (z2 : n2 ≠ 0) (h12 : n1 ≠ n2) (hv : Fresh m L nv) :
    Segmented (m.splitTriangle true n1 n2 nv e) (fun t => L t ∨ t = n1 ∨ t = n2) ∧
    KeepsSubs m L (m.splitTriangle true n1 n2 nv e) (fun t => L t ∨ t = n1 ∨ t = n2) ∧
    KeepsSubs (m.splitTriangle true n1 n2 nv e) (fun t => L t ∨ t = n1 ∨ t = n2) m L :=
  have s := splitAt_of f ht hn1 hn2 z1 z2 h12 hv
  ⟨splitTriangle_segmented h s g, splitTriangle_keeps h s g, splitTriangle_keeps_back h s g⟩

/-! ## Inserting a vertex -/

/-- C146: inserting a vertex in a triangle never fails; the result is a flat triangulation with the
new vertex, in which every edge opposite to it is a subsegment, at the boundary or locally Delaunay,
and in which it has edges to the corners of the triangle; the boundary is the same.  Without subsegments nothing is assumed or
said about them. -/
theorem C146_inside (cs : Bool) (h : Linked m L) (f : Flat m L pos) (g : cs = true → Segmented m L) (ht : m.Tri3 L e b r l) (hn1 : ¬ L n1)
    (hn2 : ¬ L n2) (z1 : n1 ≠ 0) (z2 : n2 ≠ 0) (h12 : n1 ≠ n2) (hv : Fresh m L nv) (p1 : 0 < turn (pos r) (pos l) (pos nv))
    (p2 : 0 < turn (pos l) (pos b) (pos nv)) (p3 : 0 < turn (pos b) (pos r) (pos nv)) (hts : ∀ t, L t → t ∈ ts) (hf : 2 * ts.length < fuel) :
    ∃ m' x, insertAt cs pos nv n1 n2 fuel m .inTriangle e = .ok (some (m', x)) ∧
      Inserted cs m L pos nv m' (fun t => L t ∨ t = n1 ∨ t = n2) x ∧
      (cs = true → Segmented m' (fun t => L t ∨ t = n1 ∨ t = n2) ∧ KeepsSubs m L m' (fun t => L t ∨ t = n1 ∨ t = n2) ∧
        KeepsSubs m' (fun t => L t ∨ t = n1 ∨ t = n2) m L) ∧
      m'.Adj (fun t => L t ∨ t = n1 ∨ t = n2) nv b ∧ m'.Adj (fun t => L t ∨ t = n1 ∨ t = n2) nv r ∧
      m'.Adj (fun t => L t ∨ t = n1 ∨ t = n2) nv l ∧ ∀ v w, Lone m' (fun t => L t ∨ t = n1 ∨ t = n2) v w ↔ Lone m L v w :=
  insertIn_inserted cs h f g (splitAt_of f ht hn1 hn2 z1 z2 h12 hv) p1 p2 p3 ts hts fuel hf

/-- C147: the same for a vertex on an edge, which may be at the boundary; then there is one new
triangle, otherwise two. -/
theorem C147_edge (cs : Bool) (h : Linked m L) (f : Flat m L pos) (g : cs = true → Segmented m L ∧ (m.sub e).1 = 0) (ht : m.Tri3 L e b r l)
    (hn1 : ¬ L n1) (hn2 : ¬ L n2) (z1 : n1 ≠ 0) (z2 : n2 ≠ 0) (h12 : n1 ≠ n2) (hv : Fresh m L nv) (hm : Amid (pos r) (pos l) (pos nv))
    (hts : ∀ t, L t → t ∈ ts) (hf : 2 * ts.length < fuel) (i : Located) (hi : i = .onEdge ∨ i = .outside) :
    ∃ m' x L', insertAt cs pos nv n1 n2 fuel m i e = .ok (some (m', x)) ∧ (∀ t, L' t ↔ L t ∨ t = n1 ∨ (m.nbr e ≠ (0, 0) ∧ t = n2)) ∧
      Inserted cs m L pos nv m' L' x ∧ (cs = true → Segmented m' L' ∧ KeepsSubs m L m' L' ∧ KeepsSubs m' L' m L) ∧
      m'.Adj L' nv b ∧ m'.Adj L' nv r ∧ m'.Adj L' nv l ∧ (∀ d, m.Tri3 L (m.nbr e) d l r → m'.Adj L' nv d) ∧
      ∀ v w, Lone m' L' v w ↔
        (Lone m L v w ∧ ¬ (v = r ∧ w = l)) ∨ (m.nbr e = (0, 0) ∧ ((v = nv ∧ w = l) ∨ (v = r ∧ w = nv))) := by
  rcases edgeAt_of h f ht hn1 hn2 z1 z2 h12 hv with ⟨h0, s⟩ | ⟨h0, d, T, s⟩
  · obtain ⟨m', x, k1, k2, k3, k4, k5, k6, -, k8⟩ := insertEdge_inserted h s cs f g hm ts hts fuel hf i hi
    refine ⟨m', x, _, k1, fun t => ?_, k2, k3, k4, k5, k6, fun d T => ?_, k8⟩
    · simp [WithE, h0]
    · exact absurd T.1 (by rw [h0]; exact h.dummy)
  · obtain ⟨m', x, k1, k2, k3, k4, k5, k6, k7, k8⟩ := insertEdge_inserted h s cs f g hm ts hts fuel hf i hi
    refine ⟨m', x, _, k1, fun t => ?_, k2, k3, k4, k5, k6, fun d' T' => ?_, k8⟩
    · simp [WithE, h0]
    · have := T.2.1.symm.trans T'.2.1
      cases this
      exact k7 rfl

/-- C147: on a vertex or on a subsegment nothing is inserted. -/
theorem C147_refused (pos : Nat → Pt K) (m : Heap) (e : Otri) (cs : Bool) :
    insertAt cs pos nv n1 n2 fuel m .onVertex e = .ok none ∧
    ((m.sub e).1 ≠ 0 → insertAt true pos nv n1 n2 fuel m .onEdge e = .ok none ∧ insertAt true pos nv n1 n2 fuel m .outside e = .ok none) := by
  refine ⟨rfl, fun h0 => ⟨?_, ?_⟩⟩ <;> exact if_pos ⟨rfl, h0⟩

/-! ## Delaunay triangulations -/

/-- C148: if no vertex is inside the circle of a triangle before, then every edge is locally Delaunay
after inserting a vertex in a triangle. -/
theorem C148_inside (h : Linked m L) (f : Flat m L pos) (he : EmptyCircles m L pos) (ht : m.Tri3 L e b r l) (hn1 : ¬ L n1)
    (hn2 : ¬ L n2) (z1 : n1 ≠ 0) (z2 : n2 ≠ 0) (h12 : n1 ≠ n2) (hv : Fresh m L nv) (p1 : 0 < turn (pos r) (pos l) (pos nv))
    (p2 : 0 < turn (pos l) (pos b) (pos nv)) (p3 : 0 < turn (pos b) (pos r) (pos nv)) (hts : ∀ t, L t → t ∈ ts) (hf : 2 * ts.length < fuel) :
    ∃ m' x, insertAt false pos nv n1 n2 fuel m .inTriangle e = .ok (some (m', x)) ∧
      Inserted false m L pos nv m' (fun t => L t ∨ t = n1 ∨ t = n2) x ∧
      ∀ y, LocallyDelaunay m' (fun t => L t ∨ t = n1 ∨ t = n2) pos y := by
  have s := splitAt_of f ht hn1 hn2 z1 z2 h12 hv
  obtain ⟨m', x, k1, k2, -⟩ := insertIn_inserted false h f (fun hh => absurd hh (by simp)) s p1 p2 p3 ts hts fuel hf
  obtain ⟨m'', x', k3, k4⟩ := insertIn_spec false h f (fun hh => absurd hh (by simp)) s p1 p2 p3 ts hts fuel hf (Reached m L pos nv)
    (reached_of_inside he)
  rw [k1] at k3
  cases k3
  exact ⟨m', x, k1, k2, Legalized.delaunay he k4⟩

/-- C148: the same for a vertex on an edge. -/
theorem C148_edge (h : Linked m L) (f : Flat m L pos) (he : EmptyCircles m L pos) (ht : m.Tri3 L e b r l)
    (hn1 : ¬ L n1) (hn2 : ¬ L n2) (z1 : n1 ≠ 0) (z2 : n2 ≠ 0) (h12 : n1 ≠ n2) (hv : Fresh m L nv) (hm : Amid (pos r) (pos l) (pos nv))
    (hts : ∀ t, L t → t ∈ ts) (hf : 2 * ts.length < fuel) :
    ∃ m' x L', insertAt false pos nv n1 n2 fuel m .onEdge e = .ok (some (m', x)) ∧
      (∀ t, L' t ↔ L t ∨ t = n1 ∨ (m.nbr e ≠ (0, 0) ∧ t = n2)) ∧
      Inserted false m L pos nv m' L' x ∧ ∀ y, LocallyDelaunay m' L' pos y := by
  have key : ∀ {d tp}, EdgeAt m L e n1 n2 nv b r l d tp → ∃ m' x, insertAt false pos nv n1 n2 fuel m .onEdge e = .ok (some (m', x)) ∧
      Inserted false m L pos nv m' (WithE L n1 n2 tp) x ∧ ∀ y, LocallyDelaunay m' (WithE L n1 n2 tp) pos y := by
    intro d tp s
    obtain ⟨m', x, k1, k2, -⟩ := insertEdge_inserted h s false f (fun hh => absurd hh (by simp)) hm ts hts fuel hf .onEdge (Or.inl rfl)
    obtain ⟨m'', x', k3, k4⟩ := legalizeEdge_spec h s false false f hm ts hts fuel hf (Reached m L pos nv) (reached_of_inside he) rfl rfl
      (fun hh => absurd hh (by simp))
    have : insertAt false pos nv n1 n2 fuel m .onEdge e = .ok (some (m'', x')) := by
      simp only [insertAt, Bool.false_eq_true, false_and, if_false, k3, Outcome.bind_ok]
    rw [k1] at this
    cases this
    exact ⟨m', x, k1, k2, Legalized.delaunay he k4⟩
  rcases edgeAt_of h f ht hn1 hn2 z1 z2 h12 hv with ⟨h0, s⟩ | ⟨h0, d, T, s⟩
  · obtain ⟨m', x, k1, k2, k3⟩ := key s
    exact ⟨m', x, _, k1, fun t => by simp [WithE, h0], k2, k3⟩
  · obtain ⟨m', x, k1, k2, k3⟩ := key s
    exact ⟨m', x, _, k1, fun t => by simp [WithE, h0], k2, k3⟩

/-! ## Splitting a subsegment -/

/-- C149: inserting a vertex on a subsegment never fails; the subsegment is split, all others stay,
and the mesh with its subsegments is as good as before. -/
theorem C149_subsegment {s : Segs} (M : SegMesh s L) (f : Flat s.mesh L pos) (ht : s.mesh.Tri3 L e b r l) (hs : (s.mesh.sub e).1 ≠ 0)
    (hn1 : ¬ L n1) (hn2 : ¬ L n2) (z1 : n1 ≠ 0) (z2 : n2 ≠ 0) (h12 : n1 ≠ n2) (hv : Fresh s.mesh L nv) (hm : Amid (pos r) (pos l) (pos nv))
    (hts : ∀ t, L t → t ∈ ts) (hf : 2 * ts.length < fuel) :
    ∃ s' x L', insertOn pos nv n1 n2 fuel s e (s.mesh.sub e) = .ok (s', x) ∧
      (∀ t, L' t ↔ L t ∨ t = n1 ∨ (s.mesh.nbr e ≠ (0, 0) ∧ t = n2)) ∧
      Inserted true s.mesh L pos nv s'.mesh L' x ∧ SegMesh s' L' ∧ SubSplit s L s' L' (s.mesh.sub e) r l nv ∧
      s'.mesh.Adj L' nv b ∧ (∀ d, s.mesh.Tri3 L (s.mesh.nbr e) d l r → s'.mesh.Adj L' nv d) ∧
      ∀ v w, Lone s'.mesh L' v w ↔
        (Lone s.mesh L v w ∧ ¬ (v = r ∧ w = l)) ∨ (s.mesh.nbr e = (0, 0) ∧ ((v = nv ∧ w = l) ∨ (v = r ∧ w = nv))) := by
  have h := M.linked
  rcases edgeAt_of h f ht hn1 hn2 z1 z2 h12 hv with ⟨h0, E⟩ | ⟨h0, d, T, E⟩
  · obtain ⟨s', x, k1, k2, k3, k4, k5, -, k8⟩ := insertOn_spec M E hs f hm ts hts fuel hf
    refine ⟨s', x, _, k1, fun t => ?_, k2, k3, k4, k5, fun d T => ?_, k8⟩
    · simp [WithE, h0]
    · exact absurd T.1 (by rw [h0]; exact h.dummy)
  · obtain ⟨s', x, k1, k2, k3, k4, k5, k6, k8⟩ := insertOn_spec M E hs f hm ts hts fuel hf
    refine ⟨s', x, _, k1, fun t => ?_, k2, k3, k4, k5, fun d' T' => ?_, k8⟩
    · simp [WithE, h0]
    · have := T.2.1.symm.trans T'.2.1
      cases this
      exact k6 rfl

/-! ## Examples -/

/-- The kite with one more vertex: in triangle 1, on its inner edge or at its boundary. -/
def kiteWith (p : Pt ℚ) (n : Nat) : Pt ℚ := if n = 4 then p else kite n

/-- A kite whose diagonal is Delaunay. -/
def tallKite (p : Pt ℚ) (n : Nat) : Pt ℚ :=
  if n = 0 then ⟨1, 0⟩ else if n = 1 then ⟨-1, 0⟩ else if n = 2 then ⟨0, -2⟩ else if n = 3 then ⟨0, 2⟩ else p

theorem two_dir (x : Otri) (v w : Nat) : twoTriangles.Dir (· ∈ [1, 2]) x v w ↔
    (x, v, w) ∈ [((1, 0), 0, 1), ((1, 1), 1, 2), ((1, 2), 2, 0), ((2, 0), 1, 0), ((2, 1), 0, 3), ((2, 2), 3, 1)] := by
  rw [← twoTriangles_dir]
  simp [Heap.Dir]

theorem two_bound {v w : Nat} (h : twoTriangles.Adj (· ∈ [1, 2]) v w) : v < 4 ∧ w < 4 := by
  obtain ⟨x, h⟩ := h
  rw [two_dir, two_dir] at h
  simp only [List.mem_cons, List.not_mem_nil, or_false, Prod.mk.injEq] at h
  omega

theorem two_fresh : Fresh twoTriangles (· ∈ [1, 2]) 4 :=
  fun x _ => ⟨fun h => absurd (two_bound ⟨x, Or.inl h⟩).1 (by decide), fun h => absurd (two_bound ⟨x, Or.inl h⟩).2 (by decide)⟩

theorem two_linked : Linked twoTriangles (· ∈ [1, 2]) := by
  have := twoTriangles_linked
  rwa [show (fun t => t = 1 ∨ t = 2) = (· ∈ [1, 2]) by funext t; simp] at this

theorem two_segmented : Segmented twoTriangles (· ∈ [1, 2]) := by
  have := twoTriangles_segmented
  rwa [show (fun t => t = 1 ∨ t = 2) = (· ∈ [1, 2]) by funext t; simp] at this

theorem two_tri {x : Otri} {v a b : Nat} (h : twoTriangles.Tri3 (· ∈ [1, 2]) x v a b) :
    (x, v, a, b) ∈ [((1, 0), 2, 0, 1), ((1, 1), 0, 1, 2), ((1, 2), 1, 2, 0), ((2, 0), 3, 1, 0), ((2, 1), 1, 0, 3), ((2, 2), 0, 3, 1)] := by
  have hx := h.2.1
  have h1 := (Tri3.dirs h).1
  rw [two_dir] at h1
  simp only [List.mem_cons, List.not_mem_nil, or_false, Prod.mk.injEq] at h1
  rcases h1 with ⟨rfl, rfl, rfl⟩ | ⟨rfl, rfl, rfl⟩ | ⟨rfl, rfl, rfl⟩ | ⟨rfl, rfl, rfl⟩ | ⟨rfl, rfl, rfl⟩ | ⟨rfl, rfl, rfl⟩ <;>
    (simp [twoTriangles] at hx; subst hx; decide)

/-- The adjacent vertices. -/
def twoAdj : List (Nat × Nat) := [(0, 1), (1, 0), (1, 2), (2, 1), (2, 0), (0, 2), (0, 3), (3, 0), (3, 1), (1, 3)]

theorem two_adj {v w : Nat} (h : twoTriangles.Adj (· ∈ [1, 2]) v w) : (v, w) ∈ twoAdj := by
  obtain ⟨x, h⟩ := h
  rw [two_dir, two_dir] at h
  simp only [List.mem_cons, List.not_mem_nil, or_false, Prod.mk.injEq, twoAdj] at h ⊢
  omega

def twoTri : List (Otri × Nat × Nat × Nat) :=
  [((1, 0), 2, 0, 1), ((1, 1), 0, 1, 2), ((1, 2), 1, 2, 0), ((2, 0), 3, 1, 0), ((2, 1), 1, 0, 3), ((2, 2), 0, 3, 1)]

theorem two_flat {pos : Nat → Pt ℚ} (h1 : ∀ T ∈ twoTri, 0 < turn (pos T.2.1) (pos T.2.2.1) (pos T.2.2.2))
    (h2 : ∀ T ∈ twoTri, ∀ A ∈ twoAdj, A.1 = T.2.1 → ¬ (0 < turn (pos A.1) (pos T.2.2.1) (pos A.2) ∧ 0 < turn (pos A.1) (pos A.2) (pos T.2.2.2)))
    (h3 : ∀ A ∈ twoAdj, ∀ B ∈ twoAdj, A.1 = B.1 → turn (pos A.1) (pos A.2) (pos B.2) = 0 →
      0 < ((pos A.2).x - (pos A.1).x) * ((pos B.2).x - (pos A.1).x) + ((pos A.2).y - (pos A.1).y) * ((pos B.2).y - (pos A.1).y) → A.2 = B.2) :
    Flat twoTriangles (· ∈ [1, 2]) pos where
  ccw := fun _ _ _ _ h => h1 _ (two_tri h)
  cone := fun _ _ _ _ _ h hw => h2 _ (two_tri h) _ (two_adj hw) rfl
  rays := fun _ _ _ hw hw' => h3 _ (two_adj hw) _ (two_adj hw') rfl

theorem kiteWith_flat (p : Pt ℚ) : Flat twoTriangles (· ∈ [1, 2]) (kiteWith p) := by
  have e : ∀ n < 4, kiteWith p n = kite n := fun n hn => if_neg (by omega)
  have a : ∀ A ∈ twoAdj, A.1 < 4 ∧ A.2 < 4 := by decide
  have t : ∀ T ∈ twoTri, T.2.1 < 4 ∧ T.2.2.1 < 4 ∧ T.2.2.2 < 4 := by decide
  refine two_flat ?_ ?_ ?_
  · intro T hT
    obtain ⟨t1, t2, t3⟩ := t T hT
    rw [e _ t1, e _ t2, e _ t3]
    revert T; decide +kernel
  · intro T hT A hA
    obtain ⟨t1, t2, t3⟩ := t T hT
    obtain ⟨a1, a2⟩ := a A hA
    rw [e _ t2, e _ t3, e _ a1, e _ a2]
    clear t1 t2 t3 a1 a2
    revert A; revert T; decide +kernel
  · intro A hA B hB
    obtain ⟨a1, a2⟩ := a A hA
    obtain ⟨b1, b2⟩ := a B hB
    rw [e _ b2, e _ a1, e _ a2]
    clear a1 a2 b1 b2
    revert B; revert A; decide +kernel

theorem tall_flat : Flat twoTriangles (· ∈ [1, 2]) (tallKite ⟨0, -1⟩) :=
  two_flat (by decide +kernel) (by decide +kernel) (by decide +kernel)

/-- C145, C146: a vertex in triangle 1 of the kite; triangle 2 is flipped, since vertex 3 is in the
circle of 0, 1 and the new vertex. -/
example : ∃ m' x, insertAt true (kiteWith ⟨0, -1/2⟩) 4 3 4 5 twoTriangles .inTriangle (1, 0) = .ok (some (m', x)) ∧
    Inserted true twoTriangles (· ∈ [1, 2]) (kiteWith ⟨0, -1/2⟩) 4 m' (fun t => t ∈ [1, 2] ∨ t = 3 ∨ t = 4) x := by
  obtain ⟨m', x, k1, k2, -⟩ := C146_inside (fuel := 5) true two_linked (kiteWith_flat ⟨0, -1/2⟩) (fun _ => two_segmented) (e := (1, 0)) (b := 2) (r := 0) (l := 1)
    (n1 := 3) (n2 := 4) (nv := 4) ⟨by decide, rfl, rfl, rfl⟩ (by decide) (by decide) (by decide) (by decide) (by decide) two_fresh (by decide +kernel)
    (by decide +kernel) (by decide +kernel) (ts := [1, 2]) (fun _ h => h) (by decide)
  exact ⟨m', x, k1, k2⟩

/-- The flip happens: the new vertex gets an edge to vertex 3. -/
example : (match insertAt true (kiteWith ⟨0, -1/2⟩) 4 3 4 5 twoTriangles .inTriangle (1, 0) with
    | .ok (some (m', x)) => (m'.corner (1, 0), m'.corner (1, 1), m'.corner (1, 2), m'.nbr (1, 0), x)
    | _ => (none, none, none, (0, 0), (0, 0))) = (some 0, some 3, some 4, (2, 0), (4, 2)) := by decide +kernel

/-- C147: a vertex on the inner edge of the kite, and one at its boundary. -/
example : (∃ m' x L', insertAt true (kiteWith ⟨1, 0⟩) 4 3 4 5 twoTriangles .onEdge (1, 0) = .ok (some (m', x)) ∧
      Inserted true twoTriangles (· ∈ [1, 2]) (kiteWith ⟨1, 0⟩) 4 m' L' x) ∧
    ∃ m' x L', insertAt true (kiteWith ⟨1, -1/2⟩) 4 3 4 5 twoTriangles .onEdge (1, 2) = .ok (some (m', x)) ∧
      Inserted true twoTriangles (· ∈ [1, 2]) (kiteWith ⟨1, -1/2⟩) 4 m' L' x := by
  constructor
  · obtain ⟨m', x, L', k1, -, k2, -⟩ := C147_edge (fuel := 5) true two_linked (kiteWith_flat ⟨1, 0⟩) (fun _ => ⟨two_segmented, by decide⟩) (e := (1, 0)) (b := 2)
      (r := 0) (l := 1) (n1 := 3) (n2 := 4) (nv := 4) ⟨by decide, rfl, rfl, rfl⟩ (by decide) (by decide) (by decide) (by decide) (by decide) two_fresh
      ⟨1/4, by decide +kernel⟩ (ts := [1, 2]) (fun _ h => h) (by decide) .onEdge (Or.inl rfl)
    exact ⟨m', x, L', k1, k2⟩
  · obtain ⟨m', x, L', k1, -, k2, -⟩ := C147_edge (fuel := 5) true two_linked (kiteWith_flat ⟨1, -1/2⟩) (fun _ => ⟨two_segmented, by decide⟩) (e := (1, 2)) (b := 1)
      (r := 2) (l := 0) (n1 := 3) (n2 := 4) (nv := 4) ⟨by decide, rfl, rfl, rfl⟩ (by decide) (by decide) (by decide) (by decide) (by decide) two_fresh
      ⟨1/2, by decide +kernel⟩ (ts := [1, 2]) (fun _ h => h) (by decide) .onEdge (Or.inl rfl)
    exact ⟨m', x, L', k1, k2⟩

/-- The centre of the circle is determined. -/
theorem tall_empty : EmptyCircles twoTriangles (· ∈ [1, 2]) (tallKite ⟨0, -1⟩) := by
  intro x v a b hx o o1 o2 w w' hw
  have hw' := (two_bound hw).1
  have hx := two_tri hx
  simp only [List.mem_cons, List.not_mem_nil, or_false, Prod.mk.injEq] at hx
  have p0 : tallKite ⟨0, -1⟩ 0 = ⟨1, 0⟩ := rfl
  have p1 : tallKite ⟨0, -1⟩ 1 = ⟨-1, 0⟩ := rfl
  have p2 : tallKite ⟨0, -1⟩ 2 = ⟨0, -2⟩ := rfl
  have p3 : tallKite ⟨0, -1⟩ 3 = ⟨0, 2⟩ := rfl
  have hc : (sqDist o ⟨1, 0⟩ = sqDist o ⟨-1, 0⟩ ∧ sqDist o ⟨1, 0⟩ = sqDist o (⟨0, -2⟩ : Pt ℚ)) ∨
      (sqDist o ⟨1, 0⟩ = sqDist o ⟨-1, 0⟩ ∧ sqDist o ⟨1, 0⟩ = sqDist o (⟨0, 2⟩ : Pt ℚ)) := by
    rcases hx with ⟨-, rfl, rfl, rfl⟩ | ⟨-, rfl, rfl, rfl⟩ | ⟨-, rfl, rfl, rfl⟩ | ⟨-, rfl, rfl, rfl⟩ | ⟨-, rfl, rfl, rfl⟩ | ⟨-, rfl, rfl, rfl⟩ <;>
      simp only [p0, p1, p2, p3] at o1 o2
    · left; constructor <;> linarith
    · left; constructor <;> linarith
    · left; constructor <;> linarith
    · right; constructor <;> linarith
    · right; constructor <;> linarith
    · right; constructor <;> linarith
  have hv : sqDist o (tallKite ⟨0, -1⟩ v) = sqDist o ⟨1, 0⟩ := by
    rcases hx with ⟨-, rfl, rfl, rfl⟩ | ⟨-, rfl, rfl, rfl⟩ | ⟨-, rfl, rfl, rfl⟩ | ⟨-, rfl, rfl, rfl⟩ | ⟨-, rfl, rfl, rfl⟩ | ⟨-, rfl, rfl, rfl⟩ <;>
      simp only [p0, p1, p2, p3] at o1 o2 ⊢ <;> linarith
  rw [hv]
  have hw4 : w = 0 ∨ w = 1 ∨ w = 2 ∨ w = 3 := by omega
  simp only [sqDist] at hc
  rcases hw4 with rfl | rfl | rfl | rfl <;> simp only [p0, p1, p2, p3, sqDist] <;> rcases hc with ⟨c1, c2⟩ | ⟨c1, c2⟩ <;> nlinarith

/-- C148: a vertex in a triangle of a Delaunay triangulation. -/
example : ∃ m' x, insertAt false (tallKite ⟨0, -1⟩) 4 3 4 5 twoTriangles .inTriangle (1, 0) = .ok (some (m', x)) ∧
    ∀ y, LocallyDelaunay m' (fun t => t ∈ [1, 2] ∨ t = 3 ∨ t = 4) (tallKite ⟨0, -1⟩) y := by
  obtain ⟨m', x, k1, -, k2⟩ := C148_inside (fuel := 5) two_linked tall_flat tall_empty (e := (1, 0)) (b := 2) (r := 0) (l := 1)
    (n1 := 3) (n2 := 4) (nv := 4) ⟨by decide, rfl, rfl, rfl⟩ (by decide) (by decide) (by decide) (by decide) (by decide) two_fresh (by decide +kernel)
    (by decide +kernel) (by decide +kernel) (ts := [1, 2]) (fun _ h => h) (by decide)
  exact ⟨m', x, k1, k2⟩

/-- Two triangles with a subsegment between them. -/
def barred : Segs where
  mesh := { twoTriangles with
    sub := fun x => if x = (1, 0) then (1, false) else if x = (2, 0) then (1, true) else (0, false)
    stri := fun s => if s = (1, false) then (1, 0) else if s = (1, true) then (2, 0) else (0, 0) }
  send := fun s => if s = (1, false) then some 1 else if s = (1, true) then some 0 else none
  segend := fun s => if s = (1, false) then some 1 else if s = (1, true) then some 0 else none
  smark := fun n => if n = 1 then 7 else 0
  vmark := fun _ => 0
  count := 1

theorem barred_segMesh : SegMesh barred (· ∈ [1, 2]) := by
  have conv : ∀ (P : Otri → Prop), (∀ t ∈ [1, 2], ∀ o, P (t, o)) → ∀ x : Otri, x.1 ∈ [1, 2] → P x := fun P h x hx => h x.1 hx x.2
  refine ⟨two_linked.congr rfl rfl, ?_, by unfold Proper; decide +kernel, ⟨conv _ (by decide +kernel), ?_⟩⟩
  · refine ⟨conv _ (by decide +kernel), conv _ (by decide +kernel), conv _ (by decide +kernel), conv _ (by decide +kernel), ?_⟩
    intro x y hx hy
    exact conv (fun y => ((barred.mesh.sub x).1 ≠ 0 → (barred.mesh.sub x).1 = (barred.mesh.sub y).1 → y = x ∨ y = barred.mesh.nbr x))
      (conv (fun x => ∀ t ∈ [1, 2], ∀ o, ((barred.mesh.sub x).1 ≠ 0 → (barred.mesh.sub x).1 = (barred.mesh.sub (t, o)).1 →
        (t, o) = x ∨ (t, o) = barred.mesh.nbr x)) (by decide +kernel) x hx) y hy
  · rintro x v w ⟨h1, h2, h3⟩ hs
    have key := conv (fun x => (barred.mesh.sub x).1 ≠ 0 → barred.send (barred.mesh.sub x) = barred.mesh.corner (x.1, x.2 + 2) ∧
      barred.send ((barred.mesh.sub x).1, !(barred.mesh.sub x).2) = barred.mesh.corner (x.1, x.2 + 1)) (by decide +kernel) x h1 hs
    rw [h2, h3] at key
    exact key

/-- C149: a vertex on the subsegment. -/
example : ∃ s' x L', insertOn (kiteWith ⟨1, 0⟩) 4 3 4 5 barred (1, 0) (1, false) = .ok (s', x) ∧ SegMesh s' L' ∧
    SubSplit barred (· ∈ [1, 2]) s' L' (1, false) 0 1 4 := by
  obtain ⟨s', x, L', k1, -, -, k2, k3, -⟩ := C149_subsegment (fuel := 5) barred_segMesh ((kiteWith_flat ⟨1, 0⟩).congr rfl) (e := (1, 0)) (b := 2)
      (r := 0) (l := 1) (n1 := 3) (n2 := 4) (nv := 4) ⟨by decide, rfl, rfl, rfl⟩ (by decide) (by decide) (by decide) (by decide) (by decide) (by decide)
      two_fresh ⟨1/4, by decide +kernel⟩ (ts := [1, 2]) (fun _ h => h) (by decide)
  exact ⟨s', x, L', k1, k2, k3⟩

/-- The new subsegment has the number 2 and the mark 7. -/
example : (match insertOn (kiteWith ⟨1, 0⟩) 4 3 4 5 barred (1, 0) (1, false) with
    | .ok (s', _) => (s'.mesh.sub (1, 0), s'.mesh.sub (3, 1), s'.mesh.sub (4, 2), s'.smark 2, s'.send (2, false), s'.send (2, true))
    | _ => ((0, false), (0, false), (0, false), 0, none, none)) = ((1, false), (2, false), (2, true), 7, some 4, some 0) := by decide +kernel

end Delynoi
