import Verif.Model.Pipeline
import Verif.Props.DelaunayMesh
import Verif.Props.Voronoi
import Verif.Props.Region
/-!
# Properties C82, C85: the users of the Delaunay generator
-/
set_option linter.unusedSectionVars false
namespace Delynoi
variable {K : Type} [Field K] [LinearOrder K] [IsStrictOrderedRing K]

/-! ### C82 -/

theorem copy_wf {region : Region K} (h : region.WF) : region.copy.WF := h

theorem triangleInput_copy (tol : K) (region : Region K) (seeds : List (Pt K))
    (restricted : List (Pt K × Pt K)) :
    triangleInput tol region.copy seeds restricted = triangleInput tol region seeds restricted := rfl

/-- C82: for every seed list, every well-formed region and every triangulation library that answers
the one call it gets with a valid triangulation of separated points, the constructor of the Voronoi
generator succeeds.  The library was given the input of C64 and the conforming switches.  The
triangulation it offers has the library's points and triangles in order, with exactly the right
triangles listed for each point; the Voronoi mesh is the one of C69-C71, C83, C84. -/
theorem C82_generator (tol : K) (h : 0 < tol) (lib : Triangulator K) (seeds : List (Pt K))
    (region : Region K) (hw : region.WF)
    (hlib : ∀ inp, triangleInput tol region seeds [] = .ok inp →
      ValidOut (lib .conforming inp) ∧ TolSeparated tol {p | p ∈ (lib .conforming inp).points} ∧
      (lib .conforming inp).points.Pairwise (fun a b => ¬ Close tol a b)) :
    ∃ inp g d, triangleInput tol region seeds [] = .ok inp ∧
      TriVoronoi.new tol lib seeds region = .ok g ∧
      DelInfo.importOut tol DelInfo.empty (lib .conforming inp) = .ok d ∧
      voronoi tol d = .ok g.getMesh ∧
      g.getTriangulation.points.list = (lib .conforming inp).points ∧
      g.getTriangulation.edges = d.delaunayEdges ∧
      g.getTriangulation.polygons.map Poly.points =
        (lib .conforming inp).tris.map (fun t => [t.1, t.2.1, t.2.2]) ∧
      (∀ (v : Nat) (p : Pt K), (lib .conforming inp).points[v]? = some p →
        ((g.getTriangulation.pointMap.get tol p).2).Nodup ∧
        ∀ k : Int, k ∈ (g.getTriangulation.pointMap.get tol p).2 ↔
          ∃ (j : Nat) (t : Int × Int × Int), k = (j : Int) ∧
            (lib .conforming inp).tris[j]? = some t ∧ (v : Int) ∈ verts t) := by
  obtain ⟨inp, hinp, _⟩ := C64_input_consistent tol h region hw seeds []
  obtain ⟨hv, hS, hp⟩ := hlib inp hinp
  obtain ⟨d, m, h1, h2, h3, h4, h5, h6, h7⟩ :=
    mesh_core (Poly.ofIndices tol) (fun _ t g => g = (Poly.fresh t.pts : Poly K))
      (fun _ t _ => ⟨_, rfl, rfl⟩) tol h _ hv hS hp
  obtain ⟨d', v, hd', hv'⟩ := C69_terminates tol _ hv
  rw [h1] at hd'
  obtain rfl := Outcome.ok.inj hd'
  have he : (DelGen.new seeds region.copy).ensure tol lib .conforming [] =
      .ok { DelGen.new seeds region.copy with
        info := d, empty := true, log := [] ++ [(.conforming, inp)] } := by
    have e1 : (DelGen.new seeds region.copy).ensure tol lib .conforming [] =
      (DelGen.new seeds region.copy).callTriangle tol lib .conforming [] := rfl
    rw [e1]
    unfold DelGen.callTriangle
    have e2 : triangleInput tol (DelGen.new seeds region.copy).region
      (DelGen.new seeds region.copy).seeds [] = .ok inp := hinp
    have e3 : (DelGen.new seeds region.copy).info = DelInfo.empty := rfl
    rw [e2, Outcome.bind_ok, e3, h1, Outcome.bind_ok]
    rfl
  refine ⟨inp, ⟨v, m⟩, d, hinp, ?_, h1, hv', h3, h4, ?_, h7⟩
  · unfold TriVoronoi.new
    rw [he, Outcome.bind_ok]
    simp only
    rw [h2, Outcome.bind_ok, hv', Outcome.bind_ok]
    rfl
  · show m.polygons.map Poly.points = _
    apply List.ext_getElem?
    intro k
    rw [List.getElem?_map, List.getElem?_map]
    cases hk : (lib .conforming inp).tris[k]? with
    | none =>
      have := List.getElem?_eq_none_iff.1 hk
      rw [List.getElem?_eq_none_iff.2 (by rw [h5]; exact this)]; rfl
    | some t =>
      obtain ⟨g, tr, g1, g2, g3⟩ := h6 k t hk
      rw [g1, g3]
      show some tr.pts = _
      rw [g2]; rfl

/-- The hypotheses are met by a library that triangulates the square with its middle point. -/
example : squareRegion.WF ∧ ∀ inp, triangleInput (1/100000 : ℚ) squareRegion [⟨1, 1⟩] [] = .ok inp →
    ValidOut ((fun _ _ => sampleOut : Triangulator ℚ) .conforming inp) ∧
    TolSeparated (1/100000 : ℚ) {p | p ∈ ((fun _ _ => sampleOut : Triangulator ℚ) .conforming inp).points} ∧
    ((fun _ _ => sampleOut : Triangulator ℚ) .conforming inp).points.Pairwise
      (fun a b => ¬ Close (1/100000 : ℚ) a b) :=
  ⟨⟨by decide, by intro h hh; cases hh⟩,
    fun _ _ => ⟨sampleOut_valid, sampleOut_separated,
      show sampleOut.points.Pairwise (fun a b => ¬ Close (1/100000 : ℚ) a b) by decide +kernel⟩⟩

/-! ### C85 -/

/-- Four points of which the polygon uses the last three. -/
def spare : List (Pt ℚ) := [⟨5, 5⟩, ⟨0, 0⟩, ⟨2, 0⟩, ⟨0, 2⟩]

/-- The triangle is all there is inside the polygon; the switch `j` makes the library drop and
renumber the unused point. -/
def dropsUnused : Triangulator ℚ := fun _ _ =>
  ⟨[⟨0, 0⟩, ⟨2, 0⟩, ⟨0, 2⟩], [(0, 1, 1), (1, 2, 1), (2, 0, 1)], [(0, 1, 2)]⟩

/-- C85 is violated: triangulating the polygon `[1, 2, 3]` gives the triangle `[0, 1, 2]`, whose
first vertex is not a vertex of the polygon. -/
theorem C85_refuted :
    triangleInput (1/100000 : ℚ) ⟨Poly.fresh [0, 1, 2], [⟨0, 0⟩, ⟨2, 0⟩, ⟨0, 2⟩], [], []⟩ spare [] =
      .ok ⟨spare, [(1, 2), (2, 3), (3, 1)], []⟩ ∧
    ∃ ts, delaunayTriangulate (1/100000 : ℚ) dropsUnused (Poly.fresh [1, 2, 3]) spare = .ok ts ∧
      ts.map MTri.pts = [[0, 1, 2]] := by
  refine ⟨by decide +kernel, ?_⟩
  have key : (match delaunayTriangulate (1/100000 : ℚ) dropsUnused (Poly.fresh [1, 2, 3]) spare with
    | .ok ts => decide (ts.map MTri.pts = [[0, 1, 2]])
    | _ => false) = true := by decide +kernel
  split at key
  · rename_i ts hts
    exact ⟨ts, hts, of_decide_eq_true key⟩
  · cases key

theorem ofPolygon_wf {tol : K} {p : Poly K} {points : List (Pt K)} {r : Region K}
    (h : Region.ofPolygon tol p points = .ok r) : r.WF ∧ r.holes = [] ∧ resolve points p.points = .ok r.p := by
  unfold Region.ofPolygon at h
  cases h1 : resolve points p.points with
  | exn => rw [h1] at h; cases h
  | ub => rw [h1] at h; cases h
  | ok q =>
    rw [h1, Outcome.bind_ok] at h
    unfold Poly.mutate at h
    split at h
    · cases h
    · obtain rfl := Outcome.ok.inj h
      exact ⟨⟨resolve_ok_iff.1 ⟨_, resolve_trivial q⟩, by intro a ha; cases ha⟩, rfl, rfl⟩

theorem mem_resolve {α : Type} {p : List α} {is : List Int} {l : List α} (h : resolve p is = .ok l) :
    ∀ x ∈ l, x ∈ p := by
  intro x hx
  obtain ⟨k, hk⟩ := List.mem_iff_getElem?.1 hx
  have hkl : k < is.length := by rw [← resolve_length h]; exact (List.getElem?_eq_some_iff.1 hk).1
  obtain ⟨a, h1, h2⟩ := resolve_getElem? h (List.getElem?_eq_getElem hkl)
  rw [hk] at h1
  obtain rfl := Option.some.inj h1
  exact List.mem_of_getElem? (vecGet_ok_iff.1 h2).2

/-- Inserting points that are there changes nothing. -/
theorem specPush_known (tol : K) (h : 0 < tol) (l : List (Pt K)) (xs : List (Pt K)) (hx : ∀ x ∈ xs, x ∈ l) :
    xs.foldl (specPush (fun a b : Pt K => a.ltTol tol b)) l = l := by
  induction xs with
  | nil => rfl
  | cons x xs ih =>
    rw [List.foldl_cons]
    have : specPush (fun a b : Pt K => a.ltTol tol b) l x = l := by
      unfold specPush
      rw [if_pos]
      exact ⟨x, hx x (by simp), (equiv_iff_close tol h _ _).2 (by unfold Close; simp [h])⟩
    rw [this]
    exact ih (fun y hy => hx y (by simp [hy]))

/-- The points of the input if the region's points are among the seeds. -/
theorem input_points (tol : K) (h : 0 < tol) (region : Region K) (seeds : List (Pt K))
    (hS : TolSeparated tol {q | q ∈ seeds}) (hp : seeds.Pairwise (fun a b => ¬ Close tol a b))
    (hr : ∀ x ∈ region.getRegionPoints, x ∈ seeds) :
    (trianglePoints tol region seeds).1.list = seeds := by
  have hw := C09_swo_of_separated tol h _ hS
  have i1 := UList.inv_pushList (xs := seeds) hw (UList.inv_empty) (fun x hx => hx)
  have l1 := (pushList_fresh hw seeds (UList.inv_empty) (fun x hx => hx) (by
      show NoDup _ ([] ++ seeds)
      rw [List.nil_append]
      exact hp.imp (fun hab he => hab ((equiv_iff_close tol h _ _).1 he)))).1
  have l1 : (UList.pushList (fun a b : Pt K => a.ltTol tol b) UList.empty seeds).1.list = seeds := by
    rw [l1]; rfl
  have l2 := (UList.inv_pushList (xs := region.getRegionPoints) hw i1.1 hr).2
  show ((UList.pushList (fun a b : Pt K => a.ltTol tol b) UList.empty seeds).1.pushList
    (fun a b : Pt K => a.ltTol tol b) region.getRegionPoints).1.list = seeds
  rw [l2, l1, specPush_known tol h seeds _ hr]

/-- C85, the part that holds: if the library keeps the points (no two of which coincide) in place,
which is the case if it needs no further points and leaves none unused, then the triangles returned
are the library's, and their indices refer to the given points.  Missing: points the library drops or
adds (see `C85_refuted`). -/
theorem C85_indices_partial (tol : K) (h : 0 < tol) (lib : Triangulator K) (p : Poly K)
    (points : List (Pt K)) (r : Region K) (hr : Region.ofPolygon tol p points = .ok r)
    (hS : TolSeparated tol {q | q ∈ points}) (hp : points.Pairwise (fun a b => ¬ Close tol a b))
    (hlib : ∀ inp, triangleInput tol r points [] = .ok inp → ValidOut (lib .constrained inp) ∧
      (lib .constrained inp).points = inp.points) :
    ∃ inp ts, triangleInput tol r points [] = .ok inp ∧ inp.points = points ∧
      delaunayTriangulate tol lib p points = .ok ts ∧
      ts.length = (lib .constrained inp).tris.length ∧
      ∀ (k : Nat) (t : Int × Int × Int), (lib .constrained inp).tris[k]? = some t → ∃ g a b c,
        ts[k]? = some g ∧ g.pts = [t.1, t.2.1, t.2.2] ∧ vecGet points t.1 = .ok a ∧
        vecGet points t.2.1 = .ok b ∧ vecGet points t.2.2 = .ok c ∧ turn a b c ≠ 0 ∧
        g.circ = circumcenter a b c := by
  obtain ⟨hw, hh, hres⟩ := ofPolygon_wf hr
  obtain ⟨inp, hinp, _⟩ := C64_input_consistent tol h r hw points []
  obtain ⟨hv, hpts⟩ := hlib inp hinp
  have hmem : ∀ x ∈ r.getRegionPoints, x ∈ points := by
    intro x hx
    unfold Region.getRegionPoints at hx
    rw [hh] at hx
    exact mem_resolve hres x (by simpa using hx)
  have hip : inp.points = points := by
    rw [← input_points tol h r points hS hp hmem]
    unfold triangleInput at hinp
    simp only at hinp
    cases h1 : regionSegments (trianglePoints tol r points).2 r.getSegments with
    | exn => rw [h1] at hinp; cases hinp
    | ub => rw [h1] at hinp; cases hinp
    | ok segs =>
      rw [h1, Outcome.bind_ok] at hinp
      have := Outcome.ok.inj hinp
      rw [← this]
  rw [hip] at hpts
  obtain ⟨d, m, h1, h2, h3, h4, h5, h6, h7⟩ := C67_mesh tol h (lib .constrained inp) hv
    (by rw [hpts]; exact hS) (by rw [hpts]; exact hp)
  refine ⟨inp, m.polygons, hinp, hip, ?_, h5, ?_⟩
  · unfold delaunayTriangulate
    rw [hr, Outcome.bind_ok]
    have e1 : (DelGen.new points r.copy).ensure tol lib .constrained [] =
      (DelGen.new points r.copy).callTriangle tol lib .constrained [] := rfl
    rw [e1]
    unfold DelGen.callTriangle
    have e2 : triangleInput tol (DelGen.new points r.copy).region
      (DelGen.new points r.copy).seeds [] = .ok inp := hinp
    have e3 : (DelGen.new points r.copy).info = DelInfo.empty := rfl
    rw [e2, Outcome.bind_ok, e3, h1, Outcome.bind_ok, Outcome.pure_eq, Outcome.bind_ok]
    simp only
    rw [h2, Outcome.bind_ok]
    rfl
  · intro k t hk
    obtain ⟨g, a, b, c, g1, g2, g3, g4, g5, g6⟩ := h6 k t hk
    rw [hpts] at g3 g4 g5
    obtain ⟨a', b', c', q1, q2, q3, q4⟩ := hv.triProper t (List.mem_of_getElem? hk)
    rw [hpts] at q1 q2 q3
    rw [g3] at q1; rw [g4] at q2; rw [g5] at q3
    obtain rfl := Outcome.ok.inj q1
    obtain rfl := Outcome.ok.inj q2
    obtain rfl := Outcome.ok.inj q3
    exact ⟨g, a, b, c, g1, g2, g3, g4, g5, q4, g6⟩

/-- A square split along a diagonal. -/
def splitSquare : TriOut ℚ :=
  ⟨[⟨0, 0⟩, ⟨2, 0⟩, ⟨2, 2⟩, ⟨0, 2⟩], [(0, 1, 1), (1, 2, 1), (0, 2, 0), (2, 3, 1), (3, 0, 1)],
    [(0, 1, 2), (0, 2, 3)]⟩

theorem splitSquare_valid : ValidOut splitSquare := by
  refine ⟨by decide +kernel, by decide +kernel, ?_, by decide +kernel, by decide +kernel, by decide +kernel⟩
  intro t ht
  simp only [splitSquare, List.mem_cons, List.not_mem_nil, or_false] at ht
  rcases ht with rfl | rfl
  · exact ⟨⟨0, 0⟩, ⟨2, 0⟩, ⟨2, 2⟩, rfl, rfl, rfl, by decide +kernel⟩
  · exact ⟨⟨0, 0⟩, ⟨2, 2⟩, ⟨0, 2⟩, rfl, rfl, rfl, by decide +kernel⟩

/-- The hypotheses of the partial theorem are met by a square (given clockwise). -/
example : ∃ r, Region.ofPolygon (1/100000 : ℚ) (Poly.fresh [3, 2, 1, 0]) splitSquare.points = .ok r ∧
    TolSeparated (1/100000 : ℚ) {q | q ∈ splitSquare.points} ∧
    splitSquare.points.Pairwise (fun a b => ¬ Close (1/100000 : ℚ) a b) ∧
    ∀ inp, triangleInput (1/100000 : ℚ) r splitSquare.points [] = .ok inp →
      ValidOut ((fun _ _ => splitSquare : Triangulator ℚ) .constrained inp) ∧
      ((fun _ _ => splitSquare : Triangulator ℚ) .constrained inp).points = inp.points := by
  refine ⟨⟨Poly.fresh [0, 1, 2, 3], [⟨0, 2⟩, ⟨2, 2⟩, ⟨2, 0⟩, ⟨0, 0⟩], [], []⟩, by decide +kernel,
    C09_separated_of_gap (1/100000 : ℚ) (by decide +kernel) _ ?_ ?_, by decide +kernel, ?_⟩
  · have : ∀ a ∈ splitSquare.points, ∀ b ∈ splitSquare.points, a.x = b.x ∨ (1/100000 : ℚ) ≤ |a.x - b.x| := by
      decide +kernel
    exact this
  · have : ∀ a ∈ splitSquare.points, ∀ b ∈ splitSquare.points, a.y = b.y ∨ (1/100000 : ℚ) ≤ |a.y - b.y| := by
      decide +kernel
    exact this
  · intro inp hinp
    refine ⟨splitSquare_valid, ?_⟩
    have key : triangleInput (1/100000 : ℚ) ⟨Poly.fresh [0, 1, 2, 3], [⟨0, 2⟩, ⟨2, 2⟩, ⟨2, 0⟩, ⟨0, 0⟩], [], []⟩
      splitSquare.points [] = .ok ⟨splitSquare.points, [(3, 2), (2, 1), (1, 0), (0, 3)], []⟩ := by
      decide +kernel
    rw [key] at hinp
    obtain rfl := Outcome.ok.inj hinp
    rfl

end Delynoi
