import Verif.Model.Delaunay
/-!
# Boundary flags of points (`Point::isBoundaryPoint`)

The other models leave the flag out because no function of the library reads it; it is part of the
result (`Point::isInBoundary`).  A `UniqueList<Point>` is represented by the list of coordinates of
the other models and a parallel list of flags (the flags of the keys in the list's map are never
read).  Comparison of points ignores the flag (Point.cpp:28-46), so `push_back` of a point
equivalent to a stored one leaves the stored flag unchanged (UniqueList.h:45-58).
-/
namespace Delynoi
section
variable {K : Type} [Field K] [LinearOrder K]

/-- UniqueList.h:45-58 `push_back` of a point with flag `b`. -/
def pushFlagged (tol : K) (u : UList (Pt K)) (fl : List Bool) (x : Pt K) (b : Bool) :
    (UList (Pt K) × List Bool) × Nat :=
  let r := u.pushBack (fun x y => x.ltTol tol y) x
  ((r.1, if r.1.list.length = u.list.length then fl else fl ++ [b]), r.2)

/-- UniqueList.h:100-120 `push_list` of flagged points. -/
def pushListFlagged (tol : K) (u : UList (Pt K)) (fl : List Bool) :
    List (Pt K × Bool) → UList (Pt K) × List Bool
  | [] => (u, fl)
  | x :: xs =>
    let r := pushFlagged tol u fl x.1 x.2
    pushListFlagged tol r.1.1 r.1.2 xs

/-- TriangleDelaunayGenerator.cpp:82-89: the flags of `meshPoints` from `out.pointmarkerlist`. -/
def meshFlags (markers : List Int) : List Bool := markers.map (fun m => decide (m = 1))

/-- TriangleDelaunayGenerator.h:94-116, 98: points and flags of the mesh returned by
`initializeMesh`. -/
def delaunayFlags (tol : K) (pts : List (Pt K)) (markers : List Int) : UList (Pt K) × List Bool :=
  pushListFlagged tol UList.empty [] (pts.zip (meshFlags markers))

/-- TriangleDelaunayGenerator.cpp:107 with Triangle.cpp:10-13: circumcenters come fresh from the
constructor of `Point`, with flag `false` (Point.h:24). -/
def circumFlags (d : DelInfo K) : List Bool := List.replicate d.circumcenters.list.length false

/-- DelaunayToVoronoi.cpp:108-119 `getCircumcenter` with flags. -/
def getCircumcenterF (tol : K) (d : DelInfo K) (s : VState K) (fl : List Bool)
    (triangle edge : Int) : Outcome ((VState K × List Bool) × Int) :=
  if triangle ≠ -1 then do
    let t ← vecGet d.triangles triangle
    return ((s, fl), t.circ)
  else do
    let e ← vecGet d.edges edge
    let m ← (ISeg.mk' e.p1 e.p2).middlePoint d.meshPoints
    let u := pushFlagged tol s.circ fl m true
    return (({ s with circ := u.1.1 }, u.1.2), (u.2 : Int))

/-- DelaunayToVoronoi.cpp:20-33 and 43-57 with flags. -/
def crossEdgeF (tol : K) (d : DelInfo K) (cell : Int) (t1 t2 edge : Int)
    (s : VState K) (fl : List Bool) (cp : UList Int) : Outcome ((VState K × List Bool) × UList Int) := do
  let r1 ← getCircumcenterF tol d s fl t1 edge
  let r2 ← getCircumcenterF tol d r1.1.1 r1.1.2 t2 edge
  let index1 := r1.2
  let index2 := r2.2
  let s := r2.1.1
  let q1 ← vecGet s.circ.list index1
  if index1 ≠ index2 then do
    let q2 ← vecGet s.circ.list index2
    let s := { s with
      vedges := s.vedges.insert (ISeg.mk' index2 index1) cell
      pmap := (s.pmap.insert tol q2 cell).insert tol q1 cell }
    return ((s, r2.1.2), ((cp.pushBack ltInt index2).1.pushBack ltInt index1).1)
  else
    return (({ s with pmap := s.pmap.insert tol q1 cell }, r2.1.2), (cp.pushBack ltInt index1).1)

/-- DelaunayToVoronoi.cpp:37-64 with flags. -/
def walkF (tol : K) (d : DelInfo K) (cell index : Int) (init : EdgeData) :
    Nat → EdgeData → Int → VState K → List Bool → UList Int →
    Outcome (EdgeData × (VState K × List Bool) × UList Int)
  | fuel, edge, t, s, fl, cp =>
    if edge.eq init then .ok (edge, (s, fl), cp)
    else match fuel with
    | 0 => .ub
    | fuel + 1 => do
      let t' := if edge.t1 ≠ t then edge.t1 else edge.t2
      let m := edgeMapGet s.edgeMap (Key.mk' edge.p1 edge.p2)
      let r ← crossEdgeF tol d cell t' t m.2 { s with edgeMap := m.1 } fl cp
      if t' ≠ -1 then do
        let n ← nextEdgeOf d r.1.1 t' index edge
        walkF tol d cell index init fuel n.2 t' n.1 r.1.2 r.2
      else return (edge, r.1, r.2)

/-- DelaunayToVoronoi.cpp:66-91 with flags. -/
def closeCellF (tol : K) (cell : Int) (center : Pt K) (edge : EdgeData) (s : VState K)
    (fl : List Bool) (cp : UList Int) : Outcome ((VState K × List Bool) × UList Int) :=
  if edge.t2 = -1 then do
    let first ← vecGet cp.list 0
    let last ← vecGet cp.list ((cp.list.length : Int) - 1)
    let qf ← vecGet s.circ.list first
    let ql ← vecGet s.circ.list last
    if collinear tol qf center ql then
      return (({ s with vedges := s.vedges.insert (ISeg.mk' last first) cell }, fl), cp)
    else do
      let u := pushFlagged tol s.circ fl center true
      let ri : Int := (u.2 : Int)
      let q ← vecGet u.1.1.list ri
      return (({ s with
        circ := u.1.1
        pmap := s.pmap.insert tol q cell
        vedges := (s.vedges.insert (ISeg.mk' last ri) cell).insert (ISeg.mk' ri first) cell }, u.1.2),
        (cp.pushBack ltInt ri).1)
  else .ok ((s, fl), cp)

/-- DelaunayToVoronoi.cpp:9-99 with flags. -/
def voronoiCellF (tol : K) (d : DelInfo K) (cell index : Int) (s : VState K) (fl : List Bool) :
    Outcome ((VState K × List Bool) × Poly K) := do
  let center ← vecGet d.meshPoints index
  let pd ← vecGet d.points index
  let init ← vecGet d.edges pd.edge
  let r ← crossEdgeF tol d cell init.t1 init.t2 pd.edge s fl UList.empty
  let n ← nextEdgeOf d r.1.1 init.t1 index init
  let w ← walkF tol d cell index init (3 * d.triangles.length) n.2 init.t1 n.1 r.1.2 r.2
  let c ← closeCellF tol cell center w.1 w.2.1.1 w.2.1.2 w.2.2
  let p ← Poly.ofIndices tol c.2.list c.1.1.circ.list
  let p ← p.fixCCW c.1.1.circ.list
  return (c.1, p)

/-- DelaunayToVoronoi.cpp:8-100 with flags. -/
def voronoiCellsF (tol : K) (d : DelInfo K) : List Int → VState K → List Bool → List (Poly K) →
    Outcome ((VState K × List Bool) × List (Poly K))
  | [], s, fl, cells => .ok ((s, fl), cells)
  | index :: rest, s, fl, cells => do
    let r ← voronoiCellF tol d (cells.length : Int) index s fl
    voronoiCellsF tol d rest r.1.1 r.1.2 (cells ++ [r.2])

/-- DelaunayToVoronoi.cpp:3-105: the mesh and the flags of its points. -/
def voronoiF (tol : K) (d : DelInfo K) : Outcome (Mesh K (Poly K) × List Bool) := do
  let r ← voronoiCellsF tol d d.realPoints.list
    ⟨d.circumcenters, d.edgeMap, SegMap.empty, PtMap.empty⟩ (circumFlags d) []
  return (⟨r.1.1.circ, r.2, r.1.1.vedges, r.1.1.pmap⟩, r.1.2)

end
end Delynoi
