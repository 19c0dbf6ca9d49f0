import Verif.Model.Neighbours
import Verif.Model.Triangle
import Verif.Model.Region
/-!
# Delaunay triangulation import (TriangleDelaunayGenerator) and meshes

The C library Triangle is not modelled: it is an arbitrary function from its input to its output.
Boundary flags of points (`Point::setBoundary`) are added in Model/Flags: nothing in the functions
below reads them.
-/
namespace Delynoi

/-- Writing to a vector element by `int` subscript. -/
def vecModify {α : Type u} (v : List α) (i : Int) (f : α → α) : Outcome (List α) :=
  if 0 ≤ i ∧ i.toNat < v.length then .ok (v.modify i.toNat f) else .ub

/-- voronoi/structures/PointData.h:7-28 (`point` is never read and is left out). -/
structure PointData where
  edge : Int
  deriving DecidableEq, Repr

/-- PointData.h:25-27 `setEdge`. -/
def PointData.setEdge (d : PointData) (e : Int) (marker : Int) : PointData :=
  if d.edge = -1 ∨ marker = 1 then ⟨e⟩ else d

/-- The part of `struct triangulateio in` that is filled in TriangleDelaunayGenerator.cpp:25-68
(the point attributes are all 0.0 and left out). -/
structure TriIn (K : Type) where
  points : List (Pt K)
  segments : List (Int × Int)
  holes : List (Pt K)
  deriving DecidableEq

/-- The part of `struct triangulateio out` that is read in TriangleDelaunayGenerator.cpp:82-116:
points, edges with their markers, triangles. -/
structure TriOut (K : Type) where
  points : List (Pt K)
  edges : List (Int × Int × Int)
  tris : List (Int × Int × Int)
  deriving DecidableEq

/-- A `Triangle` object: its vertex list and `circumcenterIndex` (Triangle.h). -/
structure Tri where
  pts : List Int
  circ : Int
  deriving DecidableEq, Repr

/-- Order of `UniqueList<int>`. -/
def ltInt (a b : Int) : Bool := decide (a < b)

/-- `edgeMap[key]` (`operator[]`): inserts the value 0 if the key is absent. -/
def edgeMapGet (m : UMap Key Int) (k : Key) : UMap Key Int × Int :=
  match UMap.find Key.hash Key.eq m k with
  | some i => (m, i)
  | none => (UMap.upsert Key.hash Key.eq 0 id m k, 0)

/-- TriangleDelaunayGenerator.h:23-41, the fields filled by `callTriangle`. -/
structure DelInfo (K : Type) where
  triangles : List Tri
  meshPoints : List (Pt K)
  delaunayEdges : SegMap
  points : List PointData
  realPoints : UList Int
  edges : List EdgeData
  circumcenters : UList (Pt K)
  edgeMap : UMap Key Int
  deriving DecidableEq

namespace DelInfo
variable {K : Type} [Field K] [LinearOrder K]

/-- TriangleDelaunayGenerator.cpp:3-7: all members empty. -/
def empty : DelInfo K := ⟨[], [], SegMap.empty, [], UList.empty, [], UList.empty, []⟩

/-- TriangleDelaunayGenerator.cpp:82-89. -/
def importPoints (d : DelInfo K) (pts : List (Pt K)) : DelInfo K :=
  { d with points := d.points ++ pts.map (fun _ => ⟨-1⟩), meshPoints := d.meshPoints ++ pts }

/-- TriangleDelaunayGenerator.cpp:92-96: one edge, loop counter `i`.  `edgeMap.insert` does not
overwrite. -/
def importEdge (d : DelInfo K) (i : Int) (e : Int × Int × Int) : Outcome (DelInfo K) := do
  let edges := d.edges ++ [EdgeData.mk' e.1 e.2.1]
  let edgeMap := UMap.upsert Key.hash Key.eq i id d.edgeMap (Key.mk' e.1 e.2.1)
  let points ← vecModify d.points e.1 (fun p => p.setEdge i e.2.2)
  let points ← vecModify points e.2.1 (fun p => p.setEdge i e.2.2)
  return { d with edges := edges, edgeMap := edgeMap, points := points }

/-- TriangleDelaunayGenerator.cpp:91-97. -/
def importEdges (d : DelInfo K) (i : Int) : List (Int × Int × Int) → Outcome (DelInfo K)
  | [] => .ok d
  | e :: es => do
    let d ← importEdge d i e
    importEdges d (i + 1) es

/-- TriangleDelaunayGenerator.cpp:100-115: one triangle, loop counter `i`.  The constructor
Triangle.cpp:10-13 computes the circumcenter and pushes it; a degenerate triangle would push a
point with NaN or infinite coordinates into an ordered map, marked `ub` here. -/
def importTri (tol : K) (d : DelInfo K) (i : Int) (t : Int × Int × Int) : Outcome (DelInfo K) := do
  let a := t.1
  let b := t.2.1
  let c := t.2.2
  let r1 := (d.realPoints.pushBack ltInt a).1
  let r2 := (r1.pushBack ltInt b).1
  let r3 := (r2.pushBack ltInt c).1
  let pa ← vecGet d.meshPoints a
  let pb ← vecGet d.meshPoints b
  let pc ← vecGet d.meshPoints c
  match circumcenter pa pb pc with
  | none => .ub
  | some cc => do
    let u := d.circumcenters.pushBack (fun x y => x.ltTol tol y) cc
    let m1 := edgeMapGet d.edgeMap (Key.mk' a b)
    let m2 := edgeMapGet m1.1 (Key.mk' b c)
    let m3 := edgeMapGet m2.1 (Key.mk' c a)
    let e1 ← vecModify d.edges m1.2 (fun e => e.setTriangle i)
    let e2 ← vecModify e1 m2.2 (fun e => e.setTriangle i)
    let e3 ← vecModify e2 m3.2 (fun e => e.setTriangle i)
    return { d with
      realPoints := r3,
      circumcenters := u.1,
      edgeMap := m3.1,
      edges := e3,
      triangles := d.triangles ++ [⟨[a, b, c], (u.2 : Int)⟩] }

/-- TriangleDelaunayGenerator.cpp:99-116. -/
def importTris (tol : K) (d : DelInfo K) (i : Int) :
    List (Int × Int × Int) → Outcome (DelInfo K)
  | [] => .ok d
  | t :: ts => do
    let d ← importTri tol d i t
    importTris tol d (i + 1) ts

/-- TriangleDelaunayGenerator.cpp:118-124. -/
def reportEdges (d : DelInfo K) : DelInfo K :=
  let m := d.edges.foldl (fun m e => m.assign (ISeg.mk' e.p1 e.p2) (NbSeg.two e.t1 e.t2))
    d.delaunayEdges
  { d with delaunayEdges := m }

/-- TriangleDelaunayGenerator.cpp:82-124: everything after the call of the library. -/
def importOut (tol : K) (d : DelInfo K) (out : TriOut K) : Outcome (DelInfo K) := do
  let d ← importEdges (d.importPoints out.points) 0 out.edges
  let d ← importTris tol d 0 out.tris
  return d.reportEdges

end DelInfo

/-! ### The generator object -/

/-- Switch strings: "pzejDQ" (conforming) or "pzejQ" (constrained). -/
inductive Switches where
  | conforming
  | constrained
  deriving DecidableEq, Repr

section
variable {K : Type} [Field K] [LinearOrder K]

/-- TriangleDelaunayGenerator.cpp:20-23: the point list handed to the library and the positions
of the region's points in it. -/
def trianglePoints (tol : K) (region : Region K) (seeds : List (Pt K)) :
    UList (Pt K) × List Nat :=
  let u := (UList.pushList (fun a b : Pt K => a.ltTol tol b) UList.empty seeds).1
  u.pushList (fun a b => a.ltTol tol b) region.getRegionPoints

/-- TriangleDelaunayGenerator.cpp:47-50. -/
def regionSegments (regionIndex : List Nat) : List ISeg → Outcome (List (Int × Int))
  | [] => .ok []
  | s :: ss => do
    let a ← vecGet regionIndex s.p1
    let b ← vecGet regionIndex s.p2
    let rest ← regionSegments regionIndex ss
    return ((a : Int), (b : Int)) :: rest

/-- TriangleDelaunayGenerator.cpp:20-68: the library's input. -/
def triangleInput (tol : K) (region : Region K) (seeds : List (Pt K))
    (restricted : List (Pt K × Pt K)) : Outcome (TriIn K) := do
  let u := trianglePoints tol region seeds
  let segs ← regionSegments u.2 region.getSegments
  let extra := restricted.map (fun s =>
    (UList.indexOf (fun a b : Pt K => a.eqTol tol b) u.1.list s.1,
     UList.indexOf (fun a b : Pt K => a.eqTol tol b) u.1.list s.2))
  return ⟨u.1.list, segs ++ extra, region.holes.map Hole.center⟩

/-- The external library: any function of switches and input. -/
abbrev Triangulator (K : Type) := Switches → TriIn K → TriOut K

/-- TriangleDelaunayGenerator.h:23-41.  `log` is a ghost field: the calls of the library so far. -/
structure DelGen (K : Type) where
  region : Region K
  seeds : List (Pt K)
  info : DelInfo K
  empty : Bool
  log : List (Switches × TriIn K)

namespace DelGen

/-- TriangleDelaunayGenerator.cpp:3-7 (the region is copied: seeds are dropped, Region.cpp:25-28;
the copy has no effect on points, holes and segments). -/
def new (points : List (Pt K)) (region : Region K) : DelGen K :=
  ⟨region, points, DelInfo.empty, false, []⟩

/-- TriangleDelaunayGenerator.cpp:14-142 `callTriangle`. -/
def callTriangle (tol : K) (lib : Triangulator K) (g : DelGen K) (sw : Switches)
    (restricted : List (Pt K × Pt K)) : Outcome (DelGen K) := do
  let inp ← triangleInput tol g.region g.seeds restricted
  let info ← g.info.importOut tol (lib sw inp)
  return { g with info := info, empty := true, log := g.log ++ [(sw, inp)] }

/-- TriangleDelaunayGenerator.cpp:145-148, 187-190, 196-199, 206-209: call the library unless the
flag `empty` (which means "not empty") is set. -/
def ensure (tol : K) (lib : Triangulator K) (g : DelGen K) (sw : Switches)
    (restricted : List (Pt K × Pt K)) : Outcome (DelGen K) :=
  if !g.empty then g.callTriangle tol lib sw restricted else .ok g

end DelGen

/-- models/Mesh.h: points, polygons, edge map and point map of a mesh. -/
structure Mesh (K T : Type) where
  points : UList (Pt K)
  polygons : List T
  edges : SegMap
  pointMap : PtMap K
  deriving DecidableEq

/-- delynoi_utilities.cpp:51-58 `checkTriangleIntegrity`. -/
def checkTriangleIntegrity (t : List Int) : Outcome Unit :=
  match t with
  | [a, b, c] => if a = b ∨ b = c ∨ c = a then .exn else .ok ()
  | _ => .exn

/-- A `Triangle` of a mesh: vertex list and circumcenter (`none` = NaN). -/
structure MTri (K : Type) where
  pts : List Int
  circ : Option (Pt K)
  deriving DecidableEq

/-- Triangle.cpp:6-8 constructor without circumcenter list. -/
def mkTriangle (idx : List Int) (p : List (Pt K)) : Outcome (MTri K) := do
  match idx with
  | a :: b :: c :: _ => do
    let pa ← vecGet p a
    let pb ← vecGet p b
    let pc ← vecGet p c
    return ⟨idx, circumcenter pa pb pc⟩
  | _ => .ub

/-- TriangleDelaunayGenerator.h:106-109: the inner loop: new indices, point map entries. -/
def meshVerts (tol : K) (meshPoints : List (Pt K)) (indexes : List Nat) (i : Int) :
    PtMap K → List Int → Outcome (PtMap K × List Int)
  | pm, [] => .ok (pm, [])
  | pm, o :: os => do
    let n ← vecGet indexes o
    let q ← vecGet meshPoints (n : Int)
    let r ← meshVerts tol meshPoints indexes i (pm.insert tol q i) os
    return (r.1, (n : Int) :: r.2)

/-- TriangleDelaunayGenerator.h:101-113: the loop over the triangles; `mk` is the constructor of
the polygon type `T`, called on `meshPoints`. -/
def meshTris {T : Type} (tol : K) (mk : List Int → List (Pt K) → Outcome T)
    (meshPoints : List (Pt K)) (indexes : List Nat) :
    Int → PtMap K → List Tri → Outcome (PtMap K × List T)
  | _, pm, [] => .ok (pm, [])
  | i, pm, t :: ts => do
    let v ← meshVerts tol meshPoints indexes i pm t.pts
    checkTriangleIntegrity v.2
    let g ← mk v.2 meshPoints
    let r ← meshTris tol mk meshPoints indexes (i + 1) v.1 ts
    return (r.1, g :: r.2)

/-- TriangleDelaunayGenerator.h:94-116 `initializeMesh<T>`. -/
def initializeMesh {T : Type} (tol : K) (mk : List Int → List (Pt K) → Outcome T)
    (d : DelInfo K) : Outcome (Mesh K T) := do
  let u := UList.pushList (fun a b : Pt K => a.ltTol tol b) UList.empty d.meshPoints
  let r ← meshTris tol mk d.meshPoints u.2 0 PtMap.empty d.triangles
  return ⟨u.1, r.2, d.delaunayEdges, r.1⟩

/-- Requests a user can make of a generator. -/
inductive Req (K : Type) where
  | conformingMesh
  | conformingInfo
  | constrained
  | constrainedWith (segs : List (Pt K × Pt K))

/-- What a request returns; `dangling` is the reference to a destroyed local of
TriangleDelaunayGenerator.cpp:150-151, `threw` an exception (which leaves the generator usable). -/
inductive Resp (K : Type) where
  | dangling
  | threw
  | info (d : DelInfo K)
  | mesh (m : Mesh K (MTri K))
  deriving DecidableEq

/-- Building the mesh for a response. -/
def DelGen.respond (tol : K) (g : DelGen K) (f : Mesh K (MTri K) → Resp K) : Outcome (Resp K) :=
  match initializeMesh tol mkTriangle g.info with
  | .ok m => .ok (f m)
  | .exn => .ok .threw
  | .ub => .ub

/-- TriangleDelaunayGenerator.cpp:144-152, 186-212.  `conformingMesh` is lines 144-152,
`conformingInfo` lines 186-193, `constrained` lines 195-202, `constrainedWith` lines 204-212. -/
def DelGen.request (tol : K) (lib : Triangulator K) (g : DelGen K) :
    Req K → Outcome (DelGen K × Resp K)
  | .conformingMesh => do
    let g ← g.ensure tol lib .conforming []
    let r ← g.respond tol (fun _ => .dangling)
    return (g, r)
  | .conformingInfo => do
    let g ← g.ensure tol lib .conforming []
    return (g, .info g.info)
  | .constrained => do
    let g ← g.ensure tol lib .constrained []
    let r ← g.respond tol .mesh
    return (g, r)
  | .constrainedWith segs => do
    let g ← g.ensure tol lib .constrained segs
    let r ← g.respond tol .mesh
    return (g, r)

/-- A sequence of requests. -/
def DelGen.requests (tol : K) (lib : Triangulator K) : DelGen K → List (Req K) →
    Outcome (DelGen K × List (Resp K))
  | g, [] => .ok (g, [])
  | g, q :: qs => do
    let r ← g.request tol lib q
    let rs ← r.1.requests tol lib qs
    return (rs.1, r.2 :: rs.2)

end

/-! ### Voronoi diagram (DelaunayToVoronoi.cpp) -/

section
variable {K : Type} [Field K] [LinearOrder K]

/-- Mutable state of the constructor: circumcenter list, edge index map (both members of `del`),
Voronoi edges, point map. -/
structure VState (K : Type) where
  circ : UList (Pt K)
  edgeMap : UMap Key Int
  vedges : SegMap
  pmap : PtMap K

/-- DelaunayToVoronoi.cpp:108-119 `getCircumcenter`. -/
def getCircumcenter (tol : K) (d : DelInfo K) (s : VState K) (triangle edge : Int) :
    Outcome (VState K × Int) :=
  if triangle ≠ -1 then do
    let t ← vecGet d.triangles triangle
    return (s, t.circ)
  else do
    let e ← vecGet d.edges edge
    let m ← (ISeg.mk' e.p1 e.p2).middlePoint d.meshPoints
    let u := s.circ.pushBack (fun x y => x.ltTol tol y) m
    return ({ s with circ := u.1 }, (u.2 : Int))

/-- DelaunayToVoronoi.cpp:20-33 and 43-57: record the crossing of an edge from the triangle `t2`
into `t1`.  (`thisEdges` is filled but never used and left out.) -/
def crossEdge (tol : K) (d : DelInfo K) (cell : Int) (t1 t2 edge : Int)
    (s : VState K) (cp : UList Int) : Outcome (VState K × UList Int) := do
  let r1 ← getCircumcenter tol d s t1 edge
  let r2 ← getCircumcenter tol d r1.1 t2 edge
  let index1 := r1.2
  let index2 := r2.2
  let s := r2.1
  let q1 ← vecGet s.circ.list index1
  if index1 ≠ index2 then do
    let q2 ← vecGet s.circ.list index2
    let s := { s with
      vedges := s.vedges.insert (ISeg.mk' index2 index1) cell
      pmap := (s.pmap.insert tol q2 cell).insert tol q1 cell }
    return (s, ((cp.pushBack ltInt index2).1.pushBack ltInt index1).1)
  else
    return ({ s with pmap := s.pmap.insert tol q1 cell }, (cp.pushBack ltInt index1).1)

/-- Triangle.cpp:42-46 `nextEdge` followed by the lookup `del.edges[...]`. -/
def nextEdgeOf (d : DelInfo K) (s : VState K) (t index : Int) (e : EdgeData) :
    Outcome (VState K × EdgeData) := do
  let tr ← vecGet d.triangles t
  let third ← thirdPoint tr.pts e
  let m := edgeMapGet s.edgeMap (Key.mk' index third)
  let e' ← vecGet d.edges m.2
  return ({ s with edgeMap := m.1 }, e')

/-- DelaunayToVoronoi.cpp:37-64: the `while` loop; running out of `fuel` is `ub`. -/
def walk (tol : K) (d : DelInfo K) (cell index : Int) (init : EdgeData) :
    Nat → EdgeData → Int → VState K → UList Int → Outcome (EdgeData × VState K × UList Int)
  | fuel, edge, t, s, cp =>
    if edge.eq init then .ok (edge, s, cp)
    else match fuel with
    | 0 => .ub
    | fuel + 1 => do
      let t' := if edge.t1 ≠ t then edge.t1 else edge.t2
      let m := edgeMapGet s.edgeMap (Key.mk' edge.p1 edge.p2)
      let r ← crossEdge tol d cell t' t m.2 { s with edgeMap := m.1 } cp
      if t' ≠ -1 then do
        let n ← nextEdgeOf d r.1 t' index edge
        walk tol d cell index init fuel n.2 t' n.1 r.2
      else return (edge, r.1, r.2)

/-- DelaunayToVoronoi.cpp:66-91: closing a boundary cell. -/
def closeCell (tol : K) (cell : Int) (center : Pt K) (edge : EdgeData) (s : VState K)
    (cp : UList Int) : Outcome (VState K × UList Int) :=
  if edge.t2 = -1 then do
    let first ← vecGet cp.list 0
    let last ← vecGet cp.list ((cp.list.length : Int) - 1)
    let qf ← vecGet s.circ.list first
    let ql ← vecGet s.circ.list last
    if collinear tol qf center ql then
      return ({ s with vedges := s.vedges.insert (ISeg.mk' last first) cell }, cp)
    else do
      let u := s.circ.pushBack (fun x y => x.ltTol tol y) center
      let ri : Int := (u.2 : Int)
      let q ← vecGet u.1.list ri
      return ({ s with
        circ := u.1
        pmap := s.pmap.insert tol q cell
        vedges := (s.vedges.insert (ISeg.mk' last ri) cell).insert (ISeg.mk' ri first) cell },
        (cp.pushBack ltInt ri).1)
  else .ok (s, cp)

/-- DelaunayToVoronoi.cpp:9-99: the cell of one point.  The fuel of the walk is the number of
triangle sides; property C69 shows that it suffices. -/
def voronoiCell (tol : K) (d : DelInfo K) (cell index : Int) (s : VState K) :
    Outcome (VState K × Poly K) := do
  let center ← vecGet d.meshPoints index
  let pd ← vecGet d.points index
  let init ← vecGet d.edges pd.edge
  let r ← crossEdge tol d cell init.t1 init.t2 pd.edge s UList.empty
  let n ← nextEdgeOf d r.1 init.t1 index init
  let w ← walk tol d cell index init (3 * d.triangles.length) n.2 init.t1 n.1 r.2
  let c ← closeCell tol cell center w.1 w.2.1 w.2.2
  let p ← Poly.ofIndices tol c.2.list c.1.circ.list
  let p ← p.fixCCW c.1.circ.list
  return (c.1, p)

/-- DelaunayToVoronoi.cpp:8-100: the loop over the real points. -/
def voronoiCells (tol : K) (d : DelInfo K) : List Int → VState K → List (Poly K) →
    Outcome (VState K × List (Poly K))
  | [], s, cells => .ok (s, cells)
  | index :: rest, s, cells => do
    let r ← voronoiCell tol d (cells.length : Int) index s
    voronoiCells tol d rest r.1 (cells ++ [r.2])

/-- DelaunayToVoronoi.cpp:3-105. -/
def voronoi (tol : K) (d : DelInfo K) : Outcome (Mesh K (Poly K)) := do
  let r ← voronoiCells tol d d.realPoints.list
    ⟨d.circumcenters, d.edgeMap, SegMap.empty, PtMap.empty⟩ []
  return ⟨r.1.circ, r.2, r.1.vedges, r.1.pmap⟩

end
end Delynoi
