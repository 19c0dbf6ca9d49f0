import Verif.Model.TriSwitch
import Verif.Model.Arrays
/-!
# What Triangle hands back

The end of `triangulate` (`delynoi/include/delynoi/voronoi/lib/triangle.c:15843-15955`): the
counters, `writenodes` (14316-14446), `writeelements` (14488-14621) and `writeedges`
(14775-14912), compiled with `TRILIBRARY`, on an arbitrary mesh.

A vertex is known by its position in the traversal of the vertices (dead ones are skipped by
`vertextraverse`), a triangle by its position in the traversal of the triangles.  Blocks of a pool
have arbitrary addresses, so every triangle also has an address, by which `writeedges` compares
triangles.  Attributes of points and triangles, and `writepoly` (segments are not read by the
caller), are left out.  Elements have three corners (`order` is 1).  A pointer that stays NULL is
an empty array.
-/
namespace Delynoi.Tri

/-- A vertex: coordinates, `vertexmark`, and whether `vertextype` is `UNDEADVERTEX`. -/
structure Vtx (K : Type) where
  pt : Pt K
  mark : Int
  undead : Bool

/-- triangle.c:493-501 `triangle`: the neighbour across each edge (`none` for `dummytri`), the
corners, and the marker of the subsegment at each edge (`none` for `dummysub`). -/
structure TriRec where
  addr : Nat
  nbr : Fin 3 → Option (Nat × Fin 3)
  corner : Fin 3 → Nat
  sub : Fin 3 → Option Int

/-- triangle.c:1060-1061 `org`, with 925 `plus1mod3`. -/
def TriRec.org (t : TriRec) (o : Fin 3) : Nat := t.corner (o + 1)
/-- triangle.c:1063-1064 `dest`, with 926 `minus1mod3`. -/
def TriRec.dest (t : TriRec) (o : Fin 3) : Nat := t.corner (o + 2)
/-- triangle.c:1066-1067 `apex`. -/
def TriRec.apex (t : TriRec) (o : Fin 3) : Nat := t.corner o

/-- The part of `struct mesh` that is read at the end. -/
structure OutMesh (K : Type) where
  verts : List (Vtx K)
  tris : List TriRec
  undeads : Nat
  hullsize : Nat

variable {K : Type}

/-- `a[i] = v` with a signed subscript. -/
def writeAt {α : Type} (a : Arr α) (i : Int) (v : α) : Outcome (Arr α) :=
  if 0 ≤ i then a.write i.toNat v else .ub

/-- triangle.c:15853-15857 and 14360-14364: the number of vertices written. -/
def outvertices (b : Behavior) (m : OutMesh K) : Nat :=
  if b.jettison then m.verts.length - m.undeads else m.verts.length

/-- triangle.c:14403-14440, the loop of `writenodes`; gives the coordinates, the markers and the
vertices with their new markers. -/
def nodesLoop (b : Behavior) : List (Vtx K) → Nat → Int → Arr K → Arr Int →
    Outcome (Arr K × Arr Int × List (Vtx K))
  | [], _, _, p, pm => .ok (p, pm, [])
  | v :: vs, coordindex, vertexnumber, p, pm =>
    if !b.jettison || !v.undead then do
      let p ← p.write coordindex v.pt.x
      let p ← p.write (coordindex + 1) v.pt.y
      let pm ← (if !b.nobound then writeAt pm (vertexnumber - b.firstnumber) v.mark else .ok pm)
      let r ← nodesLoop b vs (coordindex + 2) (vertexnumber + 1) p pm
      return (r.1, r.2.1, { v with mark := vertexnumber } :: r.2.2)
    else do
      let r ← nodesLoop b vs coordindex vertexnumber p pm
      return (r.1, r.2.1, v :: r.2.2)

/-- triangle.c:14316-14446 `writenodes`. -/
def writenodes (b : Behavior) (m : OutMesh K) : Outcome (Arr K × Arr Int × List (Vtx K)) :=
  nodesLoop b m.verts 0 b.firstnumber (Arr.alloc (outvertices b m * 2))
    (if !b.nobound then Arr.alloc (outvertices b m) else [])

/-- `vertexmark` of a corner. -/
def vertexmark (vs : List (Vtx K)) (i : Nat) : Outcome Int :=
  match vs[i]? with
  | some v => .ok v.mark
  | none => .ub

/-- triangle.c:14564-14615, the loop of `writeelements` for `order` 1. -/
def elementsLoop (vs : List (Vtx K)) : List TriRec → Nat → Arr Int → Outcome (Arr Int)
  | [], _, a => .ok a
  | t :: ts, vertexindex, a => do
    let p1 ← vertexmark vs (t.org 0)
    let a ← a.write vertexindex p1
    let p2 ← vertexmark vs (t.dest 0)
    let a ← a.write (vertexindex + 1) p2
    let p3 ← vertexmark vs (t.apex 0)
    let a ← a.write (vertexindex + 2) p3
    elementsLoop vs ts (vertexindex + 3) a

/-- triangle.c:14488-14621 `writeelements` for `order` 1. -/
def writeelements (vs : List (Vtx K)) (m : OutMesh K) : Outcome (Arr Int) :=
  elementsLoop vs m.tris 0 (Arr.alloc (m.tris.length * 3))

/-- triangle.c:14859: the edge is written from this side. -/
def ownsEdge (ts : List TriRec) (t : TriRec) (o : Fin 3) : Outcome Bool :=
  match t.nbr o with
  | none => .ok true
  | some u =>
    match ts[u.1]? with
    | some s => .ok (decide (t.addr < s.addr))
    | none => .ub

/-- triangle.c:14871-14899: the marker of an edge. -/
def edgeMark (b : Behavior) (t : TriRec) (o : Fin 3) : Int :=
  if b.usesegments then
    match t.sub o with
    | none => 0
    | some k => k
  else if t.nbr o = none then 1 else 0

/-- triangle.c:14846-14905, the two loops of `writeedges` over the triangles and their edges. -/
def edgesLoop (b : Behavior) (vs : List (Vtx K)) (ts : List TriRec) : List (TriRec × Fin 3) → Nat → Int →
    Arr Int → Arr Int → Outcome (Arr Int × Arr Int)
  | [], _, _, e, em => .ok (e, em)
  | (t, o) :: hs, index, edgenumber, e, em => do
    let w ← ownsEdge ts t o
    if w then do
      let p1 ← vertexmark vs (t.org o)
      let e ← e.write index p1
      let p2 ← vertexmark vs (t.dest o)
      let e ← e.write (index + 1) p2
      let em ← (if b.nobound then .ok em else writeAt em (edgenumber - b.firstnumber) (edgeMark b t o))
      edgesLoop b vs ts hs (index + 2) (edgenumber + 1) e em
    else edgesLoop b vs ts hs index edgenumber e em

/-- triangle.c:15843 the number of edges. -/
def edgeCount (m : OutMesh K) : Nat := (3 * m.tris.length + m.hullsize) / 2

/-- The edges of the triangles in the order of the loops. -/
def halfEdges (ts : List TriRec) : List (TriRec × Fin 3) := ts.flatMap (fun t => [(t, 0), (t, 1), (t, 2)])

/-- triangle.c:14775-14912 `writeedges`. -/
def writeedges (b : Behavior) (vs : List (Vtx K)) (m : OutMesh K) : Outcome (Arr Int × Arr Int) :=
  edgesLoop b vs m.tris (halfEdges m.tris) 0 b.firstnumber (Arr.alloc (edgeCount m * 2))
    (if !b.nobound then Arr.alloc (edgeCount m) else [])

/-- triangle.c:15843-15955: what is in `out` after the call, and `pointmarkerlist`.  Vertices are
numbered by `writenodes`; the switch `N` (vertices not written) is not modelled. -/
def writeOut (b : Behavior) (m : OutMesh K) : Outcome (RawOut K × Arr Int) := do
  let n ← writenodes b m
  let t ← (if b.noelewritten then .ok [] else writeelements n.2.2 m)
  let e ← (if b.edgesout then writeedges b n.2.2 m else .ok ([], []))
  return (⟨outvertices b m, n.1, edgeCount m, e.1, e.2, m.tris.length, t⟩, n.2.1)

end Delynoi.Tri
