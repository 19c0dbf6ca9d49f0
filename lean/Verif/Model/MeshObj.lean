import Verif.Model.Text
/-!
# Mesh objects and the maps they point to (Mesh.h)

`Mesh` holds its points and polygons by value and its two neighbourhood maps by pointer.  The other
files treat a mesh as a value, which is right as long as the maps are not shared; this file models
the sharing.
-/
namespace Delynoi

/-- The `SegmentMap` and `PointMap` objects allocated so far (they are never deleted); a pointer is a
position. -/
structure Heap where
  segs : List SegMap
  pms : List (PtMap ℚ)

/-- Mesh.h:19-33, the fields of a `Mesh<Polygon>`. -/
structure MeshObj where
  points : UList (Pt ℚ)
  polygons : List (Poly ℚ)
  edges : Nat
  pointMap : Nat
  deriving DecidableEq

/-- What is seen through an object; a wild pointer is undefined. -/
def MeshObj.view (h : Heap) (o : MeshObj) : Outcome (Mesh ℚ (Poly ℚ)) :=
  match h.segs[o.edges]?, h.pms[o.pointMap]? with
  | some e, some p => .ok ⟨o.points, o.polygons, e, p⟩
  | _, _ => .ub

/-- A program with mesh variables. -/
structure MeshProg where
  heap : Heap
  vars : List MeshObj

/-- Statements: declare a mesh, declare a copy of one, read a file into one. -/
inductive MeshStmt where
  | new
  | copy (i : Nat)
  | read (i : Nat) (text : List Char) (start : Int)

/-- One statement.  `new` is Mesh.h:128-131, `copy` is the copy constructor Mesh.h:149-154 (the
implicit copy assignment does the same), `read` is `createFromFile` (Mesh.h:157-201), which changes
the points and polygons of the object and the segment map it points to. -/
def MeshProg.step (tol : ℚ) (p : MeshProg) : MeshStmt → Outcome MeshProg
  | .new => .ok ⟨⟨p.heap.segs ++ [SegMap.empty], p.heap.pms ++ [PtMap.empty]⟩,
      p.vars ++ [⟨UList.empty, [], p.heap.segs.length, p.heap.pms.length⟩]⟩
  | .copy i =>
    match p.vars[i]? with
    | some o => .ok ⟨p.heap, p.vars ++ [⟨o.points, o.polygons, o.edges, o.pointMap⟩]⟩
    | none => .ub
  | .read i text start =>
    match p.vars[i]? with
    | some o => do
      let m ← o.view p.heap
      let m' ← createFromFile tol (some text) start m
      return ⟨⟨p.heap.segs.set o.edges m'.edges, p.heap.pms.set o.pointMap m'.pointMap⟩,
        p.vars.set i { o with points := m'.points, polygons := m'.polygons }⟩
    | none => .ub

/-- A sequence of statements. -/
def MeshProg.run (tol : ℚ) : MeshProg → List MeshStmt → Outcome MeshProg
  | p, [] => .ok p
  | p, s :: ss => do
    let p ← p.step tol s
    p.run tol ss

/-- The program before its first statement. -/
def MeshProg.start : MeshProg := ⟨⟨[], []⟩, []⟩

end Delynoi
