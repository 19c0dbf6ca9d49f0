import Verif.Model.Arrays
import Verif.Model.TriPool
/-!
# What Triangle reads

`delynoi/include/delynoi/voronoi/lib/triangle.c:14080-14151` (`transfernodes`) with 4290-4292, and
12404-12552 (`formskeleton`), compiled with `TRILIBRARY`, without the prints.  Reading outside of an
array, or an element that has not been set, is `ub`.  A pointer that may be NULL is an `Option`.
-/
namespace Delynoi.Tri

/-- An input vertex: coordinates, attributes, `vertexmark`. -/
structure Node (K : Type) where
  pt : Pt K
  attrs : List K
  mark : Int

variable {K : Type} [LinearOrder K]

/-- triangle.c:14128-14134 and 12480, 12486-12488: a marker, zero if there are none. -/
def markAt : Option (Arr Int) → Nat → Outcome Int
  | none, _ => .ok 0
  | some l, i => Arr.read l i

/-- triangle.c:14125-14127: `n` attributes from index `i` on. -/
def readAttrs (a : Arr K) : Nat → Nat → Outcome (List K)
  | _, 0 => .ok []
  | i, n + 1 => do
    let x ← Arr.read a i
    let r ← readAttrs a (i + 1) n
    .ok (x :: r)

/-- triangle.c:14137-14145: `xmin`, `ymin` and `xmax`, `ymax` (not set before the first vertex). -/
def growBox (i : Nat) (x y : K) (box : Option (Pt K × Pt K)) : Outcome (Option (Pt K × Pt K)) :=
  if i = 0 then .ok (some (⟨x, y⟩, ⟨x, y⟩))
  else
    match box with
    | none => .ub
    | some (lo, hi) =>
      .ok (some (⟨if x < lo.x then x else lo.x, if y < lo.y then y else lo.y⟩,
        ⟨if hi.x < x then x else hi.x, if hi.y < y then y else hi.y⟩))

/-- The pool of vertices, what is in it, and the bounding box. -/
structure Nodes (K : Type) where
  pool : Pool
  node : Item → Option (Node K)
  box : Option (Pt K × Pt K)

/-- triangle.c:14119-14146: `n` vertices from number `i` on (`coordindex` is `2 * i`, `attribindex` is
`numberofpointattribs * i`). -/
def transferLoop (pointlist pointattriblist : Arr K) (pointmarkerlist : Option (Arr Int)) (numberofpointattribs : Nat) :
    Nat → Nat → Nodes K → Outcome (Nodes K)
  | _, 0, s => .ok s
  | i, n + 1, s => do
    let r := s.pool.alloc
    let x ← Arr.read pointlist (2 * i)
    let y ← Arr.read pointlist (2 * i + 1)
    let attrs ← readAttrs pointattriblist (numberofpointattribs * i) numberofpointattribs
    let mark ← markAt pointmarkerlist i
    let box ← growBox i x y s.box
    transferLoop pointlist pointattriblist pointmarkerlist numberofpointattribs (i + 1) n
      ⟨r.2, Function.update s.node r.1 (some ⟨⟨x, y⟩, attrs, mark⟩), box⟩

/-- triangle.c:14080-14151 `transfernodes` with the vertex pool of 4290-4292 (`VERTEXPERBLOCK` is 4092); with fewer than three vertices
the program ends (`exn`).  `xminextreme` is left out (only used by another algorithm). -/
def transfernodes (pointlist pointattriblist : Arr K) (pointmarkerlist : Option (Arr Int)) (numberofpoints numberofpointattribs : Nat) :
    Outcome (Nodes K) :=
  if numberofpoints < 3 then .exn
  else
    transferLoop pointlist pointattriblist pointmarkerlist numberofpointattribs 0 numberofpoints
      ⟨poolinit 4092 (if 4092 < numberofpoints then numberofpoints else 4092), fun _ => none, none⟩

/-- Reads the coordinates of a vertex. -/
def Nodes.pt (s : Nodes K) (x : Item) : Outcome (Pt K) :=
  match s.node x with
  | some v => .ok v.pt
  | none => .ub

/-- triangle.c:12482-12541: the loop over the segments; `n` segments from number `i` on.  `insertsegment` acts on a
state `σ`; `fuel` bounds the search in `getvertex`.  (Vertices added to the pool while segments are inserted come after the
input vertices and do not matter here.) -/
def skeletonLoop {σ : Type} (insertsegment : σ → Item → Item → Int → Outcome σ) (v : Nodes K) (segmentlist : Arr Int) (segmentmarkerlist : Option (Arr Int))
    (firstnumber : Int) (invertices fuel : Nat) : Nat → Nat → σ → Outcome σ
  | _, 0, s => .ok s
  | i, n + 1, s => do
    let end1 ← Arr.read segmentlist (2 * i)
    let end2 ← Arr.read segmentlist (2 * i + 1)
    let boundmarker ← markAt segmentmarkerlist i
    let next := skeletonLoop insertsegment v segmentlist segmentmarkerlist firstnumber invertices fuel (i + 1) n
    if end1 < firstnumber ∨ firstnumber + invertices ≤ end1 then next s
    else if end2 < firstnumber ∨ firstnumber + invertices ≤ end2 then next s
    else do
      let endpoint1 ← v.pool.getvertex firstnumber end1 fuel
      let endpoint2 ← v.pool.getvertex firstnumber end2 fuel
      let p ← v.pt endpoint1
      let q ← v.pt endpoint2
      if p.x = q.x ∧ p.y = q.y then next s
      else do
        let s ← insertsegment s endpoint1 endpoint2 boundmarker
        next s

/-- triangle.c:12404-12552 `formskeleton`; `triangles` is the number of triangles. -/
def formskeleton {σ : Type} (makevertexmap markhull : σ → Outcome σ) (insertsegment : σ → Item → Item → Int → Outcome σ) (v : Nodes K)
    (poly convex : Bool) (segmentlist : Arr Int) (segmentmarkerlist : Option (Arr Int)) (numberofsegments : Nat)
    (firstnumber : Int) (invertices triangles fuel : Nat) (s : σ) : Outcome σ :=
  let last := fun s => if convex = true ∨ poly = false then markhull s else .ok s
  if poly = true then
    if triangles = 0 then .ok s
    else do
      let s ← (if 0 < numberofsegments then makevertexmap s else .ok s)
      let s ← skeletonLoop insertsegment v segmentlist segmentmarkerlist firstnumber invertices fuel 0 numberofsegments s
      last s
  else last s

end Delynoi.Tri
