import Verif.Model.Outcome
import Verif.Model.TriMesh
import Verif.Model.Point
import Mathlib.Algebra.Order.Field.Basic
/-!
# Triangle removes holes and concavities

`delynoi/include/delynoi/voronoi/lib/triangle.c:12571-12633` (`infecthull`) and `12653-12845`
(`plague`) without the prints.

Blocks given back are listed in `freed` and `dead`; using or freeing one of them again is `ub`, and
so is a loop that does not end (it runs out of `fuel`).
-/
namespace Delynoi.Tri

/-- The mesh and what these functions use besides it: the infection of triangles (bit 1 of `tri[6]`,
triangle.c:1107-1118), the marks of subsegments and vertices, blocks given back, the vertices made
`UNDEADVERTEX` in order, and `m->hullsize`. -/
structure Carve where
  mesh : Heap
  sick : Nat → Bool
  smark : Nat → Int
  vmark : Nat → Int
  freed : List Nat
  dead : List Nat
  undead : List Nat
  hullsize : Int

/-- triangle.c:990-992 `onext`. -/
def Heap.onext (m : Heap) (x : Otri) : Otri := m.sym (lprev x)
/-- triangle.c:1005-1007 `oprev`. -/
def Heap.oprev (m : Heap) (x : Otri) : Otri := lnext (m.sym x)

namespace Carve

/-- triangle.c:1107-1109 `infect`. -/
def infect (s : Carve) (x : Otri) : Carve := { s with sick := Function.update s.sick x.1 true }
/-- triangle.c:1111-1113 `uninfect`. -/
def uninfect (s : Carve) (x : Otri) : Carve := { s with sick := Function.update s.sick x.1 false }
/-- triangle.c:1294-1295 `tsdissolve`: for orientation 0 this overwrites the infection, too. -/
def tsdissolve (s : Carve) (x : Otri) : Carve :=
  { s with
    mesh := s.mesh.tsdissolve x
    sick := if x.2 = 0 then Function.update s.sick x.1 false else s.sick }
/-- triangle.c:1299-1300 `stdissolve`. -/
def stdissolve (s : Carve) (ss : Osub) : Carve :=
  { s with mesh := { s.mesh with stri := Function.update s.mesh.stri ss dummytri } }
/-- triangle.c:1089-1090 `dissolve`. -/
def dissolve (s : Carve) (x : Otri) : Carve :=
  { s with mesh := { s.mesh with nbr := Function.update s.mesh.nbr x dummytri } }
/-- triangle.c:4425-4439 `subsegdealloc`. -/
def subsegdealloc (s : Carve) (ss : Nat) : Outcome Carve :=
  if ss ∈ s.freed then .ub else .ok { s with freed := s.freed ++ [ss] }
/-- triangle.c:4372-4386 `triangledealloc`. -/
def triangledealloc (s : Carve) (t : Nat) : Outcome Carve :=
  if t ∈ s.dead then .ub else .ok { s with dead := s.dead ++ [t] }
/-- triangle.c:12740-12742: `if (mark(ss) == 0) setmark(ss, 1)`. -/
def touchSeg (s : Carve) (ss : Nat) : Carve :=
  if s.smark ss = 0 then { s with smark := Function.update s.smark ss 1 } else s
/-- triangle.c:12745-12747: `if (vertexmark(v) == 0) setvertexmark(v, 1)`; `v` must not be NULL. -/
def touchVertex (s : Carve) (v : Option Nat) : Outcome Carve :=
  match v with
  | some v => if s.vmark v = 0 then .ok { s with vmark := Function.update s.vmark v 1 } else .ok s
  | none => .ub

/-- triangle.c:12700-12752: one round of the loop over the three neighbours. -/
def spreadEdge (x : Otri) (s : Carve) (pool : List Nat) : Outcome (Carve × List Nat) :=
  let neighbor := s.mesh.sym x
  let neighborsubseg := s.mesh.tspivot x
  if neighbor.1 = 0 ∨ s.sick neighbor.1 then
    if neighborsubseg.1 ≠ 0 then do
      let s ← s.subsegdealloc neighborsubseg.1
      if neighbor.1 ≠ 0 then .ok (((s.uninfect neighbor).tsdissolve neighbor).infect neighbor, pool)
      else .ok (s, pool)
    else .ok (s, pool)
  else if neighborsubseg.1 = 0 then .ok (s.infect neighbor, pool ++ [neighbor.1])
  else if neighborsubseg.1 ∈ s.freed then .ub
  else do
    let s := (s.stdissolve neighborsubseg).touchSeg neighborsubseg.1
    let s ← s.touchVertex (s.mesh.org neighbor)
    let s ← s.touchVertex (s.mesh.dest neighbor)
    .ok (s, pool)

/-- triangle.c:12681-12756: one infected triangle; `pool` are the triangles after it. -/
def spreadTri (t : Nat) (s : Carve) (pool : List Nat) : Outcome (Carve × List Nat) := do
  let s := s.uninfect (t, 0)
  let r ← spreadEdge (t, 0) s pool
  let r ← spreadEdge (t, 1) r.1 r.2
  let r ← spreadEdge (t, 2) r.1 r.2
  .ok (r.1.infect (t, 0), r.2)

/-- triangle.c:12678-12758: the first phase of `plague`; `seen` are the triangles of the pool already
visited, `pool` the others. -/
def spread : Nat → Carve → List Nat → List Nat → Outcome (Carve × List Nat)
  | _, s, seen, [] => .ok (s, seen)
  | 0, _, _, _ :: _ => .ub
  | fuel + 1, s, seen, t :: pool => do
    let r ← spreadTri t s pool
    spread fuel r.1 (seen ++ [t]) r.2

/-- triangle.c:12784-12790 and 12800-12806: one triangle around the vertex. -/
def visit (x : Otri) (s : Carve) (killorg : Bool) : Outcome (Carve × Bool) :=
  if x.1 ∈ s.dead then .ub
  else if s.sick x.1 then .ok ({ s with mesh := s.mesh.setorg x none }, killorg)
  else .ok (s, false)

/-- triangle.c:12782-12793: counter-clockwise about the vertex, back to `start` or to the boundary;
the third component is where the walk ended. -/
def walkCcw (start : Otri) : Nat → Otri → Carve → Bool → Outcome (Carve × Bool × Otri)
  | fuel, x, s, killorg =>
    if x.1 = 0 ∨ x = start then .ok (s, killorg, x)
    else match fuel with
    | 0 => .ub
    | fuel + 1 => do
      let r ← visit x s killorg
      walkCcw start fuel (r.1.mesh.onext x) r.1 r.2

/-- triangle.c:12799-12809: clockwise about the vertex to the boundary. -/
def walkCw : Nat → Otri → Carve → Bool → Outcome (Carve × Bool)
  | fuel, x, s, killorg =>
    if x.1 = 0 then .ok (s, killorg)
    else match fuel with
    | 0 => .ub
    | fuel + 1 => do
      let r ← visit x s killorg
      walkCw fuel (r.1.mesh.oprev x) r.1 r.2

/-- triangle.c:12773-12819: one corner of a dying triangle. -/
def killCorner (fuel : Nat) (x : Otri) (s : Carve) : Outcome Carve :=
  match s.mesh.org x with
  | none => .ok s
  | some testvertex => do
    let s := { s with mesh := s.mesh.setorg x none }
    let r ← walkCcw x fuel (s.mesh.onext x) s true
    let r ← (if r.2.2.1 = 0 then walkCw fuel (r.1.mesh.oprev x) r.1 r.2.1 else .ok (r.1, r.2.1))
    if r.2 then .ok { r.1 with undead := r.1.undead ++ [testvertex] } else .ok r.1

/-- triangle.c:12825-12837: one edge of a dying triangle. -/
def killEdge (x : Otri) (s : Carve) : Carve :=
  let neighbor := s.mesh.sym x
  if neighbor.1 = 0 then { s with hullsize := s.hullsize - 1 }
  else { s.dissolve neighbor with hullsize := s.hullsize + 1 }

/-- triangle.c:12767-12840: one dying triangle. -/
def killTri (fuel : Nat) (t : Nat) (s : Carve) : Outcome Carve := do
  let s ← killCorner fuel (t, 0) s
  let s ← killCorner fuel (t, 1) s
  let s ← killCorner fuel (t, 2) s
  let s := killEdge (t, 2) (killEdge (t, 1) (killEdge (t, 0) s))
  s.triangledealloc t

/-- triangle.c:12764-12842: the second phase of `plague`. -/
def killAll (fuel : Nat) : List Nat → Carve → Outcome Carve
  | [], s => .ok s
  | t :: pool, s => do
    let s ← killTri fuel t s
    killAll fuel pool s

/-- triangle.c:12653-12845 `plague`; `pool` is `m->viri`. -/
def plague (fuel : Nat) (s : Carve) (pool : List Nat) : Outcome Carve := do
  let r ← spread fuel s [] pool
  killAll fuel r.2 r.1

/-- triangle.c:12600-12624: one edge of the hull. -/
def infectEdge (x : Otri) (s : Carve) (pool : List Nat) : Outcome (Carve × List Nat) :=
  if s.sick x.1 then .ok (s, pool)
  else
    let hullsubseg := s.mesh.tspivot x
    if hullsubseg.1 = 0 then .ok (s.infect x, pool ++ [x.1])
    else if s.smark hullsubseg.1 = 0 then do
      let s := s.touchSeg hullsubseg.1
      let s ← s.touchVertex (s.mesh.org x)
      let s ← s.touchVertex (s.mesh.dest x)
      .ok (s, pool)
    else .ok (s, pool)

/-- triangle.c:12627-12631: clockwise about a vertex to the last triangle. -/
def turnHull (m : Heap) : Nat → Otri → Outcome Otri
  | fuel, x =>
    if (m.oprev x).1 = 0 then .ok x
    else match fuel with
    | 0 => .ub
    | fuel + 1 => turnHull m fuel (m.oprev x)

/-- triangle.c:12598-12632: the loop around the hull; `turns` bounds the inner loop. -/
def hullLoop (start : Otri) (turns : Nat) : Nat → Otri → Carve → List Nat → Outcome (Carve × List Nat)
  | 0, _, _, _ => .ub
  | fuel + 1, x, s, pool => do
    let r ← infectEdge x s pool
    let y ← turnHull r.1.mesh turns (lnext x)
    if y = start then .ok r else hullLoop start turns fuel y r.1 r.2

/-- triangle.c:12571-12633 `infecthull`; the second component is `m->viri`. -/
def infecthull (fuel : Nat) (s : Carve) : Outcome (Carve × List Nat) :=
  let start := s.mesh.sym (0, 0)
  hullLoop start fuel fuel start s []

/-- triangle.c:5233-5280 `counterclockwise` in exact arithmetic (Model/Exact has the rounded one). -/
def ccwDet {K : Type} [Field K] (a b c : Pt K) : K := (a.x - c.x) * (b.y - c.y) - (a.y - c.y) * (b.x - c.x)

/-- triangle.c:13026-13053: the holes.  `locate` is a parameter: it gets the mesh, the point and the
edge to start from, and returns the triangle with the point, or nothing for `OUTSIDE`.  `lo` and `hi`
are the corners of the bounding box of the vertices; `pos` are the coordinates of the vertices. -/
def infectHoles {K : Type} [Field K] [LinearOrder K] (locate : Heap → Pt K → Otri → Outcome (Option Otri))
    (pos : Nat → Pt K) (lo hi : Pt K) : List (Pt K) → Carve → List Nat → Outcome (Carve × List Nat)
  | [], s, pool => .ok (s, pool)
  | p :: holes, s, pool =>
    if lo.x ≤ p.x ∧ p.x ≤ hi.x ∧ lo.y ≤ p.y ∧ p.y ≤ hi.y then
      let searchtri := s.mesh.sym (0, 0)
      match s.mesh.org searchtri, s.mesh.dest searchtri with
      | some o, some d =>
        if 0 < ccwDet (pos o) (pos d) p then do
          match ← locate s.mesh p searchtri with
          | some x =>
            if s.sick x.1 then infectHoles locate pos lo hi holes s pool
            else infectHoles locate pos lo hi holes (s.infect x) (pool ++ [x.1])
          | none => infectHoles locate pos lo hi holes s pool
        else infectHoles locate pos lo hi holes s pool
      | _, _ => .ub
    else infectHoles locate pos lo hi holes s pool

/-- triangle.c:12976-13132 `carveholes` without regions; `convex` and `noholes` are the switches -c
and -O. -/
def carveholes {K : Type} [Field K] [LinearOrder K] (locate : Heap → Pt K → Otri → Outcome (Option Otri))
    (pos : Nat → Pt K) (lo hi : Pt K) (convex noholes : Bool) (holes : List (Pt K)) (fuel : Nat) (s : Carve) : Outcome Carve := do
  let r ← (if convex then .ok (s, []) else infecthull fuel s)
  let r ← (if noholes then .ok r else infectHoles locate pos lo hi holes r.1 r.2)
  if r.2 = [] then .ok r.1 else plague fuel r.1 r.2

end Carve
end Delynoi.Tri
