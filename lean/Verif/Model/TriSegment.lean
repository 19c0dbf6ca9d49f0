import Verif.Model.TriLocate
/-!
# Triangle inserts segments

`delynoi/include/delynoi/voronoi/lib/triangle.c:7393-7418` (`makevertexmap`), `7803-7856`
(`insertsubseg`), `11588-11663` (`finddirection`), `11810-11869` (`scoutsegment`), the beginning of
`insertsegment` (`12268-12275`) and `markhull` (`12358-12389`), without the prints; orientations are
computed exactly (`Carve.ccwDet`).

`internalerror` is `exn`; reading the coordinates of a corner that is NULL is `ub`, and so is a loop
or recursion that does not end (it runs out of `fuel`).
-/
namespace Delynoi.Tri

/-- The mesh and what these functions use besides it: the endpoints of subsegments
(`ss[2 + ssorient]`) and of the segments they belong to (`ss[4 + ssorient]`), the marks of subsegments
and vertices, and the number of subsegments made so far.  `poolalloc` returns a block that is not in
use; here blocks are numbered in the order in which they are made (none is given back before the
holes are carved).  `slink` has the links between subsegments of one segment (`ss[0]`, `ss[1]`). -/
structure Segs where
  mesh : Heap
  send : Osub → Option Nat
  segend : Osub → Option Nat
  smark : Nat → Int
  vmark : Nat → Int
  count : Nat
  slink : Osub → Osub := fun _ => dummysub

/-- triangle.c:1169-1171 `ssym`. -/
def ssym (s : Osub) : Osub := (s.1, !s.2)

namespace Segs

/-- triangle.c:1201-1202 `sorg`. -/
def sorg (s : Segs) (ss : Osub) : Option Nat := s.send ss
/-- triangle.c:1204-1205 `sdest`. -/
def sdest (s : Segs) (ss : Osub) : Option Nat := s.send (ssym ss)
/-- triangle.c:1213-1214 `segorg`. -/
def segorg (s : Segs) (ss : Osub) : Option Nat := s.segend ss
/-- triangle.c:1216-1217 `segdest`. -/
def segdest (s : Segs) (ss : Osub) : Option Nat := s.segend (ssym ss)
/-- triangle.c:1207-1208 `setsorg`. -/
def setsorg (s : Segs) (ss : Osub) (v : Option Nat) : Segs := { s with send := Function.update s.send ss v }
/-- triangle.c:1210-1211 `setsdest`. -/
def setsdest (s : Segs) (ss : Osub) (v : Option Nat) : Segs := { s with send := Function.update s.send (ssym ss) v }
/-- triangle.c:1219-1220 `setsegorg`. -/
def setsegorg (s : Segs) (ss : Osub) (v : Option Nat) : Segs := { s with segend := Function.update s.segend ss v }
/-- triangle.c:1222-1223 `setsegdest`. -/
def setsegdest (s : Segs) (ss : Osub) (v : Option Nat) : Segs := { s with segend := Function.update s.segend (ssym ss) v }
/-- triangle.c:1180-1182 `spivot`. -/
def spivot (s : Segs) (ss : Osub) : Osub := s.slink ss
/-- triangle.c:1191-1193 `snext`. -/
def snext (s : Segs) (ss : Osub) : Osub := s.slink (ssym ss)
/-- triangle.c:1236-1238 `sbond`. -/
def sbond (s : Segs) (a b : Osub) : Segs := { s with slink := Function.update (Function.update s.slink a b) b a }
/-- triangle.c:1243-1244 `sdissolve`. -/
def sdissolve (s : Segs) (a : Osub) : Segs := { s with slink := Function.update s.slink a dummysub }
/-- triangle.c:1231-1232 `setmark`. -/
def setmark (s : Segs) (ss : Osub) (k : Int) : Segs := { s with smark := Function.update s.smark ss.1 k }
/-- triangle.c:1288-1290 `tsbond`. -/
def tsbond (s : Segs) (x : Otri) (ss : Osub) : Segs := { s with mesh := s.mesh.tsbond x ss }

/-- triangle.c:7823-7828: `if (vertexmark(v) == 0) setvertexmark(v, subsegmark)`; `v` must not be NULL. -/
def markVertex (s : Segs) (v : Option Nat) (k : Int) : Outcome Segs :=
  match v with
  | some v => if s.vmark v = 0 then .ok { s with vmark := Function.update s.vmark v k } else .ok s
  | none => .ub

/-- triangle.c:4699-4724 `makesubseg`. -/
def makesubseg (s : Segs) : Segs × Osub :=
  let ss : Osub := (s.count + 1, false)
  ({ s with
      mesh := { s.mesh with stri := Function.update (Function.update s.mesh.stri ss dummytri) (ssym ss) dummytri }
      send := Function.update (Function.update s.send ss none) (ssym ss) none
      segend := Function.update (Function.update s.segend ss none) (ssym ss) none
      smark := Function.update s.smark ss.1 0
      slink := Function.update (Function.update s.slink ss dummysub) (ssym ss) dummysub
      count := s.count + 1 }, ss)

/-- triangle.c:7803-7856 `insertsubseg`. -/
def insertsubseg (s : Segs) (x : Otri) (subsegmark : Int) : Outcome Segs := do
  let triorg := s.mesh.org x
  let tridest := s.mesh.dest x
  let s ← s.markVertex triorg subsegmark
  let s ← s.markVertex tridest subsegmark
  let newsubseg := s.mesh.tspivot x
  if newsubseg.1 = 0 then
    let r := s.makesubseg
    let s := r.1
    let newsubseg := r.2
    let s := s.setsorg newsubseg tridest
    let s := s.setsdest newsubseg triorg
    let s := s.setsegorg newsubseg tridest
    let s := s.setsegdest newsubseg triorg
    let s := s.tsbond x newsubseg
    let oppotri := s.mesh.sym x
    let newsubseg := ssym newsubseg
    let s := s.tsbond oppotri newsubseg
    .ok (s.setmark newsubseg subsegmark)
  else if s.smark newsubseg.1 = 0 then .ok (s.setmark newsubseg subsegmark)
  else .ok s

end Segs

/-- triangle.c:382 `enum finddirectionresult`. -/
inductive Found
  | within | leftCollinear | rightCollinear
  deriving DecidableEq

section
variable {K : Type} [Field K] [LinearOrder K]

/-- triangle.c:11626-11640: turning left; the result has `leftccw` and `rightccw`. -/
def findLeft (m : Heap) (pos : Nat → Pt K) (p start : Pt K) : Nat → Otri → K → K → Outcome (Otri × K × K)
  | fuel, x, leftccw, rightccw =>
    if 0 < leftccw then
      match fuel with
      | 0 => .ub
      | fuel + 1 =>
        let x := m.onext x
        if x.1 = 0 then .exn
        else do
          let left ← deref pos (m.apex x)
          findLeft m pos p start fuel x (Carve.ccwDet p start left) leftccw
    else .ok (x, leftccw, rightccw)

/-- triangle.c:11641-11655: turning right. -/
def findRight (m : Heap) (pos : Nat → Pt K) (p start : Pt K) : Nat → Otri → K → K → Outcome (Otri × K × K)
  | fuel, x, leftccw, rightccw =>
    if 0 < rightccw then
      match fuel with
      | 0 => .ub
      | fuel + 1 =>
        let x := m.oprev x
        if x.1 = 0 then .exn
        else do
          let right ← deref pos (m.dest x)
          findRight m pos p start fuel x rightccw (Carve.ccwDet start p right)
    else .ok (x, leftccw, rightccw)

/-- triangle.c:11588-11663 `finddirection`.  The flags are `leftccw > 0` and `rightccw > 0`, except
where one of them is reset (11616-11625): then its loop is left out. -/
def finddirection (m : Heap) (pos : Nat → Pt K) (p : Pt K) (fuel : Nat) (x : Otri) : Outcome (Found × Otri) := do
  let start ← deref pos (m.org x)
  let right ← deref pos (m.dest x)
  let left ← deref pos (m.apex x)
  let leftccw := Carve.ccwDet p start left
  let rightccw := Carve.ccwDet start p right
  let r ← (if 0 < leftccw ∧ 0 < rightccw then
      if (m.onext x).1 = 0 then findRight m pos p start fuel x leftccw rightccw
      else findLeft m pos p start fuel x leftccw rightccw
    else if 0 < leftccw then findLeft m pos p start fuel x leftccw rightccw
    else findRight m pos p start fuel x leftccw rightccw)
  if r.2.1 = 0 then .ok (.leftCollinear, r.1)
  else if r.2.2 = 0 then .ok (.rightCollinear, r.1)
  else .ok (.within, r.1)

/-- triangle.c:11810-11869 `scoutsegment`.  `segmentintersection` (11683-11783) is a parameter: it gets
the mesh, the edge and the subsegment to split, and returns the mesh and the edge `splittri`.  The
first component is the result.  `turns` bounds the loops of `finddirection`. -/
def scoutsegment (segmentintersection : Segs → Otri → Osub → Outcome (Segs × Otri)) (pos : Nat → Pt K) (endpoint2 : Pt K)
    (newmark : Int) (turns : Nat) : Nat → Segs → Otri → Outcome (Bool × Segs × Otri)
  | 0, _, _ => .ub
  | fuel + 1, s, x => do
    let r ← finddirection s.mesh pos endpoint2 turns x
    let searchtri := r.2
    let right ← deref pos (s.mesh.dest searchtri)
    let left ← deref pos (s.mesh.apex searchtri)
    if (left.x = endpoint2.x ∧ left.y = endpoint2.y) ∨ (right.x = endpoint2.x ∧ right.y = endpoint2.y) then do
      let searchtri := if left.x = endpoint2.x ∧ left.y = endpoint2.y then lprev searchtri else searchtri
      let s ← s.insertsubseg searchtri newmark
      .ok (true, s, searchtri)
    else
      match r.1 with
      | .leftCollinear => do
        let searchtri := lprev searchtri
        let s ← s.insertsubseg searchtri newmark
        scoutsegment segmentintersection pos endpoint2 newmark turns fuel s searchtri
      | .rightCollinear => do
        let s ← s.insertsubseg searchtri newmark
        scoutsegment segmentintersection pos endpoint2 newmark turns fuel s (lnext searchtri)
      | .within =>
        let crosstri := lnext searchtri
        let crosssubseg := s.mesh.tspivot crosstri
        if crosssubseg.1 = 0 then .ok (false, s, searchtri)
        else do
          let q ← segmentintersection s crosstri crosssubseg
          let s ← q.1.insertsubseg q.2 newmark
          scoutsegment segmentintersection pos endpoint2 newmark turns fuel s q.2

end

/-- triangle.c:7393-7418 `makevertexmap`: the field `vertex2tri` of the vertices; `ts` are the
triangles in the order of the traversal.  A corner that is NULL is written to (`ub`). -/
def makevertexmap (m : Heap) : List Nat → (Nat → Option Otri) → Outcome (Nat → Option Otri)
  | [], v2t => .ok v2t
  | t :: ts, v2t =>
    match m.org (t, 0), m.org (t, 1), m.org (t, 2) with
    | some a, some b, some c =>
      makevertexmap m ts (Function.update (Function.update (Function.update v2t a (some (t, 0))) b (some (t, 1))) c (some (t, 2)))
    | _, _, _ => .ub

/-- triangle.c:12269-12275: the triangle recorded for the endpoint, if its origin is the endpoint. -/
def startAt (m : Heap) (v2t : Nat → Option Otri) (v : Nat) : Option Otri :=
  match v2t v with
  | some x => if m.org x = some v then some x else none
  | none => none

/-- triangle.c:12378-12388: the loop of `markhull`; `turns` bounds the inner loop. -/
def markLoop (start : Otri) (turns : Nat) : Nat → Otri → Segs → Outcome Segs
  | 0, _, _ => .ub
  | fuel + 1, x, s => do
    let s ← s.insertsubseg x 1
    let y ← Carve.turnHull s.mesh turns (lnext x)
    if y = start then .ok s else markLoop start turns fuel y s

/-- triangle.c:12358-12389 `markhull`. -/
def markhull (fuel : Nat) (s : Segs) : Outcome Segs :=
  let start := s.mesh.sym (0, 0)
  markLoop start fuel fuel start s

end Delynoi.Tri
