import Verif.Model.TriInsert
/-!
# Segments that are forced into the mesh

`delynoi/include/delynoi/voronoi/lib/triangle.c:12024-12089` (`delaunayfixup`), `12144-12237`
(`constrainededge`) and `12246-12345` (`insertsegment`), without the prints, `recenttri` and the switch
`s` (`splitseg`, with `conformingedge`), which Delynoi never gives.  `checksegments` is 1 here (15768).
Orientations and in-circle tests are exact.  A recursion or loop that does not end is `ub`, and so is
reading a corner that is NULL.
-/
namespace Delynoi.Tri
variable {K : Type} [Field K] [LinearOrder K]

/-- triangle.c:12024-12089 `delaunayfixup`.  The result has the handle `fixuptri`, which is passed by
reference. -/
def delaunayfixup (pos : Nat → Pt K) (leftside : Bool) : Nat → Heap → Otri → Outcome (Heap × Otri)
  | 0, _, _ => .ub
  | fuel + 1, m, fixuptri =>
    let neartri := lnext fixuptri
    let fartri := m.sym neartri
    if fartri.1 = 0 then .ok (m, fixuptri)
    else if (m.tspivot neartri).1 ≠ 0 then .ok (m, fixuptri)
    else do
      let near ← deref pos (m.apex neartri)
      let left ← deref pos (m.org neartri)
      let right ← deref pos (m.dest neartri)
      let far ← deref pos (m.apex fartri)
      if leftside = true ∧ ¬ 0 < Carve.ccwDet near left far then .ok (m, fixuptri)
      else if leftside = false ∧ ¬ 0 < Carve.ccwDet far right near then .ok (m, fixuptri)
      else if 0 < Carve.ccwDet right left far ∧ ¬ 0 < incircleDet left far right near then .ok (m, fixuptri)
      else do
        let r ← delaunayfixup pos leftside fuel (m.flip true neartri) (lprev fixuptri)
        let q ← delaunayfixup pos leftside fuel r.1 fartri
        .ok (q.1, r.2)

/-- triangle.c:12024-12089 again, as it is called in `constrainededge`. -/
def Segs.fixup (pos : Nat → Pt K) (leftside : Bool) (fuel : Nat) (s : Segs) (x : Otri) : Outcome (Segs × Otri) := do
  let r ← delaunayfixup pos leftside fuel s.mesh x
  .ok ({ s with mesh := r.1 }, r.2)

/-- triangle.c:12171-12223: the loop of `constrainededge`.  The result has `collision`. -/
def digLoop (segmentintersection : Segs → Otri → Osub → Outcome (Segs × Otri)) (pos : Nat → Pt K) (endpoint1 endpoint2 : Pt K)
    (depth : Nat) : Nat → Segs → Otri → Outcome (Bool × Segs × Otri)
  | 0, _, _ => .ub
  | fuel + 1, s, fixuptri => do
    let far ← deref pos (s.mesh.org fixuptri)
    let area := Carve.ccwDet endpoint1 endpoint2 far
    if (far.x = endpoint2.x ∧ far.y = endpoint2.y) ∨ area = 0 then do
      let fixuptri2 := s.mesh.oprev fixuptri
      let r ← s.fixup pos false depth fixuptri
      let q ← r.1.fixup pos true depth fixuptri2
      .ok (!decide (far.x = endpoint2.x ∧ far.y = endpoint2.y), q.1, r.2)
    else do
      let r ← (if 0 < area then do
          let q ← s.fixup pos true depth (s.mesh.oprev fixuptri)
          .ok (q.1, lprev fixuptri)
        else do
          let q ← s.fixup pos false depth fixuptri
          .ok (q.1, q.1.mesh.oprev q.2) : Outcome (Segs × Otri))
      let crosssubseg := r.1.mesh.tspivot r.2
      if crosssubseg.1 = 0 then
        digLoop segmentintersection pos endpoint1 endpoint2 depth fuel { r.1 with mesh := r.1.mesh.flip true r.2 } r.2
      else do
        let q ← segmentintersection r.1 r.2 crosssubseg
        .ok (true, q.1, q.2)

/-- triangle.c:12144-12237 `constrainededge`.  `segmentintersection` is a parameter as in
`scoutsegment`; `fuel` bounds the recursion and the loop, `depth` the recursion of `delaunayfixup`,
`turns` the loops of `scoutsegment`. -/
def constrainededge (segmentintersection : Segs → Otri → Osub → Outcome (Segs × Otri)) (pos : Nat → Pt K) (endpoint2 : Pt K)
    (newmark : Int) (depth turns : Nat) : Nat → Segs → Otri → Outcome Segs
  | 0, _, _ => .ub
  | fuel + 1, s, starttri => do
    let endpoint1 ← deref pos (s.mesh.org starttri)
    let fixuptri := lnext starttri
    let s := { s with mesh := s.mesh.flip true fixuptri }
    let r ← digLoop segmentintersection pos endpoint1 endpoint2 depth (fuel + 1) s fixuptri
    let s ← r.2.1.insertsubseg r.2.2 newmark
    if r.1 = true then do
      let q ← scoutsegment segmentintersection pos endpoint2 newmark turns turns s r.2.2
      if q.1 = true then .ok q.2.1 else constrainededge segmentintersection pos endpoint2 newmark depth turns fuel q.2.1 q.2.2
    else .ok s

/-- triangle.c:12268-12288 and 12301-12319: a triangle whose origin is the endpoint.  `v2t` is the field
`vertex2tri` of the vertices, `none` where it has never been written: `poolalloc` does not, so reading
it is `ub` (NULL is never written).  Point location is a parameter. -/
def findEnd (locate : Heap → Nat → Outcome (Option (Located × Otri))) (v2t : Nat → Option Otri) (m : Heap) (v : Nat) : Outcome Otri :=
  match v2t v with
  | none => .ub
  | some x =>
    if m.org x = some v then .ok x
    else do
      let r ← locate m v
      match r with
      | some (.onVertex, x) => .ok x
      | some _ => .exn
      | none => .ub

/-- triangle.c:12246-12345 `insertsegment`. -/
def insertsegment (segmentintersection : Pt K → Segs → Otri → Osub → Outcome (Segs × Otri))
    (locate : Heap → Nat → Outcome (Option (Located × Otri))) (pos : Nat → Pt K) (v2t : Nat → Option Otri) (depth turns fuel : Nat)
    (s : Segs) (endpoint1 endpoint2 : Nat) (newmark : Int) : Outcome Segs := do
  let x ← findEnd locate v2t s.mesh endpoint1
  let r ← scoutsegment (segmentintersection (pos endpoint2)) pos (pos endpoint2) newmark turns turns s x
  if r.1 = true then .ok r.2.1
  else do
    let s := r.2.1
    let searchtri1 := r.2.2
    let e1 ← deref pos (s.mesh.org searchtri1)
    let y ← findEnd locate v2t s.mesh endpoint2
    let q ← scoutsegment (segmentintersection e1) pos e1 newmark turns turns s y
    if q.1 = true then .ok q.2.1
    else do
      let s := q.2.1
      let e2 ← deref pos (s.mesh.org q.2.2)
      constrainededge (segmentintersection e2) pos e2 newmark depth turns fuel s searchtri1

end Delynoi.Tri
