import Verif.Model.TriSegment
/-!
# Triangle's insertion of vertices

`delynoi/include/delynoi/voronoi/lib/triangle.c:4654-4690` (`maketriangle`), `8191-8767`
(`insertvertex`); `infvertex1`, `infvertex2`, `infvertex3` are NULL (15763-15765).  Left out: the search
for the vertex (Model/TriLocate), the queues of encroached subsegments and bad triangles
(`segmentflaws`, `triflaws`), the record of the flips for `undovertex` (`checkquality`), the prints,
`SELF_CHECK`, attributes and area bounds of triangles, `hullsize` and `recenttri`.

The addresses of new triangles are arguments; `poolalloc` returns blocks that are not in use.
-/
namespace Delynoi.Tri

namespace Heap

/-- triangle.c:4654-4690 `maketriangle`, at the address `n`. -/
def maketriangle (m : Heap) (n : Nat) : Heap :=
  { m with
    nbr := fun x => if x.1 = n then dummytri else m.nbr x
    corner := fun x => if x.1 = n then none else m.corner x
    sub := fun x => if x.1 = n then dummysub else m.sub x }

/-- triangle.c:8361-8365 and the like: a subsegment moves from one triangle to another. -/
def movesub (m : Heap) (x y : Otri) : Heap :=
  let ss := m.tspivot x
  if ss.1 ≠ 0 then (m.tsdissolve x).tsbond y ss else m

/-- triangle.c:8467-8523: the triangle is split into three; `nl` and `nr` are the new triangles. -/
def splitTriangle (checksegments : Bool) (m : Heap) (nl nr newvertex : Nat) (horiz : Otri) : Heap :=
  let botleft := lnext horiz
  let botright := lprev horiz
  let botlcasing := m.sym botleft
  let botrcasing := m.sym botright
  let m := m.maketriangle nl
  let m := m.maketriangle nr
  let newbotleft : Otri := (nl, 0)
  let newbotright : Otri := (nr, 0)
  let rightvertex := m.org horiz
  let leftvertex := m.dest horiz
  let botvertex := m.apex horiz
  let m := m.setorg newbotleft leftvertex
  let m := m.setdest newbotleft botvertex
  let m := m.setapex newbotleft (some newvertex)
  let m := m.setorg newbotright botvertex
  let m := m.setdest newbotright rightvertex
  let m := m.setapex newbotright (some newvertex)
  let m := m.setapex horiz (some newvertex)
  let m := if checksegments then (m.movesub botleft newbotleft).movesub botright newbotright else m
  let m := m.bond newbotleft botlcasing
  let m := m.bond newbotright botrcasing
  let newbotleft := lnext newbotleft
  let newbotright := lprev newbotright
  let m := m.bond newbotleft newbotright
  let newbotleft := lnext newbotleft
  let m := m.bond botleft newbotleft
  let newbotright := lprev newbotright
  m.bond botright newbotright

/-- triangle.c:8309-8386: the edge is split; `nr` is the new triangle at the right below, `nt` the one
at the right above (if there is a triangle above). -/
def splitEdge (checksegments : Bool) (m : Heap) (nr nt newvertex : Nat) (horiz : Otri) : Heap :=
  let botright := lprev horiz
  let botrcasing := m.sym botright
  let top := m.sym horiz
  let mirrorflag := top.1 ≠ 0
  let topright := if mirrorflag then lnext top else top
  let toprcasing := m.sym topright
  let m := if mirrorflag then m.maketriangle nt else m
  let newtopright : Otri := (nt, 0)
  let m := m.maketriangle nr
  let newbotright : Otri := (nr, 0)
  let rightvertex := m.org horiz
  let botvertex := m.apex horiz
  let m := m.setorg newbotright botvertex
  let m := m.setdest newbotright rightvertex
  let m := m.setapex newbotright (some newvertex)
  let m := m.setorg horiz (some newvertex)
  let m := if mirrorflag then
      let topvertex := m.dest topright
      let m := m.setorg newtopright rightvertex
      let m := m.setdest newtopright topvertex
      let m := m.setapex newtopright (some newvertex)
      m.setorg topright (some newvertex)
    else m
  let m := if checksegments then
      let m := m.movesub botright newbotright
      if mirrorflag then m.movesub topright newtopright else m
    else m
  let m := m.bond newbotright botrcasing
  let newbotright := lprev newbotright
  let m := m.bond newbotright botright
  let newbotright := lprev newbotright
  if mirrorflag then
    let m := m.bond newtopright toprcasing
    let newtopright := lnext newtopright
    let m := m.bond newtopright topright
    let newtopright := lnext newtopright
    m.bond newtopright newbotright
  else m

end Heap

variable {K : Type} [Field K] [LinearOrder K]

/-- triangle.c:5585-5637 `incircle` in exact arithmetic (Model/Exact has the rounded one). -/
def incircleDet (a b c d : Pt K) : K :=
  let adx := a.x - d.x
  let bdx := b.x - d.x
  let cdx := c.x - d.x
  let ady := a.y - d.y
  let bdy := b.y - d.y
  let cdy := c.y - d.y
  let alift := adx * adx + ady * ady
  let blift := bdx * bdx + bdy * bdy
  let clift := cdx * cdx + cdy * cdy
  alift * (bdx * cdy - cdx * bdy) + blift * (cdx * ady - adx * cdy) + clift * (adx * bdy - bdx * ady)

/-- triangle.c:8571-8765: the loop that circles around the new vertex; `right` and `left` are the
variables `rightvertex` and `leftvertex`.  The flip (8637-8684) is the one of `flip`, written out, with
the vertices taken from variables.  The result has `searchtri`. -/
def legalize (checksegments : Bool) (pos : Nat → Pt K) (newvertex first : Nat) :
    Nat → Heap → Otri → Nat → Nat → Outcome (Heap × Otri)
  | 0, _, _, _, _ => .ub
  | fuel + 1, m, horiz, right, left =>
    let next : Outcome (Heap × Otri) :=
      let horiz := lnext horiz
      let testtri := m.sym horiz
      if left = first ∨ testtri.1 = 0 then .ok (m, lnext horiz)
      else
        let horiz := lnext testtri
        match m.dest horiz with
        | some l => legalize checksegments pos newvertex first fuel m horiz left l
        | none => .ub
    if checksegments = true ∧ (m.tspivot horiz).1 ≠ 0 then next
    else
      let top := m.sym horiz
      if top.1 = 0 then next
      else
        match m.apex top with
        | none => .ub
        | some far =>
          if 0 < incircleDet (pos left) (pos newvertex) (pos right) (pos far) then
            legalize checksegments pos newvertex first fuel (m.flip checksegments horiz) (lprev horiz) right far
          else next

/-- triangle.c:8565-8568: the loop starts at `horiz`. -/
def legalizeFrom (checksegments : Bool) (pos : Nat → Pt K) (newvertex fuel : Nat) (m : Heap) (horiz : Otri) : Outcome (Heap × Otri) :=
  match m.org horiz, m.dest horiz with
  | some first, some left => legalize checksegments pos newvertex first fuel m horiz first left
  | _, _ => .ub

/-- triangle.c:8260-8767: the vertex is inserted where the search has ended (`intersect`, `horiz`), if
it is not on a vertex or a subsegment.  Here the edge is not one of a given subsegment (`splitseg` is
NULL).  `none` means `DUPLICATEVERTEX` or `VIOLATINGVERTEX`. -/
def insertAt (checksegments : Bool) (pos : Nat → Pt K) (newvertex n1 n2 fuel : Nat) (m : Heap) (intersect : Located) (horiz : Otri) :
    Outcome (Option (Heap × Otri)) :=
  match intersect with
  | .onVertex => .ok none
  | .inTriangle => do
    let r ← legalizeFrom checksegments pos newvertex fuel (m.splitTriangle checksegments n1 n2 newvertex horiz) horiz
    .ok (some r)
  | .onEdge | .outside =>
    if checksegments = true ∧ (m.tspivot horiz).1 ≠ 0 then .ok none
    else do
      let r ← legalizeFrom checksegments pos newvertex fuel (m.splitEdge checksegments n1 n2 newvertex horiz) (lnext horiz)
      .ok (some r)

namespace Segs

/-- triangle.c:8309-8408: the edge is split together with its subsegment `splitseg` (8388-8408); there
are subsegments, so `checksegments` is 1.  `newbotright` (8377-8379) is the edge from the right vertex
to the new one. -/
def splitSubseg (s : Segs) (nr nt newvertex : Nat) (horiz : Otri) (splitseg : Osub) : Outcome Segs := do
  let s : Segs := { s with mesh := s.mesh.splitEdge true nr nt newvertex horiz }
  let newbotright := lprev (lprev ((nr, 0) : Otri))
  let s := s.setsdest splitseg (some newvertex)
  let segmentorg := s.segorg splitseg
  let segmentdest := s.segdest splitseg
  let splitseg := ssym splitseg
  let rightsubseg := s.spivot splitseg
  let s ← s.insertsubseg newbotright (s.smark splitseg.1)
  let newsubseg := s.mesh.tspivot newbotright
  let s := s.setsegorg newsubseg segmentorg
  let s := s.setsegdest newsubseg segmentdest
  let s := s.sbond splitseg newsubseg
  let newsubseg := ssym newsubseg
  let s := s.sbond newsubseg rightsubseg
  s.markVertex (some newvertex) (s.smark splitseg.1)

end Segs

/-- triangle.c:8258-8767 with a subsegment `splitseg`: the vertex is inserted on the edge `horiz`. -/
def insertOn (pos : Nat → Pt K) (newvertex n1 n2 fuel : Nat) (s : Segs) (horiz : Otri) (splitseg : Osub) : Outcome (Segs × Otri) := do
  let s ← s.splitSubseg n1 n2 newvertex horiz splitseg
  let r ← legalizeFrom true pos newvertex fuel s.mesh (lnext horiz)
  .ok ({ s with mesh := r.1 }, r.2)

end Delynoi.Tri
