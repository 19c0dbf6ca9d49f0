import Verif.Model.TriInsert
/-!
# Segments that cross

`delynoi/include/delynoi/voronoi/lib/triangle.c:11683-11783` (`segmentintersection`), without the
prints, attributes of vertices, `vertex2tri`, types of vertices and `steinerleft`.
-/
namespace Delynoi.Tri

/-- triangle.c:11755-11758 and 11759-11762: `do { setsegorg; snext } while`.  A loop that does not end
is `ub`. -/
def Segs.relabel (v : Nat) : Nat → Segs → Osub → Outcome Segs
  | 0, _, _ => .ub
  | fuel + 1, s, ss =>
    let s := s.setsegorg ss (some v)
    let ss := s.snext ss
    if ss.1 = 0 then .ok s else relabel v fuel s ss

variable {K : Type} [Field K] [LinearOrder K]

/-- triangle.c:11683-11783 `segmentintersection`.  The vertex and the triangles to be made are
arguments, as in `insertAt`; the result has the mesh, the positions of vertices and `splittri`.  Here
`insertvertex` always succeeds: the subsegment is given, so it is not refused.  `internalerror` is
`exn`. -/
def segmentintersection (pos : Nat → Pt K) (newvertex n1 n2 fuel : Nat) (s : Segs) (splittri : Otri) (splitsubseg : Osub) (endpoint2 : Pt K) :
    Outcome (Segs × (Nat → Pt K) × Otri) := do
  let endpoint1 ← deref pos (s.mesh.apex splittri)
  let torg ← deref pos (s.mesh.org splittri)
  let tdest ← deref pos (s.mesh.dest splittri)
  let tx := tdest.x - torg.x
  let ty := tdest.y - torg.y
  let ex := endpoint2.x - endpoint1.x
  let ey := endpoint2.y - endpoint1.y
  let etx := torg.x - endpoint2.x
  let ety := torg.y - endpoint2.y
  let denom := ty * ex - tx * ey
  if denom = 0 then .exn
  else
    let split := (ey * etx - ex * ety) / denom
    let pos := Function.update pos newvertex ⟨torg.x + split * (tdest.x - torg.x), torg.y + split * (tdest.y - torg.y)⟩
    let s := { s with vmark := Function.update s.vmark newvertex (s.smark splitsubseg.1) }
    let r ← insertOn pos newvertex n1 n2 fuel s splittri splitsubseg
    let s := r.1
    let splittri := r.2
    let splitsubseg := ssym splitsubseg
    let opposubseg := s.spivot splitsubseg
    let s := s.sdissolve splitsubseg
    let s := s.sdissolve opposubseg
    let s ← s.relabel newvertex fuel splitsubseg
    let s ← s.relabel newvertex fuel opposubseg
    let q ← finddirection s.mesh pos endpoint1 fuel splittri
    let splittri := q.2
    let right ← deref pos (s.mesh.dest splittri)
    let left ← deref pos (s.mesh.apex splittri)
    if left.x = endpoint1.x ∧ left.y = endpoint1.y then .ok (s, pos, s.mesh.onext splittri)
    else if right.x ≠ endpoint1.x ∨ right.y ≠ endpoint1.y then .exn
    else .ok (s, pos, splittri)

end Delynoi.Tri
