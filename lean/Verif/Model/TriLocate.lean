import Verif.Model.TriCarve
/-!
# Triangle finds the triangle with a given point

`delynoi/include/delynoi/voronoi/lib/triangle.c:7488-7611` (`preciselocate`) and `7632-7777`
(`locate`) without the prints; orientations are computed exactly (`Carve.ccwDet`).

Reading the coordinates of a corner that is NULL is `ub`.  The walk need not end: `none` says that
it is still going on after `fuel` triangles.
-/
namespace Delynoi.Tri
variable {K : Type} [Field K] [LinearOrder K]

/-- triangle.c:366 `enum locateresult`. -/
inductive Located
  | inTriangle | onEdge | onVertex | outside
  deriving DecidableEq

/-- Reading the coordinates of a vertex that must not be NULL. -/
def deref (pos : Nat → Pt K) (v : Option Nat) : Outcome (Pt K) :=
  match v with
  | some v => .ok (pos v)
  | none => .ub

/-- triangle.c:7519-7610: the loop of `preciselocate`.  `checksegments` is a field of the mesh; `o`,
`d`, `a` are `forg`, `fdest`, `fapex`. -/
def preciseLoop (m : Heap) (pos : Nat → Pt K) (p : Pt K) (checksegments stopatsubsegment : Bool) :
    Nat → Otri → Pt K → Pt K → Pt K → Outcome (Option (Located × Otri))
  | 0, _, _, _, _ => .ok none
  | fuel + 1, x, o, d, a =>
    if a.x = p.x ∧ a.y = p.y then .ok (some (.onVertex, lprev x))
    else
      let destorient := Carve.ccwDet o a p
      let orgorient := Carve.ccwDet a d p
      if ¬ 0 < destorient ∧ ¬ 0 < orgorient then
        if destorient = 0 then .ok (some (.onEdge, lprev x))
        else if orgorient = 0 then .ok (some (.onEdge, lnext x))
        else .ok (some (.inTriangle, x))
      else
        let moveleft : Bool :=
          if 0 < destorient then
            if 0 < orgorient then decide (0 < (a.x - p.x) * (d.x - o.x) + (a.y - p.y) * (d.y - o.y))
            else true
          else false
        let backtracktri := if moveleft then lprev x else lnext x
        let searchtri := m.sym backtracktri
        if (checksegments && stopatsubsegment) = true ∧ (m.tspivot backtracktri).1 ≠ 0 then
          .ok (some (.outside, backtracktri))
        else if searchtri.1 = 0 then .ok (some (.outside, backtracktri))
        else do
          let a' ← deref pos (m.apex searchtri)
          if moveleft then preciseLoop m pos p checksegments stopatsubsegment fuel searchtri o a a'
          else preciseLoop m pos p checksegments stopatsubsegment fuel searchtri a d a'

/-- triangle.c:7488-7611 `preciselocate`. -/
def preciselocate (m : Heap) (pos : Nat → Pt K) (p : Pt K) (checksegments stopatsubsegment : Bool)
    (fuel : Nat) (x : Otri) : Outcome (Option (Located × Otri)) := do
  let o ← deref pos (m.org x)
  let d ← deref pos (m.dest x)
  let a ← deref pos (m.apex x)
  preciseLoop m pos p checksegments stopatsubsegment fuel x o d a

/-- triangle.c:7662-7663 and the like: the square of the distance. -/
def distTo (p q : Pt K) : K := (p.x - q.x) * (p.x - q.x) + (p.y - q.y) * (p.y - q.y)

/-- triangle.c:7716-7755: the random samples.  Which triangles are drawn is a parameter (Model/TriSort
has `randomnation`); `dead` is `deadtri`. -/
def sampleLoop (m : Heap) (pos : Nat → Pt K) (p : Pt K) (dead : Nat → Bool) :
    List Nat → Otri → K → Outcome Otri
  | [], x, _ => .ok x
  | t :: ts, x, searchdist =>
    if dead t then sampleLoop m pos p dead ts x searchdist
    else do
      let torg ← deref pos (m.org (t, 0))
      if distTo p torg < searchdist then sampleLoop m pos p dead ts (t, 0) (distTo p torg)
      else sampleLoop m pos p dead ts x searchdist

/-- triangle.c:7757-7776: turning the starting edge, and the walk. -/
def locateFrom (m : Heap) (pos : Nat → Pt K) (p : Pt K) (checksegments : Bool) (fuel : Nat) (x : Otri) :
    Outcome (Option (Located × Otri)) := do
  let torg ← deref pos (m.org x)
  let tdest ← deref pos (m.dest x)
  if torg.x = p.x ∧ torg.y = p.y then .ok (some (.onVertex, x))
  else if tdest.x = p.x ∧ tdest.y = p.y then .ok (some (.onVertex, lnext x))
  else
    let ahead := Carve.ccwDet torg tdest p
    if ahead < 0 then preciselocate m pos p checksegments false fuel (m.sym x)
    else if ahead = 0 ∧ (decide (torg.x < p.x) = decide (p.x < tdest.x) ∧
        decide (torg.y < p.y) = decide (p.y < tdest.y)) then .ok (some (.onEdge, x))
    else preciselocate m pos p checksegments false fuel x

/-- triangle.c:7632-7777 `locate`; `recent` is `m->recenttri`, `samples` the triangles drawn. -/
def locate (m : Heap) (pos : Nat → Pt K) (p : Pt K) (checksegments : Bool) (dead : Nat → Bool)
    (recent : Option Otri) (samples : List Nat) (fuel : Nat) (x : Otri) : Outcome (Option (Located × Otri)) := do
  let torg ← deref pos (m.org x)
  let searchdist := distTo p torg
  match recent with
  | none => do
    let y ← sampleLoop m pos p dead samples x searchdist
    locateFrom m pos p checksegments fuel y
  | some r =>
    if dead r.1 then do
      let y ← sampleLoop m pos p dead samples x searchdist
      locateFrom m pos p checksegments fuel y
    else do
      let rorg ← deref pos (m.org r)
      if rorg.x = p.x ∧ rorg.y = p.y then .ok (some (.onVertex, r))
      else if distTo p rorg < searchdist then do
        let y ← sampleLoop m pos p dead samples r (distTo p rorg)
        locateFrom m pos p checksegments fuel y
      else do
        let y ← sampleLoop m pos p dead samples x searchdist
        locateFrom m pos p checksegments fuel y

/-- triangle.c:13044-13045: `locate` as `carveholes` uses it, for `Carve.infectHoles`.  The triangles
drawn may be different for each hole. -/
def searchHole (pos : Nat → Pt K) (checksegments : Bool) (dead : Nat → Bool) (recent : Option Otri)
    (samples : Pt K → List Nat) (fuel : Nat) (m : Heap) (p : Pt K) (x : Otri) : Outcome (Option Otri) := do
  match ← locate m pos p checksegments dead recent (samples p) fuel x with
  | some (.outside, _) => .ok none
  | some (_, y) => .ok (some y)
  | none => .ub

end Delynoi.Tri
