import Verif.Model.TriGhost
import Verif.Model.TriLocate
/-!
# Triangle's merge of two triangulations

`delynoi/include/delynoi/voronoi/lib/triangle.c:9413-9720` (`mergehulls`) without the prints;
orientations and in-circle tests are computed exactly.  Reading the coordinates of NULL is `ub`.  The
loops need not end: `none` says that `fuel` rounds were not enough.  The addresses of the two new
triangles are arguments.
-/
namespace Delynoi.Tri
variable {K : Type} [Field K] [LinearOrder K]

/-- `counterclockwise` of three vertices (triangle.c:4986-5028), exactly. -/
def ccwV (pos : Nat → Pt K) (a b c : Option Nat) : Outcome K := do
  let a ← deref pos a
  let b ← deref pos b
  let c ← deref pos c
  .ok (Carve.ccwDet a b c)

/-- `incircle` of four vertices (triangle.c:5585-5637), exactly. -/
def incircleV (pos : Nat → Pt K) (a b c d : Option Nat) : Outcome K := do
  let a ← deref pos a
  let b ← deref pos b
  let c ← deref pos c
  let d ← deref pos d
  .ok (incircleDet a b c d)

/-- triangle.c:9460-9465 and 9475-9480: from a vertex to the next one (counter-clockwise) while it is lower; `x` starts
at the vertex and ends at NULL. -/
def shiftDown (m : Heap) (pos : Nat → Pt K) : Nat → Otri → Outcome (Option Otri)
  | 0, _ => .ok none
  | fuel + 1, x => do
    let p ← deref pos (m.org x)
    let a ← deref pos (m.apex x)
    if a.y < p.y then shiftDown m pos fuel (m.sym (lnext x)) else .ok (some x)

/-- triangle.c:9466-9474 and 9481-9489: from a vertex to the one before while it is higher; `x` starts at NULL and
ends at the vertex. -/
def shiftUp (m : Heap) (pos : Nat → Pt K) : Nat → Otri → Outcome (Option Otri)
  | 0, _ => .ok none
  | fuel + 1, x => do
    let checkedge := m.sym x
    let p ← deref pos (m.dest x)
    let c ← deref pos (m.apex checkedge)
    if p.y < c.y then shiftUp m pos fuel (lnext checkedge) else .ok (some x)

/-- triangle.c:9491-9512: the line tangent to and below both hulls.  `innerleft` starts at NULL, `innerright` ends
there. -/
def tangent (m : Heap) (pos : Nat → Pt K) : Nat → Otri → Otri → Outcome (Option (Otri × Otri))
  | 0, _, _ => .ok none
  | fuel + 1, innerleft, innerright => do
    let a ← ccwV pos (m.dest innerleft) (m.apex innerleft) (m.org innerright)
    let innerleft' := if 0 < a then m.sym (lprev innerleft) else innerleft
    let b ← ccwV pos (m.apex innerright) (m.org innerright) (m.dest innerleft')
    let innerright' := if 0 < b then m.sym (lnext innerright) else innerright
    if 0 < a ∨ 0 < b then tangent m pos fuel innerleft' innerright' else .ok (some (innerleft', innerright'))

/-- triangle.c:9610-9633: an edge of the left triangulation is removed by a flip; the result has `leftcand` and
`sidecasing`. -/
def Heap.eatLeft (m : Heap) (leftcand nextedge : Otri) (lowerleft upperleft nextapex : Option Nat) : Heap × Otri × Otri :=
  let nextedge := lnext nextedge
  let topcasing := m.sym nextedge
  let nextedge := lnext nextedge
  let sidecasing := m.sym nextedge
  let m := m.bond nextedge topcasing
  let m := m.bond leftcand sidecasing
  let leftcand := lnext leftcand
  let outercasing := m.sym leftcand
  let nextedge := lprev nextedge
  let m := m.bond nextedge outercasing
  let m := m.setorg leftcand lowerleft
  let m := m.setdest leftcand none
  let m := m.setapex leftcand nextapex
  let m := m.setorg nextedge none
  let m := m.setdest nextedge upperleft
  let m := m.setapex nextedge nextapex
  (m, leftcand, sidecasing)

/-- triangle.c:9658-9681: the same on the right. -/
def Heap.eatRight (m : Heap) (rightcand nextedge : Otri) (lowerright upperright nextapex : Option Nat) : Heap × Otri × Otri :=
  let nextedge := lprev nextedge
  let topcasing := m.sym nextedge
  let nextedge := lprev nextedge
  let sidecasing := m.sym nextedge
  let m := m.bond nextedge topcasing
  let m := m.bond rightcand sidecasing
  let rightcand := lprev rightcand
  let outercasing := m.sym rightcand
  let nextedge := lnext nextedge
  let m := m.bond nextedge outercasing
  let m := m.setorg rightcand none
  let m := m.setdest rightcand lowerright
  let m := m.setapex rightcand nextapex
  let m := m.setorg nextedge upperright
  let m := m.setdest nextedge none
  let m := m.setapex nextedge nextapex
  (m, rightcand, sidecasing)

/-- triangle.c:9600-9644: remove edges of the left triangulation that are not Delaunay; the result has `leftcand` and
`upperleft`. -/
def eatLefts (pos : Nat → Pt K) (lowerleft lowerright : Option Nat) : Nat → Heap → Otri → Option Nat → Otri → Outcome (Option (Heap × Otri × Option Nat))
  | 0, _, _, _, _ => .ok none
  | fuel + 1, m, leftcand, upperleft, nextedge =>
    let nextapex := m.apex nextedge
    if nextapex = none then .ok (some (m, leftcand, upperleft))
    else do
      let c ← incircleV pos lowerleft lowerright upperleft nextapex
      if 0 < c then
        let r := m.eatLeft leftcand nextedge lowerleft upperleft nextapex
        eatLefts pos lowerleft lowerright fuel r.1 r.2.1 nextapex r.2.2
      else .ok (some (m, leftcand, upperleft))

/-- triangle.c:9648-9692: the same on the right. -/
def eatRights (pos : Nat → Pt K) (lowerleft lowerright : Option Nat) : Nat → Heap → Otri → Option Nat → Otri → Outcome (Option (Heap × Otri × Option Nat))
  | 0, _, _, _, _ => .ok none
  | fuel + 1, m, rightcand, upperright, nextedge =>
    let nextapex := m.apex nextedge
    if nextapex = none then .ok (some (m, rightcand, upperright))
    else do
      let c ← incircleV pos lowerleft lowerright upperright nextapex
      if 0 < c then
        let r := m.eatRight rightcand nextedge lowerright upperright nextapex
        eatRights pos lowerleft lowerright fuel r.1 r.2.1 nextapex r.2.2
      else .ok (some (m, rightcand, upperright))

/-- The variables of the loop that knits the triangulations together. -/
structure Knit where
  mesh : Heap
  base : Otri
  left : Otri
  right : Otri
  lowerleft : Option Nat
  lowerright : Option Nat
  upperleft : Option Nat
  upperright : Option Nat

namespace Knit

/-- triangle.c:9556-9566: the top bounding triangle. -/
def close (s : Knit) (n : Nat) : Heap :=
  let m := s.mesh.maketriangle n
  let nextedge : Otri := (n, 0)
  let m := m.setorg nextedge s.lowerleft
  let m := m.setdest nextedge s.lowerright
  let m := m.bond nextedge s.base
  let nextedge := lnext nextedge
  let m := m.bond nextedge s.right
  let nextedge := lnext nextedge
  m.bond nextedge s.left

/-- triangle.c:9697-9704: an edge from `lowerleft` to `upperright`. -/
def knitRight (s : Knit) : Knit :=
  let m := s.mesh.bond s.base s.right
  let base := lprev s.right
  let m := m.setdest base s.lowerleft
  let right := m.sym base
  { s with mesh := m, base := base, lowerright := s.upperright, right := right, upperright := m.apex right }

/-- triangle.c:9705-9714: an edge from `upperleft` to `lowerright`. -/
def knitLeft (s : Knit) : Knit :=
  let m := s.mesh.bond s.base s.left
  let base := lnext s.left
  let m := m.setorg base s.lowerright
  let left := m.sym base
  { s with mesh := m, base := base, lowerleft := s.upperleft, left := left, upperleft := m.apex left }

/-- triangle.c:9598-9645 -/
def trimLeft (pos : Nat → Pt K) (fuel : Nat) (finished : Bool) (s : Knit) : Outcome (Option Knit) :=
  if finished then .ok (some s)
  else do
    let r ← eatLefts pos s.lowerleft s.lowerright fuel s.mesh s.left s.upperleft (s.mesh.sym (lprev s.left))
    .ok (r.map fun r => { s with mesh := r.1, left := r.2.1, upperleft := r.2.2 })

/-- triangle.c:9646-9693 -/
def trimRight (pos : Nat → Pt K) (fuel : Nat) (finished : Bool) (s : Knit) : Outcome (Option Knit) :=
  if finished then .ok (some s)
  else do
    let r ← eatRights pos s.lowerleft s.lowerright fuel s.mesh s.right s.upperright (s.mesh.sym (lnext s.right))
    .ok (r.map fun r => { s with mesh := r.1, right := r.2.1, upperright := r.2.2 })

/-- triangle.c:9694-9714: which side comes next. -/
def advance (pos : Nat → Pt K) (leftfinished rightfinished : Bool) (s : Knit) : Outcome Knit :=
  if leftfinished then .ok s.knitRight
  else if rightfinished then .ok s.knitLeft
  else do
    let c ← incircleV pos s.upperleft s.lowerleft s.lowerright s.upperright
    if 0 < c then .ok s.knitRight else .ok s.knitLeft

/-- triangle.c:9598-9714: one round of the loop below the top. -/
def round (pos : Nat → Pt K) (fuel : Nat) (leftfinished rightfinished : Bool) (s : Knit) : Outcome (Option Knit) := do
  let r ← s.trimLeft pos fuel leftfinished
  match r with
  | none => .ok none
  | some s => do
    let r ← s.trimRight pos fuel rightfinished
    match r with
    | none => .ok none
    | some s => do
      let s ← s.advance pos leftfinished rightfinished
      .ok (some s)

/-- triangle.c:9545-9719: the loop; `n` is the address of the top bounding triangle. -/
def loop (pos : Nat → Pt K) (n : Nat) : Nat → Knit → Outcome (Option Heap)
  | 0, _ => .ok none
  | fuel + 1, s => do
    let a ← ccwV pos s.upperleft s.lowerleft s.lowerright
    let b ← ccwV pos s.upperright s.lowerleft s.lowerright
    let leftfinished := decide (a ≤ 0)
    let rightfinished := decide (b ≤ 0)
    if leftfinished ∧ rightfinished then .ok (some (s.close n))
    else do
      let r ← s.round pos fuel leftfinished rightfinished
      match r with
      | none => .ok none
      | some s => loop pos n fuel s

/-- triangle.c:9513-9529, 9539-9544: the bottom bounding triangle at address `n`, and the first candidates. -/
def start (m : Heap) (n : Nat) (innerleft innerright : Otri) : Knit :=
  let innerleftdest := m.dest innerleft
  let innerrightorg := m.org innerright
  let leftcand := m.sym innerleft
  let rightcand := m.sym innerright
  let m := m.maketriangle n
  let baseedge : Otri := (n, 0)
  let m := m.bond baseedge innerleft
  let baseedge := lnext baseedge
  let m := m.bond baseedge innerright
  let baseedge := lnext baseedge
  let m := m.setorg baseedge innerrightorg
  let m := m.setdest baseedge innerleftdest
  { mesh := m, base := baseedge, left := leftcand, right := rightcand, lowerleft := innerleftdest, lowerright := innerrightorg,
    upperleft := m.apex leftcand, upperright := m.apex rightcand }

end Knit

/-- triangle.c:9491-9529, 9539-9570 and 9596-9719: tangent, bottom bounding triangle, and the loop; the result has the mesh and the
tangent. -/
def knitHulls (pos : Nat → Pt K) (n1 n2 fuel : Nat) (m : Heap) (innerleft innerright : Otri) : Outcome (Option (Heap × Otri × Otri)) := do
  let t ← tangent m pos fuel innerleft innerright
  match t with
  | none => .ok none
  | some (innerleft, innerright) => do
    let r ← (Knit.start m n1 innerleft innerright).loop pos n2 fuel
    .ok (r.map fun m => (m, innerleft, innerright))

end Delynoi.Tri
