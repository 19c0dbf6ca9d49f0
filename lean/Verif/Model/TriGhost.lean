import Verif.Model.TriInsert
/-!
# Triangle's smallest triangulations, and the removal of the bounding triangles

`delynoi/include/delynoi/voronoi/lib/triangle.c:9740-9885` (`divconqrecurse` for two and three
vertices) and `9904-9954` (`removeghosts`) without the prints; orientations are computed exactly
(`Carve.ccwDet`).  While the triangulation is built, every edge of its boundary has a bounding triangle
("ghost") whose third corner is NULL.

The addresses of new triangles are arguments.
-/
namespace Delynoi.Tri
variable {K : Type} [Field K] [LinearOrder K]

/-- triangle.c:9763-9789: the triangulation of two vertices is an edge with two bounding triangles; the
result has `farleft` and `farright`. -/
def Heap.divconq2 (m : Heap) (n1 n2 v0 v1 : Nat) : Heap × Otri × Otri :=
  let m := m.maketriangle n1
  let farleft : Otri := (n1, 0)
  let m := m.setorg farleft (some v0)
  let m := m.setdest farleft (some v1)
  let m := m.maketriangle n2
  let farright : Otri := (n2, 0)
  let m := m.setorg farright (some v1)
  let m := m.setdest farright (some v0)
  let m := m.bond farleft farright
  let farleft := lprev farleft
  let farright := lnext farright
  let m := m.bond farleft farright
  let farleft := lprev farleft
  let farright := lnext farright
  let m := m.bond farleft farright
  (m, lprev farright, farright)

/-- triangle.c:9801-9830: three vertices on a line, two edges with four bounding triangles. -/
def Heap.divconqLine (m : Heap) (midtri tri1 tri2 tri3 : Otri) (v0 v1 v2 : Nat) : Heap × Otri × Otri :=
  let m := m.setorg midtri (some v0)
  let m := m.setdest midtri (some v1)
  let m := m.setorg tri1 (some v1)
  let m := m.setdest tri1 (some v0)
  let m := m.setorg tri2 (some v2)
  let m := m.setdest tri2 (some v1)
  let m := m.setorg tri3 (some v1)
  let m := m.setdest tri3 (some v2)
  let m := m.bond midtri tri1
  let m := m.bond tri2 tri3
  let midtri := lnext midtri
  let tri1 := lprev tri1
  let tri2 := lnext tri2
  let tri3 := lprev tri3
  let m := m.bond midtri tri3
  let m := m.bond tri1 tri2
  let midtri := lnext midtri
  let tri1 := lprev tri1
  let tri2 := lnext tri2
  let tri3 := lprev tri3
  let m := m.bond midtri tri1
  let m := m.bond tri2 tri3
  (m, tri1, tri2)

/-- triangle.c:9831-9880: three vertices not on a line, a triangle with three bounding triangles; `left`
is `area > 0.0`. -/
def Heap.divconqTri (m : Heap) (midtri tri1 tri2 tri3 : Otri) (left : Bool) (v0 v1 v2 : Nat) : Heap × Otri × Otri :=
  let m := m.setorg midtri (some v0)
  let m := m.setdest tri1 (some v0)
  let m := m.setorg tri3 (some v0)
  let m :=
    if left then
      let m := m.setdest midtri (some v1)
      let m := m.setorg tri1 (some v1)
      let m := m.setdest tri2 (some v1)
      let m := m.setapex midtri (some v2)
      let m := m.setorg tri2 (some v2)
      m.setdest tri3 (some v2)
    else
      let m := m.setdest midtri (some v2)
      let m := m.setorg tri1 (some v2)
      let m := m.setdest tri2 (some v2)
      let m := m.setapex midtri (some v1)
      let m := m.setorg tri2 (some v1)
      m.setdest tri3 (some v1)
  let m := m.bond midtri tri1
  let midtri := lnext midtri
  let m := m.bond midtri tri2
  let midtri := lnext midtri
  let m := m.bond midtri tri3
  let tri1 := lprev tri1
  let tri2 := lnext tri2
  let m := m.bond tri1 tri2
  let tri1 := lprev tri1
  let tri3 := lprev tri3
  let m := m.bond tri1 tri3
  let tri2 := lnext tri2
  let tri3 := lprev tri3
  let m := m.bond tri2 tri3
  let farleft := tri1
  let farright := if left then tri2 else lnext farleft
  (m, farleft, farright)

/-- triangle.c:9790-9880: three vertices; the addresses are those of `midtri`, `tri1`, `tri2`, `tri3`. -/
def Heap.divconq3 (m : Heap) (pos : Nat → Pt K) (n0 n1 n2 n3 v0 v1 v2 : Nat) : Heap × Otri × Otri :=
  let m := m.maketriangle n0
  let m := m.maketriangle n1
  let m := m.maketriangle n2
  let m := m.maketriangle n3
  let area := Carve.ccwDet (pos v0) (pos v1) (pos v2)
  if area = 0 then m.divconqLine (n0, 0) (n1, 0) (n2, 0) (n3, 0) v0 v1 v2
  else m.divconqTri (n0, 0) (n1, 0) (n2, 0) (n3, 0) (decide (0 < area)) v0 v1 v2

namespace Carve

/-- triangle.c:9926-9950: one bounding triangle; the second result is the next one.  Using a triangle
already given back is `ub`. -/
def removeGhost (poly : Bool) (s : Carve) (x : Otri) : Outcome (Carve × Otri) := do
  let deadtriangle := lnext x
  if x.1 ∈ s.dead then .ub
  else
    let dissolveedge := s.mesh.sym (lprev x)
    if dissolveedge.1 ∈ s.dead then .ub
    else do
      let s ← (if ¬ poly ∧ dissolveedge.1 ≠ 0 then s.touchVertex (s.mesh.org dissolveedge) else .ok s)
      let s := s.dissolve dissolveedge
      let next := s.mesh.sym deadtriangle
      let s ← s.triangledealloc deadtriangle.1
      .ok (s, next)

/-- triangle.c:9926-9952: the loop; the result has the number of rounds.  A loop that does not end runs
out of fuel (`ub`). -/
def removeLoop (poly : Bool) (start : Otri) : Nat → Carve → Otri → Nat → Outcome (Carve × Nat)
  | 0, _, _, _ => .ub
  | fuel + 1, s, x, hullsize => do
    let r ← s.removeGhost poly x
    if r.2 = start then .ok (r.1, hullsize + 1) else removeLoop poly start fuel r.1 r.2 (hullsize + 1)

/-- triangle.c:9904-9954 `removeghosts`. -/
def removeghosts (poly : Bool) (fuel : Nat) (s : Carve) (startghost : Otri) : Outcome (Carve × Nat) :=
  let searchedge := s.mesh.sym (lprev startghost)
  let s := { s with mesh := { s.mesh with nbr := Function.update s.mesh.nbr dummytri searchedge } }
  removeLoop poly startghost fuel s startghost 0

end Carve

end Delynoi.Tri
