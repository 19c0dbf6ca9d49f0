import Mathlib.Logic.Function.Basic
import Mathlib.Data.Fin.Basic
/-!
# Triangle's mesh data structure: handles, bonds, flips

`delynoi/include/delynoi/voronoi/lib/triangle.c:484-528, 918-1300`: triangles and subsegments are
blocks of pointers; a pointer to a triangle carries an orientation in its two lowest bits, one to a
subsegment in its lowest bit (`decode`, `encode`, `sdecode`, `sencode` are the identity here).

The heap is a function from addresses to contents; address 0 stands for `dummytri` and `dummysub`.
Every address can be read: that only blocks in use are reached is part of the specification
(`Verif.Spec.TriMesh`).
-/
namespace Delynoi.Tri

/-- triangle.c:508-511 `struct otri`: a triangle and one of its edges. -/
abbrev Otri := Nat × Fin 3

/-- triangle.c:525-528 `struct osub`: a subsegment and one of its sides. -/
abbrev Osub := Nat × Bool

/-- The contents of the blocks: `tri[orient]`, `tri[orient + 3]` (`none` for NULL),
`tri[orient + 6]`, and `ss[ssorient + 6]`.  Attributes, area bounds, viral infection, and the other
fields of subsegments are left out. -/
structure Heap where
  nbr : Otri → Otri
  corner : Otri → Option Nat
  sub : Otri → Osub
  stri : Osub → Otri

/-- `m->dummytri`, with the orientation of a pointer to it. -/
def dummytri : Otri := (0, 0)

/-- `m->dummysub`. -/
def dummysub : Osub := (0, false)

/-- triangle.c:965-967 `lnext`, with 925 `plus1mod3`. -/
def lnext (x : Otri) : Otri := (x.1, x.2 + 1)
/-- triangle.c:974-976 `lprev`, with 926 `minus1mod3`. -/
def lprev (x : Otri) : Otri := (x.1, x.2 + 2)

namespace Heap

/-- triangle.c:955-957 `sym`. -/
def sym (m : Heap) (x : Otri) : Otri := m.nbr x
/-- triangle.c:1060-1061 `org`. -/
def org (m : Heap) (x : Otri) : Option Nat := m.corner (lnext x)
/-- triangle.c:1063-1064 `dest`. -/
def dest (m : Heap) (x : Otri) : Option Nat := m.corner (lprev x)
/-- triangle.c:1066-1067 `apex`. -/
def apex (m : Heap) (x : Otri) : Option Nat := m.corner x
/-- triangle.c:1069-1070 `setorg`. -/
def setorg (m : Heap) (x : Otri) (v : Option Nat) : Heap := { m with corner := Function.update m.corner (lnext x) v }
/-- triangle.c:1072-1073 `setdest`. -/
def setdest (m : Heap) (x : Otri) (v : Option Nat) : Heap := { m with corner := Function.update m.corner (lprev x) v }
/-- triangle.c:1075-1076 `setapex`. -/
def setapex (m : Heap) (x : Otri) (v : Option Nat) : Heap := { m with corner := Function.update m.corner x v }
/-- triangle.c:1080-1082 `bond`. -/
def bond (m : Heap) (x y : Otri) : Heap :=
  { m with nbr := Function.update (Function.update m.nbr x y) y x }
/-- triangle.c:1275-1277 `tspivot`. -/
def tspivot (m : Heap) (x : Otri) : Osub := m.sub x
/-- triangle.c:1288-1290 `tsbond`. -/
def tsbond (m : Heap) (x : Otri) (s : Osub) : Heap :=
  { m with
    sub := Function.update m.sub x s
    stri := Function.update m.stri s x }
/-- triangle.c:1294-1295 `tsdissolve`. -/
def tsdissolve (m : Heap) (x : Otri) : Heap := { m with sub := Function.update m.sub x dummysub }

/-- triangle.c:7971-7975 and the like: attach the subsegment, or none. -/
def rebond (m : Heap) (x : Otri) (s : Osub) : Heap :=
  if s.1 = 0 then m.tsdissolve x else m.tsbond x s

/-- triangle.c:7907-8004 `flip` (without the prints and `SELF_CHECK`); `checksegments` is a field of
the mesh. -/
def flip (checksegments : Bool) (m : Heap) (flipedge : Otri) : Heap :=
  let rightvertex := m.org flipedge
  let leftvertex := m.dest flipedge
  let botvertex := m.apex flipedge
  let top := m.sym flipedge
  let farvertex := m.apex top
  let topleft := lprev top
  let toplcasing := m.sym topleft
  let topright := lnext top
  let toprcasing := m.sym topright
  let botleft := lnext flipedge
  let botlcasing := m.sym botleft
  let botright := lprev flipedge
  let botrcasing := m.sym botright
  let m := m.bond topleft botlcasing
  let m := m.bond botleft botrcasing
  let m := m.bond botright toprcasing
  let m := m.bond topright toplcasing
  let m :=
    if checksegments then
      let toplsubseg := m.tspivot topleft
      let botlsubseg := m.tspivot botleft
      let botrsubseg := m.tspivot botright
      let toprsubseg := m.tspivot topright
      let m := m.rebond topright toplsubseg
      let m := m.rebond topleft botlsubseg
      let m := m.rebond botleft botrsubseg
      m.rebond botright toprsubseg
    else m
  let m := m.setorg flipedge farvertex
  let m := m.setdest flipedge botvertex
  let m := m.setapex flipedge rightvertex
  let m := m.setorg top botvertex
  let m := m.setdest top farvertex
  m.setapex top leftvertex

/-- triangle.c:8042-8140 `unflip`. -/
def unflip (checksegments : Bool) (m : Heap) (flipedge : Otri) : Heap :=
  let rightvertex := m.org flipedge
  let leftvertex := m.dest flipedge
  let botvertex := m.apex flipedge
  let top := m.sym flipedge
  let farvertex := m.apex top
  let topleft := lprev top
  let toplcasing := m.sym topleft
  let topright := lnext top
  let toprcasing := m.sym topright
  let botleft := lnext flipedge
  let botlcasing := m.sym botleft
  let botright := lprev flipedge
  let botrcasing := m.sym botright
  let m := m.bond topleft toprcasing
  let m := m.bond botleft toplcasing
  let m := m.bond botright botlcasing
  let m := m.bond topright botrcasing
  let m :=
    if checksegments then
      let toplsubseg := m.tspivot topleft
      let botlsubseg := m.tspivot botleft
      let botrsubseg := m.tspivot botright
      let toprsubseg := m.tspivot topright
      let m := m.rebond botleft toplsubseg
      let m := m.rebond botright botlsubseg
      let m := m.rebond topright botrsubseg
      m.rebond topleft toprsubseg
    else m
  let m := m.setorg flipedge botvertex
  let m := m.setdest flipedge farvertex
  let m := m.setapex flipedge leftvertex
  let m := m.setorg top farvertex
  let m := m.setdest top botvertex
  m.setapex top rightvertex

end Heap
end Delynoi.Tri
