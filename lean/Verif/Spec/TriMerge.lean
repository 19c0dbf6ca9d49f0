import Verif.Spec.TriGhost
import Verif.Model.TriMerge
import Verif.Spec.Geometry
/-!
# Meshes without open edges

Bounding triangles, whose third corner is NULL, close a triangulation: every edge has a neighbour.
-/
namespace Delynoi.Tri

/-- The edge `y` is the edge `x` in the opposite direction (NULL may be an end). -/
def Fits (m : Heap) (x y : Otri) : Prop :=
  m.corner (y.1, y.2 + 1) = m.corner (x.1, x.2 + 2) ∧ m.corner (y.1, y.2 + 2) = m.corner (x.1, x.2 + 1)

/-- Every edge of the triangles `A` is linked to the same edge in the opposite direction, and the corners of
each triangle are different. -/
structure Sewn (m : Heap) (A : Nat → Prop) : Prop where
  dummy : ¬ A 0
  proper : Proper m A
  inside : ∀ x : Otri, A x.1 → A (m.nbr x).1
  back : ∀ x : Otri, A x.1 → m.nbr (m.nbr x) = x
  fits : ∀ x : Otri, A x.1 → Fits m x (m.nbr x)

/-- `v` is a corner of a triangle of `A`. -/
def IsCorner (m : Heap) (A : Nat → Prop) (v : Nat) : Prop := ∃ x : Otri, A x.1 ∧ m.corner x = some v

/-- The triangles of `A` without a NULL corner are counter-clockwise. -/
def Upright {K : Type} [Field K] [LinearOrder K] (pos : Nat → Pt K) (m : Heap) (A : Nat → Prop) : Prop :=
  ∀ x : Otri, A x.1 → ∀ a b c, m.corner (x.1, x.2 + 1) = some a → m.corner (x.1, x.2 + 2) = some b → m.corner x = some c →
    0 < turn (pos a) (pos b) (pos c)

/-- All edges of the triangles `A` are linked properly, except those in `E`. -/
def Shut (m : Heap) (A : Nat → Prop) (E : List Otri) : Prop :=
  ∀ x : Otri, A x.1 → x ∉ E → A (m.nbr x).1 ∧ m.nbr x ∉ E ∧ m.nbr (m.nbr x) = x ∧ Fits m x (m.nbr x)

/-- While the triangulations are knitted together: the mesh is closed but for the base edge and the two candidates, which
bound a gap between `ll`, `lr` and NULL; `ul` and `ur` are the vertices of the candidates.  Its vertices are `V`, and
the triangles that are not in `A` are as in `m0`. -/
structure Gap (m0 : Heap) (A V : Nat → Prop) (s : Knit) (ll lr ul ur : Nat) : Prop where
  dummy : ¬ A 0
  proper : Proper s.mesh A
  shut : Shut s.mesh A [s.base, s.left, s.right]
  ab : A s.base.1
  al : A s.left.1
  ar : A s.right.1
  vll : s.lowerleft = some ll
  vlr : s.lowerright = some lr
  vul : s.upperleft = some ul
  vur : s.upperright = some ur
  b1 : s.mesh.corner (lnext s.base) = some lr
  b2 : s.mesh.corner (lprev s.base) = some ll
  l0 : s.mesh.corner s.left = some ul
  l1 : s.mesh.corner (lnext s.left) = some ll
  l2 : s.mesh.corner (lprev s.left) = none
  r0 : s.mesh.corner s.right = some ur
  r1 : s.mesh.corner (lprev s.right) = some lr
  r2 : s.mesh.corner (lnext s.right) = none
  verts : ∀ v, V v ↔ IsCorner s.mesh A v
  frame : ∀ x : Otri, ¬ A x.1 → s.mesh.nbr x = m0.nbr x ∧ s.mesh.corner x = m0.corner x

end Delynoi.Tri
