import Verif.Spec.TriMesh
import Verif.Model.TriLocate
/-!
# Where a point is

What the four answers of Triangle's point location mean, in terms of the corners of the edge
returned.
-/
namespace Delynoi.Tri
variable {K : Type} [Field K] [LinearOrder K]

/-- The answer is right: the edge belongs to the mesh, and
* its origin is the point, or
* the point is on the edge, between its endpoints, or
* the point is strictly inside its triangle, or
* the point is strictly to the right of the edge, behind which the mesh ends (or, when the search is
  to stop at subsegments, which has one). -/
def Answer (m : Heap) (L : Nat → Prop) (pos : Nat → Pt K) (p : Pt K) (stop : Bool) : Located → Otri → Prop
  | .onVertex, y => ∃ v w, m.Dir L y v w ∧ pos v = p
  | .onEdge, y => ∃ v w, m.Dir L y v w ∧ ∃ t, 0 < t ∧ t < 1 ∧ p = lineAt (pos v) (pos w) t
  | .inTriangle, y => ∃ v a b, m.Tri3 L y v a b ∧ 0 < turn (pos v) (pos a) p ∧ 0 < turn (pos a) (pos b) p ∧
      0 < turn (pos b) (pos v) p
  | .outside, y => ∃ v w, m.Dir L y v w ∧ turn (pos v) (pos w) p < 0 ∧
      (m.nbr y = (0, 0) ∨ (stop = true ∧ (m.sub y).1 ≠ 0))

/-- The point is to the left of the edge, or on its line outside the edge. -/
def Ahead (m : Heap) (L : Nat → Prop) (pos : Nat → Pt K) (p : Pt K) (x : Otri) : Prop :=
  ∃ v w, m.Dir L x v w ∧ (0 < turn (pos v) (pos w) p ∨ ∃ t, (t < 0 ∨ 1 < t) ∧ p = lineAt (pos v) (pos w) t)

/-- The triangles are counter-clockwise. -/
def Ccw (m : Heap) (L : Nat → Prop) (pos : Nat → Pt K) : Prop :=
  ∀ x v a b, m.Tri3 L x v a b → 0 < turn (pos v) (pos a) (pos b)

/-- The point is not beyond any edge of the boundary. -/
def Inside (m : Heap) (L : Nat → Prop) (pos : Nat → Pt K) (p : Pt K) : Prop :=
  ∀ x v w, m.Dir L x v w → m.nbr x = (0, 0) → 0 ≤ turn (pos v) (pos w) p

end Delynoi.Tri
