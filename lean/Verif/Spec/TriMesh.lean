import Verif.Model.TriMesh
import Verif.Spec.Geometry
/-!
# Triangulations in memory

What it means that a heap holds a triangulation of points in the plane; nothing here mentions the
functions that change it.
-/
namespace Delynoi.Tri
variable {K : Type} [Field K] [LinearOrder K]

/-- The oriented edge `x` of a triangle in use runs from `v` to `w`. -/
def Heap.Dir (m : Heap) (L : Nat → Prop) (x : Otri) (v w : Nat) : Prop :=
  L x.1 ∧ m.corner (x.1, x.2 + 1) = some v ∧ m.corner (x.1, x.2 + 2) = some w

/-- There is an edge between `v` and `w`. -/
def Heap.Adj (m : Heap) (L : Nat → Prop) (v w : Nat) : Prop :=
  ∃ x, m.Dir L x v w ∨ m.Dir L x w v

/-- The triangle of `x` has the corners `v`, `a`, `b` in this order, starting opposite to `x`. -/
def Heap.Tri3 (m : Heap) (L : Nat → Prop) (x : Otri) (v a b : Nat) : Prop :=
  L x.1 ∧ m.corner x = some v ∧ m.corner (x.1, x.2 + 1) = some a ∧ m.corner (x.1, x.2 + 2) = some b

/-- The links of the triangles in use (`L`): every triangle has three corners; an oriented edge
belongs to one triangle; triangles are linked exactly if they have an edge in opposite directions;
edges without a neighbour are linked to `dummytri`. -/
structure Linked (m : Heap) (L : Nat → Prop) : Prop where
  dummy : ¬ L 0
  corners : ∀ t, L t → ∀ o, ∃ v, m.corner (t, o) = some v
  once : ∀ x y v w, m.Dir L x v w → m.Dir L y v w → x = y
  links : ∀ x, L x.1 → m.nbr x = (0, 0) ∨
    ∃ v w, m.Dir L x v w ∧ m.Dir L (m.nbr x) w v
  complete : ∀ x y v w, m.Dir L x v w → m.Dir L y w v → m.nbr x = y

/-- The links of the subsegments: an edge with a subsegment is known to it; both sides of an edge
have the two sides of the same subsegment, or none; no other edge has it. -/
structure Segmented (m : Heap) (L : Nat → Prop) : Prop where
  back : ∀ x, L x.1 → (m.sub x).1 ≠ 0 → m.stri (m.sub x) = x
  none : ∀ x, L x.1 → (m.sub x).1 = 0 → m.sub x = (0, false)
  both : ∀ x, L x.1 → L (m.nbr x).1 → (m.sub x).1 ≠ 0 → m.sub (m.nbr x) = ((m.sub x).1, !(m.sub x).2)
  neither : ∀ x, L x.1 → L (m.nbr x).1 → (m.sub x).1 = 0 → (m.sub (m.nbr x)).1 = 0
  same : ∀ x y, L x.1 → L y.1 → (m.sub x).1 ≠ 0 → (m.sub x).1 = (m.sub y).1 → y = x ∨ y = m.nbr x

/-- The triangles lie in the plane without folds: they are counter-clockwise, no edge at a corner
of a triangle runs into it, and edges at a vertex have different directions. -/
structure Flat (m : Heap) (L : Nat → Prop) (pos : Nat → Pt K) : Prop where
  ccw : ∀ x v a b, m.Tri3 L x v a b → 0 < turn (pos v) (pos a) (pos b)
  cone : ∀ x v a b w, m.Tri3 L x v a b → m.Adj L v w →
    ¬ (0 < turn (pos v) (pos a) (pos w) ∧ 0 < turn (pos v) (pos w) (pos b))
  rays : ∀ v w w', m.Adj L v w → m.Adj L v w' → turn (pos v) (pos w) (pos w') = 0 →
    0 < ((pos w).x - (pos v).x) * ((pos w').x - (pos v).x) + ((pos w).y - (pos v).y) * ((pos w').y - (pos v).y) →
    w = w'

end Delynoi.Tri
