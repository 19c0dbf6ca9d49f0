import Verif.Spec.TriCdt
import Verif.Model.TriEncroach
/-!
# Encroached subsegments

What it means that a subsegment is encroached, and that a triangulation is Delaunay without
exceptions for its subsegments.
-/
namespace Delynoi.Tri
variable {K : Type} [Field K] [LinearOrder K]

/-- The midpoint. -/
def midpt (a b : Pt K) : Pt K := ⟨(a.x + b.x) / 2, (a.y + b.y) / 2⟩

/-- `p` is inside the circle with the diameter `ab`. -/
def InDiametral (a b p : Pt K) : Prop := sqDist (midpt a b) p < sqDist (midpt a b) a

/-- The edge `x` has a subsegment, whose circle has the apex of the triangle inside. -/
def Encroached (m : Heap) (L : Nat → Prop) (pos : Nat → Pt K) (x : Otri) : Prop :=
  (m.sub x).1 ≠ 0 ∧ ∃ v a b, m.Tri3 L x v a b ∧ InDiametral (pos a) (pos b) (pos v)

/-- The subsegment is encroached from this side. -/
def SideEncroached (m : Heap) (L : Nat → Prop) (pos : Nat → Pt K) (o : Osub) : Prop :=
  ∃ x, m.sub x = o ∧ Encroached m L pos x

/-- A subsegment at the boundary has no triangle on the other side. -/
def Bare (m : Heap) (L : Nat → Prop) : Prop :=
  ∀ y, L y.1 → (m.sub y).1 ≠ 0 → m.nbr y = (0, 0) → (m.stri (ssym (m.sub y))).1 = 0

/-- Subsegments are linked with other ones that have been made, or `dummysub`. -/
def Chained (s : Segs) : Prop :=
  ∀ o : Osub, o.1 ≠ 0 → o.1 ≤ s.count → (s.slink o).1 ≤ s.count ∧ s.slink o ≠ o

/-- All edges are locally Delaunay. -/
def Delaunay (m : Heap) (L : Nat → Prop) (pos : Nat → Pt K) : Prop :=
  ∀ x, L x.1 → LocallyDelaunay m L pos x

/-- The way from `v` to `w` consists of subsegments. -/
inductive Cover (m : Heap) (L : Nat → Prop) (pos : Nat → Pt K) : Nat → Nat → Prop
  | edge {v w : Nat} : HasSub m L v w → Cover m L pos v w
  | join {v u w : Nat} : Cover m L pos v u → Cover m L pos u w → Amid (pos v) (pos w) (pos u) → Cover m L pos v w

/-- `p` is between `a` and `b`, or one of them. -/
def Between (a b p : Pt K) : Prop := ∃ t : K, 0 ≤ t ∧ t ≤ 1 ∧ p = lineAt a b t

/-- Vertices have been added on subsegments: the vertices are still there, at the same places, and every
subsegment is still there, or has been divided; all new vertices are on old subsegments, and all new
subsegments are parts of old ones. -/
structure Refined (m : Heap) (L : Nat → Prop) (pos : Nat → Pt K) (m' : Heap) (L' : Nat → Prop) (pos' : Nat → Pt K) : Prop where
  place : ∀ v w, m.Adj L v w → pos' v = pos v
  verts : ∀ v w, m.Adj L v w → ∃ w', m'.Adj L' v w'
  cover : ∀ v w, HasSub m L v w → Cover m' L' pos' v w
  within : ∀ v w, HasSub m' L' v w → ∃ a b, HasSub m L a b ∧ Between (pos a) (pos b) (pos' v) ∧ Between (pos a) (pos b) (pos' w)
  added : ∀ v w, m'.Adj L' v w → (∃ w', m.Adj L v w') ∨ ∃ a b, HasSub m L a b ∧ Between (pos a) (pos b) (pos' v)

end Delynoi.Tri
