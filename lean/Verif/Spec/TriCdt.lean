import Verif.Spec.TriInsert
/-! # Constrained Delaunay triangulations -/
namespace Delynoi.Tri
variable {K : Type} [Field K] [LinearOrder K]

/-- Every edge that has triangles on both sides and no subsegment is locally Delaunay; with `cs` false
the subsegments do not count. -/
def ConstrainedDelaunay (cs : Bool) (m : Heap) (L : Nat → Prop) (pos : Nat → Pt K) : Prop :=
  ∀ x, L x.1 → m.nbr x ≠ (0, 0) → (cs = true → (m.sub x).1 = 0) → LocallyDelaunay m L pos x

end Delynoi.Tri
