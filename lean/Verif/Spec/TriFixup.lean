import Verif.Spec.TriInsert
import Verif.Model.TriFixup
/-!
# Restoring the Delaunay property at a vertex

What it means that the edge `e`, opposite to the vertex `nv`, has been replaced by settled edges.
-/
namespace Delynoi.Tri
variable {K : Type} [Field K] [LinearOrder K]

/-- The mesh `m'` comes from `m` by flips that give `nv` more edges, starting with the edge `e` opposite
to it:
* it is still a triangulation without folds, with the same vertices, boundary and subsegments;
* triangles without `nv`, and edges that do not end there, are old ones; `nv` keeps its edges;
* the other triangles at `nv` are untouched;
* edges opposite to `nv` are settled, except those other than `e` that were not before. -/
structure FixedUp (m : Heap) (L : Nat → Prop) (pos : Nat → Pt K) (nv : Nat) (e : Otri) (m' : Heap) : Prop where
  linked : Linked m' L
  flat : Flat m' L pos
  segmented : Segmented m' L
  kept : KeepsSubs m L m' L
  back : KeepsSubs m' L m L
  tri : ∀ y v a b, m'.Tri3 L y v a b → v = nv ∨ a = nv ∨ b = nv ∨ m.Tri3 L y v a b
  adj : ∀ v w, m'.Adj L v w → v = nv ∨ w = nv ∨ m.Adj L v w
  star : ∀ v, m.Adj L nv v → m'.Adj L nv v
  verts : ∀ v w, m.Adj L v w → ∃ w', m'.Adj L v w'
  lone : ∀ v w, Lone m' L v w ↔ Lone m L v w
  apart : ∀ t, L t → t ≠ e.1 → (∃ o, m.corner (t, o) = some nv) → ∀ o, m'.corner (t, o) = m.corner (t, o)
  settled : ∀ y, L y.1 → m'.apex y = some nv → Settled true m' L pos y ∨ (y ≠ e ∧ m.apex y = some nv ∧ ¬ Settled true m L pos y)

/-- Only the edge between `a` and `b` has gone, and only the one between `c` and `d` is new; all other
subsegments are where they were, and `cd` has one. -/
structure Swapped (s : Segs) (L : Nat → Prop) (s' : Segs) (a b c d : Nat) : Prop where
  adj : ∀ v w, s'.mesh.Adj L v w ↔
    (s.mesh.Adj L v w ∧ ¬ (v = a ∧ w = b) ∧ ¬ (v = b ∧ w = a)) ∨ (v = c ∧ w = d) ∨ (v = d ∧ w = c)
  sub : HasSub s'.mesh L c d
  kept : ∀ x v w, s.mesh.Dir L x v w → (s.mesh.sub x).1 ≠ 0 → ∃ y, s'.mesh.Dir L y v w ∧ s'.mesh.sub y = s.mesh.sub x
  back : ∀ y v w, s'.mesh.Dir L y v w → (s'.mesh.sub y).1 ≠ 0 → (v = c ∧ w = d) ∨ (v = d ∧ w = c) ∨
    ∃ x, s.mesh.Dir L x v w ∧ s'.mesh.sub y = s.mesh.sub x

end Delynoi.Tri
