import Verif.Spec.TriSegment
import Verif.Model.TriInsert
/-!
# Inserting a vertex

What it means that a mesh has got a new vertex, and that an edge is locally Delaunay.
-/
namespace Delynoi.Tri
variable {K : Type} [Field K] [LinearOrder K]

/-- The vertex on the other side of the edge `x` is not inside the circle through the corners of the
triangle of `x`. -/
def LocallyDelaunay (m : Heap) (L : Nat → Prop) (pos : Nat → Pt K) (x : Otri) : Prop :=
  ∀ v a b d, m.Tri3 L x v a b → m.Tri3 L (m.nbr x) d b a →
    ∀ o, sqDist o (pos a) = sqDist o (pos b) → sqDist o (pos a) = sqDist o (pos v) → sqDist o (pos a) ≤ sqDist o (pos d)

/-- The point `p` is on the segment from `a` to `b`, not at its ends. -/
def Amid (a b p : Pt K) : Prop := ∃ t : K, 0 < t ∧ t < 1 ∧ p.x = a.x + t * (b.x - a.x) ∧ p.y = a.y + t * (b.y - a.y)

/-- No edge of the mesh ends at the vertex. -/
def Fresh (m : Heap) (L : Nat → Prop) (v : Nat) : Prop :=
  ∀ x w, ¬ m.Dir L x v w ∧ ¬ m.Dir L x w v

/-- An edge from `v` to `w` at the boundary: there is no triangle on the other side. -/
def Lone (m : Heap) (L : Nat → Prop) (v w : Nat) : Prop := (∃ x, m.Dir L x v w) ∧ ∀ y, ¬ m.Dir L y w v

/-- All edges with a subsegment are still there, with the same one. -/
def KeepsSubs (m : Heap) (L : Nat → Prop) (m' : Heap) (L' : Nat → Prop) : Prop :=
  ∀ x v w, m.Dir L x v w → (m.sub x).1 ≠ 0 → ∃ y, m'.Dir L' y v w ∧ m'.sub y = m.sub x

/-- The edge is protected by a subsegment, on the boundary, or locally Delaunay. -/
def Settled (cs : Bool) (m : Heap) (L : Nat → Prop) (pos : Nat → Pt K) (x : Otri) : Prop :=
  (cs = true ∧ (m.sub x).1 ≠ 0) ∨ m.nbr x = (0, 0) ∨ LocallyDelaunay m L pos x

/-- The circle through the corners of a triangle has no vertex of the mesh inside. -/
def EmptyCircles (m : Heap) (L : Nat → Prop) (pos : Nat → Pt K) : Prop :=
  ∀ x v a b, m.Tri3 L x v a b → ∀ o, sqDist o (pos v) = sqDist o (pos a) → sqDist o (pos v) = sqDist o (pos b) →
    ∀ w w', m.Adj L w w' → sqDist o (pos v) ≤ sqDist o (pos w)

/-- The vertex `nv` has been put in the mesh: it is still a triangulation without folds, `x`
is an edge from the new vertex, the edges opposite to it are settled, the other triangles and the other
edges are old ones, and no vertex is lost. -/
structure Inserted (cs : Bool) (m : Heap) (L : Nat → Prop) (pos : Nat → Pt K) (nv : Nat) (m' : Heap) (L' : Nat → Prop) (x : Otri) : Prop where
  linked : Linked m' L'
  flat : Flat m' L' pos
  found : L' x.1 ∧ m'.org x = some nv
  settled : ∀ y, L' y.1 → m'.apex y = some nv → Settled cs m' L' pos y
  tri : ∀ y v a b, m'.Tri3 L' y v a b → v = nv ∨ a = nv ∨ b = nv ∨ ∃ y', m.Tri3 L y' v a b
  adj : ∀ v w, m'.Adj L' v w → v = nv ∨ w = nv ∨ m.Adj L v w
  verts : ∀ v w, m.Adj L v w → ∃ w', m'.Adj L' v w'

/-- The subsegment `ss` from `l` to `r` has been split at `nv`: the edge from `l` to `nv` has it now, the
one from `nv` to `r` has a new one with the same mark and the same ends of the segment, all others
have stayed at their edges, and there are no others.  The new one comes between `ss` and the subsegment
that was linked with it (if that was a subsegment made before, not `ss` itself). -/
structure SubSplit (s : Segs) (L : Nat → Prop) (s' : Segs) (L' : Nat → Prop) (ss : Osub) (r l nv : Nat) : Prop where
  kept : ∀ y v w, s.mesh.Dir L y v w → (s.mesh.sub y).1 ≠ 0 → (s.mesh.sub y).1 ≠ ss.1 →
    ∃ z, s'.mesh.Dir L' z v w ∧ s'.mesh.sub z = s.mesh.sub y
  left : ∃ z, s'.mesh.Dir L' z nv l ∧ s'.mesh.sub z = ss
  right : ∃ z, s'.mesh.Dir L' z r nv ∧ (s'.mesh.sub z).1 = s.count + 1 ∧ s'.segorg (s'.mesh.sub z) = s.segorg ss ∧
    s'.segdest (s'.mesh.sub z) = s.segdest ss
  only : ∀ z v w, s'.mesh.Dir L' z v w → (s'.mesh.sub z).1 ≠ 0 →
    (∃ y, s.mesh.Dir L y v w ∧ s.mesh.sub y = s'.mesh.sub z ∧ (s.mesh.sub y).1 ≠ ss.1) ∨
    (((v = nv ∧ w = l) ∨ (v = l ∧ w = nv)) ∧ (s'.mesh.sub z).1 = ss.1) ∨
    (((v = r ∧ w = nv) ∨ (v = nv ∧ w = r)) ∧ (s'.mesh.sub z).1 = s.count + 1)
  count : s'.count = s.count + 1
  mark : s'.smark (s.count + 1) = s.smark ss.1
  smark : ∀ n, 0 < n → n ≤ s.count → s'.smark n = s.smark n
  segend : ∀ o : Osub, o.1 ≤ s.count → s'.segend o = s.segend o
  vmark : ∀ u, s'.vmark u = if (u = r ∨ u = nv) ∧ s.vmark u = 0 then s.smark ss.1 else s.vmark u
  links : ∀ z, s'.mesh.Dir L' z r nv → (s.slink (ssym ss)).1 ≤ s.count → s.slink (ssym ss) ≠ ssym ss →
    s'.slink (ssym ss) = s'.mesh.sub z ∧ s'.slink (s'.mesh.sub z) = ssym ss ∧
    s'.slink (ssym (s'.mesh.sub z)) = s.slink (ssym ss) ∧ s'.slink (s.slink (ssym ss)) = ssym (s'.mesh.sub z) ∧
    ∀ o : Osub, o.1 ≤ s.count → o ≠ ssym ss → o ≠ s.slink (ssym ss) → s'.slink o = s.slink o

end Delynoi.Tri
