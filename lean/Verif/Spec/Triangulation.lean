import Verif.Model.Delaunay
import Verif.Spec.Geometry
import Mathlib.Data.Sym.Sym2
import Mathlib.Logic.Relation
/-!
# What a valid output of the triangulator is

Only talks about the arrays the library returns: nothing here mentions the code that reads them.
-/
namespace Delynoi

/-- The three sides of a triangle as unordered pairs of point indices. -/
def sides (t : Int × Int × Int) : List (Sym2 Int) := [s(t.1, t.2.1), s(t.2.1, t.2.2), s(t.2.2, t.1)]

/-- The vertices of a triangle. -/
def verts (t : Int × Int × Int) : List Int := [t.1, t.2.1, t.2.2]

/-- The unordered end points of an edge (the third component is the boundary marker). -/
def eEnds (e : Int × Int × Int) : Sym2 Int := s(e.1, e.2.1)

/-- Positions of the triangles that have the side `p`, in increasing order. -/
def incident (tris : List (Int × Int × Int)) (p : Sym2 Int) : List Int :=
  (tris.zipIdx.filter (fun t => decide (p ∈ sides t.1))).map (fun t => (t.2 : Int))

/-- Append unless present. -/
def addNew (acc : List Int) (x : Int) : List Int := if x ∈ acc then acc else acc ++ [x]

/-- Drop repetitions, keeping first occurrences. -/
def firsts (l : List Int) : List Int := l.foldl addNew []

/-- Triangle number `t` has the vertices `v`, `a`, `b`, all different. -/
def Fan3 (tris : List (Int × Int × Int)) (v a b : Int) (t : Nat) : Prop :=
  v ≠ a ∧ v ≠ b ∧ a ≠ b ∧ ∃ tt, tris[t]? = some tt ∧
    ∀ x, x ∈ verts tt ↔ x = v ∨ x = a ∨ x = b

/-- `ts` is a fan of triangles around `v`: triangle number `ts[j]` has the vertices `v`, `ns[j]`
and `ns[j+1]`. -/
def IsFan (tris : List (Int × Int × Int)) (v : Int) : List Int → List Nat → Prop
  | [_], [] => True
  | a :: b :: ns, t :: ts => Fan3 tris v a b t ∧ IsFan tris v (b :: ns) ts
  | _, _ => False

/-- Triangle number `t` has the vertex `v`. -/
def UsesVertex (tris : List (Int × Int × Int)) (v : Int) (t : Nat) : Prop :=
  ∃ tt, tris[t]? = some tt ∧ v ∈ verts tt

/-- Triangles `t` and `t'` share an edge at `v`. -/
def ShareEdge (tris : List (Int × Int × Int)) (v : Int) (t t' : Nat) : Prop :=
  ∃ x tt tt', tris[t]? = some tt ∧ tris[t']? = some tt' ∧ s(v, x) ∈ sides tt ∧ s(v, x) ∈ sides tt'

/-- The triangles around `v` hang together: any two are joined by a chain of triangles around `v`
in which neighbours share an edge at `v`. -/
def OneFan (tris : List (Int × Int × Int)) (v : Int) : Prop :=
  ∀ t t', UsesVertex tris v t → UsesVertex tris v t' → Relation.ReflTransGen (ShareEdge tris v) t t'

variable {K : Type} [Field K] [LinearOrder K]

/-- A valid triangulation: indices in range, edges are pairwise different unordered pairs,
triangles are proper, the sides of the triangles are the edges, and no edge is a side of more than
two triangles. -/
structure ValidOut (out : TriOut K) : Prop where
  edgeRange : ∀ e ∈ out.edges, (0 ≤ e.1 ∧ e.1 < out.points.length) ∧
    (0 ≤ e.2.1 ∧ e.2.1 < out.points.length) ∧ e.1 ≠ e.2.1
  edgeDistinct : (out.edges.map eEnds).Nodup
  triProper : ∀ t ∈ out.tris, ∃ a b c, vecGet out.points t.1 = .ok a ∧
    vecGet out.points t.2.1 = .ok b ∧ vecGet out.points t.2.2 = .ok c ∧ turn a b c ≠ 0
  sidesAreEdges : ∀ t ∈ out.tris, ∀ p ∈ sides t, p ∈ out.edges.map eEnds
  edgesAreSides : ∀ e ∈ out.edges, ∃ t ∈ out.tris, eEnds e ∈ sides t
  atMostTwo : ∀ e ∈ out.edges, (incident out.tris (eEnds e)).length ≤ 2

/-- Marker 1 marks exactly the edges of the boundary, which are sides of one triangle only. -/
def MarkersOk (out : TriOut K) : Prop :=
  ∀ e ∈ out.edges, e.2.2 = 1 ↔ (incident out.tris (eEnds e)).length = 1

end Delynoi
