import Verif.Spec.Nearest
/-!
# Triangulations of a domain whose Voronoi cells tile it

Only talks about points and the arrays of the triangulation.
-/
namespace Delynoi
variable {K : Type} [Field K] [LinearOrder K]

/-- The sides of a triangle as ordered pairs, in the order in which its vertices are listed. -/
def dsides (t : Int × Int × Int) : List (Int × Int) := [(t.1, t.2.1), (t.2.1, t.2.2), (t.2.2, t.1)]

/-- Every triangle is listed counter-clockwise. -/
def CounterClockwise (out : TriOut K) : Prop :=
  ∀ t ∈ out.tris, ∀ a b c, vecGet out.points t.1 = .ok a → vecGet out.points t.2.1 = .ok b →
    vecGet out.points t.2.2 = .ok c → 0 < turn a b c

/-- No two triangles lie on the same side of an edge. -/
def DirectedOnce (tris : List (Int × Int × Int)) : Prop :=
  ∀ (i j : Nat) ti tj e, tris[i]? = some ti → tris[j]? = some tj → e ∈ dsides ti → e ∈ dsides tj → i = j

/-- No edge at a vertex `v` of a triangle runs into the triangle. -/
def NoOverlap (out : TriOut K) : Prop :=
  ∀ t ∈ out.tris, ∀ v a b, (v, a) ∈ dsides t → (b, v) ∈ dsides t →
    ∀ u ∈ out.tris, ∀ w, s(v, w) ∈ sides u →
    ∀ pv pa pb pw, vecGet out.points v = .ok pv → vecGet out.points a = .ok pa →
      vecGet out.points b = .ok pb → vecGet out.points w = .ok pw →
      ¬ (0 < turn pv pa pw ∧ 0 < turn pv pw pb)

/-- A conforming Delaunay triangulation without overlaps: triangles are listed counter-clockwise, no
two lie on the same side of an edge, no edge runs into a triangle, used points with different numbers
are different, circumscribed circles and the circles on boundary edges are empty. -/
structure Conforming (out : TriOut K) : Prop where
  ccw : CounterClockwise out
  once : DirectedOnce out.tris
  noOverlap : NoOverlap out
  distinct : ∀ v w p, SiteAt out v p → SiteAt out w p → v = w
  empty : EmptyCircles out
  noEncroachment : ∀ v, NoEncroachmentAt out v

/-- Circumcenters, and middles and ends of boundary edges. -/
def Feature (out : TriOut K) (q : Pt K) : Prop := IsCenterOf out q ∨ OnBoundaryEdge out q

/-- The tolerance is so small that it does not merge anything: circumcenters, middles and ends of
boundary edges that are close are equal, and closeness of their coordinates is transitive. -/
structure MergesNothing (tol : K) (out : TriOut K) : Prop where
  separated : TolSeparated tol {q | Feature out q}
  eq : ∀ p q, Feature out p → Feature out q → Close tol p q → p = q

/-- Boundary points that are on the line of the middles of their boundary edges up to the tolerance
are exactly on it. -/
def MergesNoCorner (tol : K) (out : TriOut K) : Prop :=
  ∀ v a b pv pa pb, BoundaryEdge out.tris v a → BoundaryEdge out.tris v b →
    vecGet out.points v = .ok pv → vecGet out.points a = .ok pa → vecGet out.points b = .ok pb →
    |turn (⟨(pv.x + pa.x) / 2, (pv.y + pa.y) / 2⟩ : Pt K) pv ⟨(pv.x + pb.x) / 2, (pv.y + pb.y) / 2⟩| < tol →
    turn (⟨(pv.x + pa.x) / 2, (pv.y + pa.y) / 2⟩ : Pt K) pv ⟨(pv.x + pb.x) / 2, (pv.y + pb.y) / 2⟩ = 0

/-- `A` is the area of the part of the Voronoi cell of the point number `v` in the triangle `t`: of the
quadrilateral between `v`, the middles of the sides at `v`, and the circumcenter, counted with sign (the
circumcenter may be outside of the triangle).  The sides at `v` are taken in counter-clockwise order.
It is zero for triangles without the vertex `v`. -/
def IsShare (out : TriOut K) (v : Int) (t : Int × Int × Int) (A : K) : Prop :=
  (v ∉ verts t ∧ A = 0) ∨
  ∃ a b pv pa pb q, (v, a) ∈ dsides t ∧ (b, v) ∈ dsides t ∧ vecGet out.points v = .ok pv ∧
    vecGet out.points a = .ok pa ∧ vecGet out.points b = .ok pb ∧ sqDist q pv = sqDist q pa ∧
    sqDist q pv = sqDist q pb ∧
    A = turn pv ⟨(pv.x + pa.x) / 2, (pv.y + pa.y) / 2⟩ q / 2 +
      turn pv q ⟨(pv.x + pb.x) / 2, (pv.y + pb.y) / 2⟩ / 2

end Delynoi
