import Verif.Spec.Voronoi
/-!
# Voronoi regions and Delaunay triangulations

Only talks about points and the arrays of the triangulation.
-/
namespace Delynoi
variable {K : Type} [Field K] [LinearOrder K]

/-- Point number `v` has the coordinates `p` and is a vertex of a triangle. -/
def SiteAt (out : TriOut K) (v : Int) (p : Pt K) : Prop :=
  vecGet out.points v = .ok p ∧ ∃ t, UsesVertex out.tris v t

/-- The circumscribed circle of every triangle contains no used point in its interior. -/
def EmptyCircles (out : TriOut K) : Prop :=
  ∀ t ∈ out.tris, ∀ a b c q, vecGet out.points t.1 = .ok a → vecGet out.points t.2.1 = .ok b →
    vecGet out.points t.2.2 = .ok c → sqDist q a = sqDist q b → sqDist q a = sqDist q c →
    ∀ w pw, SiteAt out w pw → sqDist q a ≤ sqDist q pw

/-- The circle on every boundary edge at `v` as diameter contains no used point in its interior
(nothing is asked of a point that is not on the boundary). -/
def NoEncroachmentAt (out : TriOut K) (v : Int) : Prop :=
  ∀ a pv pa, BoundaryEdge out.tris v a → vecGet out.points v = .ok pv → vecGet out.points a = .ok pa →
    ∀ w pw, SiteAt out w pw → sqDist ⟨(pv.x + pa.x) / 2, (pv.y + pa.y) / 2⟩ pv ≤
      sqDist ⟨(pv.x + pa.x) / 2, (pv.y + pa.y) / 2⟩ pw

/-- `x` is a convex combination of the points `l`. -/
def InHull (l : List (Pt K)) (x : Pt K) : Prop :=
  ∃ ws : List K, ws.length = l.length ∧ (∀ w ∈ ws, 0 ≤ w) ∧ ws.sum = 1 ∧
    x.x = (List.zipWith (fun w q => w * q.x) ws l).sum ∧
    x.y = (List.zipWith (fun w q => w * q.y) ws l).sum

/-- `x` belongs to the Voronoi region of the site `pv`, where squared distances are compared with an
error of at most `2 tol` times the distance of the sites (sum of coordinate differences).  For
`tol = 0` this is the Voronoi region. -/
def NearRegion (tol : K) (out : TriOut K) (pv x : Pt K) : Prop :=
  ∀ w pw, SiteAt out w pw → sqDist x pv ≤ sqDist x pw + 2 * tol * (|pv.x - pw.x| + |pv.y - pw.y|)

end Delynoi
