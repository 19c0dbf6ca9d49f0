import Verif.Model.Delaunay
/-!
# The two users of the Delaunay generator

TriangleVoronoiGenerator.cpp and DelaunayTriangulationGenerator.cpp.
-/
namespace Delynoi
variable {K : Type} [Field K] [LinearOrder K]

/-- TriangleVoronoiGenerator.h:16-17: the two meshes. -/
structure TriVoronoi (K : Type) where
  voronoi : Mesh K (Poly K)
  delaunay : Mesh K (Poly K)
  deriving DecidableEq

namespace TriVoronoi

/-- TriangleVoronoiGenerator.cpp:5-11 constructor.  The region is passed by value
(`Region.copy`); `getConformingDelaunay` copies the generator's fields, so the mesh built on line 9
and the diagram built on line 10 both start from them. -/
def new (tol : K) (lib : Triangulator K) (seeds : List (Pt K)) (region : Region K) :
    Outcome (TriVoronoi K) := do
  let g ← (DelGen.new seeds region.copy).ensure tol lib .conforming []
  let d ← initializeMesh tol (Poly.ofIndices tol) g.info
  let v ← Delynoi.voronoi tol g.info
  return ⟨v, d⟩

/-- TriangleVoronoiGenerator.cpp:13-15. -/
def getMesh (t : TriVoronoi K) : Mesh K (Poly K) := t.voronoi

/-- TriangleVoronoiGenerator.cpp:17-19. -/
def getTriangulation (t : TriVoronoi K) : Mesh K (Poly K) := t.delaunay

end TriVoronoi

/-- DelaunayTriangulationGenerator.cpp:3-10 `triangulate`: all of `points` are seeds. -/
def delaunayTriangulate (tol : K) (lib : Triangulator K) (p : Poly K) (points : List (Pt K)) :
    Outcome (List (MTri K)) := do
  let r ← Region.ofPolygon tol p points
  let g ← (DelGen.new points r.copy).ensure tol lib .constrained []
  let m ← initializeMesh tol mkTriangle g.info
  return m.polygons

end Delynoi
