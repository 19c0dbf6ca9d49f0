import Verif.Model.Segment
/-!
# Bounding boxes (delynoi/src/models/polygon/BoundingBox.cpp)
-/
namespace Delynoi

/-- BoundingBox.h: the two corners as given. -/
structure BBox (K : Type) where
  p1 : Pt K
  p2 : Pt K

namespace BBox
variable {K : Type} [Field K] [LinearOrder K]

/-- BoundingBox.cpp:16-18. -/
def width (b : BBox K) : K := |b.p1.x - b.p2.x|
/-- BoundingBox.cpp:20-22. -/
def height (b : BBox K) : K := |b.p1.y - b.p2.y|
/-- BoundingBox.cpp:24-26. -/
def xMin (b : BBox K) : K := min b.p1.x b.p2.x
/-- BoundingBox.cpp:28-30. -/
def yMin (b : BBox K) : K := min b.p1.y b.p2.y
/-- BoundingBox.cpp:32-34. -/
def xMax (b : BBox K) : K := max b.p1.x b.p2.x
/-- BoundingBox.cpp:36-38. -/
def yMax (b : BBox K) : K := max b.p1.y b.p2.y

/-- BoundingBox.cpp:40-43 `operator==`. -/
def eq (tol : K) (a b : BBox K) : Bool :=
  (a.p1.eqTol tol b.p1 && a.p2.eqTol tol b.p2) || (a.p2.eqTol tol b.p1 && a.p1.eqTol tol b.p2)

/-- BoundingBox.cpp:45-53 `getSegments`. -/
def getSegments (b : BBox K) : List (Pt K × Pt K) :=
  let p3 : Pt K := ⟨b.p2.x, b.p1.y⟩
  let p4 : Pt K := ⟨b.p1.x, b.p2.y⟩
  [(b.p1, p3), (p3, b.p2), (b.p2, p4), (p4, b.p1)]

/-- BoundingBox.cpp:55-57 `contains`. -/
def contains (b : BBox K) (p : Pt K) : Bool :=
  decide (p.x ≥ b.xMin) && decide (p.x ≤ b.xMax) && decide (p.y ≥ b.yMin) && decide (p.y ≤ b.yMax)

end BBox
end Delynoi
