import Verif.Model.Polygon
import Verif.Model.Triangle
/-!
# Order of polygons, area of a list of points, triangles with a vector of centers

Polygon.cpp:287-289, geometryFunctions.cpp:41-50, Triangle.cpp:15-19.
-/
namespace Delynoi
variable {K : Type} [Field K] [LinearOrder K]

/-- Polygon.cpp:287-289 `operator<`; `size_t` is unsigned. -/
def Poly.lt (a b : Poly K) : Bool := a.hash.ult b.hash

/-- geometryFunctions.cpp:45-47: the loop of `area(points)`; `m` rounds from `i` on. -/
def areaFrom (p : List (Pt K)) : Nat → Nat → K → Outcome K
  | _, 0, s => .ok s
  | i, m + 1, s => do
    let a ← vecGet p ((i % p.length : Nat) : Int)
    let b ← vecGet p (((i + 1) % p.length : Nat) : Int)
    let o ← vecGet p 0
    areaFrom p (i + 1) m (s + triangleArea a b o)

/-- geometryFunctions.cpp:41-50 `area(points)`. -/
def areaOfPoints (p : List (Pt K)) : Outcome K := areaFrom p 0 p.length 0

/-- Triangle.cpp:15-19, the constructor with a vector of centers: circumcenter, its index, and the vector afterwards
(a center with NaN or infinite coordinates is `none`).  The base class is `Poly.ofIndices`, which never fails. -/
def triangleInto (points : List Int) (p : List (Pt K)) (centers : List (Option (Pt K))) :
    Outcome (Option (Pt K) × Nat × List (Option (Pt K))) := do
  let i ← vecGet points 0
  let a ← vecGet p i
  let j ← vecGet points 1
  let b ← vecGet p j
  let k ← vecGet points 2
  let c ← vecGet p k
  let q := circumcenter a b c
  return (q, centers.length, centers ++ [q])

end Delynoi
