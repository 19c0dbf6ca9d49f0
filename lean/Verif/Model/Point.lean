import Mathlib.Algebra.Order.Field.Basic
import Mathlib.Algebra.Order.Group.Abs
/-!
# Points and elementary functions

`K` stands for `double`: an arbitrary linearly ordered field, i.e. exact arithmetic.  The
tolerance of the global `DelynoiConfig` is an explicit argument `tol`.
-/
namespace Delynoi

/-- delynoi/include/delynoi/models/basic/Point.h: coordinates.  The flags `isBoundaryPoint` and
`isEmpty` are modelled only where they matter (`Verif.Model.Polygon`). -/
@[ext] structure Pt (K : Type) where
  x : K
  y : K
  deriving DecidableEq, Repr

variable {K : Type} [Field K] [LinearOrder K]

namespace Pt

/-- Point.cpp:36-41 `operator==`. -/
def eqTol (tol : K) (a b : Pt K) : Bool :=
  decide (|a.x - b.x| < tol) && decide (|a.y - b.y| < tol)

/-- Point.cpp:64-75 `operator<`. -/
def ltTol (tol : K) (a b : Pt K) : Bool :=
  if |a.x - b.x| < tol then
    if |a.y - b.y| < tol then false
    else decide (a.y < b.y)
  else decide (a.x < b.x)

/-- Point.cpp:44-46 `operator-`. -/
def sub (a b : Pt K) : Pt K := ⟨a.x - b.x, a.y - b.y⟩

/-- Point.cpp:32-34 and delynoi_utilities.cpp:20-22 `squareNorm`. -/
def squareNorm (a : Pt K) : K := a.x ^ 2 + a.y ^ 2

end Pt

/-- delynoi_utilities.cpp:16-18 `crossProduct`. -/
def crossProduct (a b : Pt K) : K := a.x * b.y - a.y * b.x

/-- delynoi_utilities.cpp:28-30 `orientation`. -/
def orientation (p q r : Pt K) : K := crossProduct (q.sub p) (r.sub p)

/-- geometryFunctions.cpp:7-12 `area2`. -/
def area2 (p1 p2 p3 : Pt K) : K := crossProduct (p2.sub p1) (p3.sub p1)

/-- geometryFunctions.cpp:14-18 `collinear` for points. -/
def collinear (tol : K) (p1 p2 p3 : Pt K) : Bool := decide (|area2 p1 p2 p3| < tol)

/-- geometryFunctions.cpp:20-23 `collinear` for two segments. -/
def collinearSeg (tol : K) (a b c d : Pt K) : Bool :=
  collinear tol a b c && collinear tol a b d

/-- geometryFunctions.cpp:25-27 `triangleArea`. -/
def triangleArea (p1 p2 origin : Pt K) : K := area2 p1 p2 origin / 2

end Delynoi
