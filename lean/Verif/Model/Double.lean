import Verif.Model.Polygon
import Verif.Model.BoundingBox
import Verif.Model.Text
import Verif.Model.Triangle
import Mathlib.Data.Int.Log
/-!
# Rounding

The rest of the model computes exactly.  Here the functions on coordinates are transcribed once
more with every arithmetic operation followed by a rounding `r : ℚ → ℚ`; with `r := id` they are
the functions of the exact model (`Verif.Proofs.Double`), with `r := fl` they are what C++
computes with IEEE binary64, round to nearest, ties to even, gradual underflow.  Not modelled:
overflow (`fl` has no largest exponent), negative zero (it compares equal to zero), and compilers
that contract `a * b + c` to a fused operation or keep excess precision.
-/
namespace Delynoi

/-- Exponent of the last place of a binary64 number of the size of `x`. -/
def ulpExp (x : ℚ) : Int := max (Int.log 2 |x| - 52) (-1074)

/-- Rounding to binary64, to nearest, ties to even (IEEE 754 section 4.3.1). -/
def fl (x : ℚ) : ℚ := (roundHE (x / (2 : ℚ) ^ ulpExp x) : ℚ) * (2 : ℚ) ^ ulpExp x

namespace Rnd
variable (r : ℚ → ℚ)

/-- Point.cpp:36-41 `operator==`. -/
def eqTol (tol : ℚ) (a b : Pt ℚ) : Bool :=
  decide (|r (a.x - b.x)| < tol) && decide (|r (a.y - b.y)| < tol)

/-- Point.cpp:64-75 `operator<`. -/
def ltTol (tol : ℚ) (a b : Pt ℚ) : Bool :=
  if |r (a.x - b.x)| < tol then
    if |r (a.y - b.y)| < tol then false
    else decide (a.y < b.y)
  else decide (a.x < b.x)

/-- Point.cpp:44-46 `operator-`. -/
def sub (a b : Pt ℚ) : Pt ℚ := ⟨r (a.x - b.x), r (a.y - b.y)⟩

/-- delynoi_utilities.cpp:16-18 `crossProduct`. -/
def crossProduct (a b : Pt ℚ) : ℚ := r (r (a.x * b.y) - r (a.y * b.x))

/-- delynoi_utilities.cpp:28-30 `orientation`. -/
def orientation (p q s : Pt ℚ) : ℚ := crossProduct r (sub r q p) (sub r s p)

/-- geometryFunctions.cpp:7-12 `area2`. -/
def area2 (p1 p2 p3 : Pt ℚ) : ℚ := crossProduct r (sub r p2 p1) (sub r p3 p1)

/-- geometryFunctions.cpp:14-18 `collinear`. -/
def collinear (tol : ℚ) (p1 p2 p3 : Pt ℚ) : Bool := decide (|area2 r p1 p2 p3| < tol)

/-- geometryFunctions.cpp:25-27 `triangleArea`. -/
def triangleArea (p1 p2 origin : Pt ℚ) : ℚ := r (area2 r p1 p2 origin / 2)

/-- `acc += t` over a list of terms, as in all summation loops. -/
def sumLoop (acc : ℚ) (ts : List ℚ) : ℚ := ts.foldl (fun s t => r (s + t)) acc

/-- geometryFunctions.cpp:29-39 `area`. -/
def fanArea : List (Pt ℚ) → ℚ
  | [] => 0
  | a :: l => sumLoop r 0 ((cycPairs (a :: l)).map (fun e => triangleArea r e.1 e.2 a))

/-- Polygon.cpp:107-116 `signedArea`. -/
def signedArea (l : List (Pt ℚ)) : ℚ :=
  r (1 / 2 * sumLoop r 0 ((cycPairs l).map (fun e => r (r (e.1.x * e.2.y) - r (e.2.x * e.1.y)))))

/-- Polygon.cpp:235 the term of one edge. -/
def clockTerm (a b : Pt ℚ) : ℚ := r (r (b.x - a.x) * r (b.y + a.y))

/-- Polygon.cpp:224-240 `isClockwise`. -/
def isClockwise : List (Pt ℚ) → Outcome Bool
  | [] => .ub
  | a :: l =>
    let z := (a :: l).getLast (by simp)
    .ok (decide (sumLoop r (clockTerm r z a) (((a :: l).zip l).map (fun e => clockTerm r e.1 e.2)) > 0))

/-- IndexSegment.cpp:24-26 `middlePoint`. -/
def middle (a b : Pt ℚ) : Pt ℚ := ⟨r (r (a.x + b.x) / 2), r (r (a.y + b.y) / 2)⟩

/-- Polygon.cpp:322-336 `getAverage`; `none` for the empty polygon. -/
def getAverage (l : List (Pt ℚ)) : Option (Pt ℚ) :=
  if l = [] then none
  else some ⟨r (sumLoop r 0 (l.map Pt.x) / l.length), r (sumLoop r 0 (l.map Pt.y) / l.length)⟩

/-- The sub-expression `v >= a || abs(v-a) < tol` of Segment.cpp:26-29. -/
def geTol (tol v a : ℚ) : Bool := decide (v ≥ a) || decide (|r (v - a)| < tol)

/-- The sub-expression `v <= a || abs(v-a) < tol` of Segment.cpp:26-29. -/
def leTol (tol v a : ℚ) : Bool := decide (v ≤ a) || decide (|r (v - a)| < tol)

/-- Segment.cpp:23-33 `contains(point, p1, p2)`. -/
def contains (tol : ℚ) (point p1 p2 : Pt ℚ) : Bool :=
  let test1 := (geTol r tol point.x p1.x && leTol r tol point.x p2.x) ||
    (geTol r tol point.x p2.x && leTol r tol point.x p1.x)
  let test2 := (geTol r tol point.y p1.y && leTol r tol point.y p2.y) ||
    (geTol r tol point.y p2.y && leTol r tol point.y p1.y)
  test1 && test2 &&
    decide (|r (r (r (p1.x * r (p2.y - point.y)) + r (p2.x * r (point.y - p1.y))) +
      r (point.x * r (p1.y - p2.y)))| < tol)

/-- One edge of the crossing test, Polygon.cpp:159-165. -/
def crosses (pI pJ q : Pt ℚ) : Bool :=
  ((decide (pI.y ≤ q.y) && decide (pJ.y > q.y)) || (decide (pJ.y ≤ q.y) && decide (pI.y > q.y))) &&
    decide (r (pI.x + r (r (r (q.y - pI.y) / r (pJ.y - pI.y)) * r (pJ.x - pI.x))) < q.x)

/-- Polygon.cpp:151-167, as `oddLoop`. -/
def oddLoop (tol : ℚ) (q : Pt ℚ) : Pt ℚ → Bool → List (Pt ℚ) → Bool
  | _, odd, [] => odd
  | pJ, odd, pI :: l =>
    if eqTol r tol pI pJ then oddLoop tol q pJ odd l
    else oddLoop tol q pI (if crosses r pI pJ q then !odd else odd) l

/-- Polygon.cpp:147-174 `containsPoint`. -/
def containsPoint (tol : ℚ) (l : List (Pt ℚ)) (q : Pt ℚ) : Bool :=
  match l.getLast? with
  | none => (cycPairs l).any (fun e => contains r tol q e.1 e.2)
  | some z => if oddLoop r tol q z false l then true
    else (cycPairs l).any (fun e => contains r tol q e.1 e.2)

/-- Polygon.cpp:195-209 `isConvex`. -/
def isConvex : List (Pt ℚ) → Outcome Bool
  | a :: b :: c :: l =>
    let det := orientation r a b c
    .ok ((cycTriples (a :: b :: c :: l)).tail.all
      (fun t => decide (¬ r (det * orientation r t.1 t.2.1 t.2.2) < 0)))
  | _ => .ub

/-- Denominator used in Segment.cpp:57-58. -/
def den (p1 p2 o1 o2 : Pt ℚ) : ℚ :=
  r (r (-r (o2.x - o1.x) * r (p2.y - p1.y)) + r (r (p2.x - p1.x) * r (o2.y - o1.y)))

/-- Numerator of `s`, Segment.cpp:57. -/
def numS (p1 p2 o1 : Pt ℚ) : ℚ :=
  r (r (-r (p2.y - p1.y) * r (p1.x - o1.x)) + r (r (p2.x - p1.x) * r (p1.y - o1.y)))

/-- Numerator of `t`, Segment.cpp:58. -/
def numT (p1 o1 o2 : Pt ℚ) : ℚ :=
  r (r (r (o2.x - o1.x) * r (p1.y - o1.y)) - r (r (o2.y - o1.y) * r (p1.x - o1.x)))

/-- Segment.cpp:61-62, the intersection point with parameter `t`. -/
def along (p1 p2 : Pt ℚ) (t : ℚ) : Pt ℚ :=
  ⟨r (p1.x + r (t * r (p2.x - p1.x))), r (p1.y + r (t * r (p2.y - p1.y)))⟩

/-- Segment.cpp:48-71 `intersects`; a denominator that is computed to be zero gives infinite or NaN
parameters, which fail the comparisons. -/
def intersects (tol : ℚ) (p1 p2 o1 o2 : Pt ℚ) : Option (Pt ℚ) :=
  let d := den r p1 p2 o1 o2
  if d = 0 then none
  else
    let s := r (numS r p1 p2 o1 / d)
    let t := r (numT r p1 o1 o2 / d)
    if s ≥ r (0 - tol) ∧ s ≤ r (1 + tol) ∧ t ≥ r (0 - tol) ∧ t ≤ r (1 + tol) then some (along r p1 p2 t)
    else none

/-- Segment.cpp:73-96 `intersectionInfinite`. -/
def intersectionInfinite (tol : ℚ) (p1 p2 o1 o2 : Pt ℚ) : Option (Pt ℚ) :=
  let d := den r p1 p2 o1 o2
  if d = 0 then none
  else
    let t := r (numT r p1 o1 o2 / d)
    if t ≤ r (1 + tol) ∧ t ≥ r (0 - tol) then some (along r p1 p2 t) else none

/-- Point.cpp:32-34 `squareNorm`; `std::pow(x, 2)` is taken to be the correctly rounded square, as the
usual libraries compute it when the square is a binary64 number. -/
def sqNorm (a : Pt ℚ) : ℚ := r (r (a.x * a.x) + r (a.y * a.y))

/-- The sum of three products in Triangle.cpp:34-37. -/
def sum3 (u1 v1 u2 v2 u3 v3 : ℚ) : ℚ := r (r (r (u1 * v1) + r (u2 * v2)) + r (u3 * v3))

/-- Triangle.cpp:34, the denominator. -/
def circumD (a b c : Pt ℚ) : ℚ :=
  r (2 * sum3 r a.x (r (b.y - c.y)) b.x (r (c.y - a.y)) c.x (r (a.y - b.y)))

/-- Triangle.cpp:29-40 `calculateCircumcenter`; `none` when the denominator is computed to be zero. -/
def circumcenter (a b c : Pt ℚ) : Option (Pt ℚ) :=
  let d := circumD r a b c
  if d = 0 then none
  else some
    ⟨r (sum3 r (sqNorm r a) (r (b.y - c.y)) (sqNorm r b) (r (c.y - a.y)) (sqNorm r c) (r (a.y - b.y)) / d),
     r (sum3 r (sqNorm r a) (r (c.x - b.x)) (sqNorm r b) (r (a.x - c.x)) (sqNorm r c) (r (b.x - a.x)) / d)⟩

/-- BoundingBox.cpp:16-22 `getWidth`, `getHeight`. -/
def width (b : BBox ℚ) : ℚ := |r (b.p1.x - b.p2.x)|

/-- PointGenerator.cpp:28-34: coordinate of grid line `j` of `n ≠ 1` lines. -/
def gridCoord (lo w : ℚ) (n : Int) (j : Nat) : ℚ :=
  r (lo + r ((j : ℚ) * r (w / ((n - 1 : Int) : ℚ))))

end Rnd
end Delynoi
