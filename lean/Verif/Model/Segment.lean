import Verif.Model.Point
import Verif.Model.Outcome
/-!
# Segments (delynoi/src/models/basic/Segment.cpp and PointSegment.cpp, geometric part)
-/
namespace Delynoi
variable {K : Type} [Field K] [LinearOrder K]

namespace Seg

/-- The sub-expression `v >= a || abs(v-a) < tol` of Segment.cpp:26-29. -/
def geTol (tol v a : K) : Bool := decide (v ≥ a) || decide (|v - a| < tol)

/-- The sub-expression `v <= a || abs(v-a) < tol` of Segment.cpp:26-29. -/
def leTol (tol v a : K) : Bool := decide (v ≤ a) || decide (|v - a| < tol)

/-- Segment.cpp:23-33 `contains(point, p1, p2)`. -/
def contains (tol : K) (point p1 p2 : Pt K) : Bool :=
  let test1 := (geTol tol point.x p1.x && leTol tol point.x p2.x) ||
    (geTol tol point.x p2.x && leTol tol point.x p1.x)
  let test2 := (geTol tol point.y p1.y && leTol tol point.y p2.y) ||
    (geTol tol point.y p2.y && leTol tol point.y p1.y)
  test1 && test2 &&
    decide (|p1.x * (p2.y - point.y) + p2.x * (point.y - p1.y) + point.x * (p1.y - p2.y)| < tol)

/-- Denominator used in Segment.cpp:57-58. -/
def den (p1 p2 o1 o2 : Pt K) : K :=
  -(o2.x - o1.x) * (p2.y - p1.y) + (p2.x - p1.x) * (o2.y - o1.y)

/-- Numerator of `s`, Segment.cpp:57. -/
def numS (p1 p2 o1 : Pt K) : K :=
  -(p2.y - p1.y) * (p1.x - o1.x) + (p2.x - p1.x) * (p1.y - o1.y)

/-- Numerator of `t`, Segment.cpp:58. -/
def numT (p1 o1 o2 : Pt K) : K :=
  (o2.x - o1.x) * (p1.y - o1.y) - (o2.y - o1.y) * (p1.x - o1.x)

/-- Segment.cpp:48-71 `intersects`: `some q` means `true` with `inter = q`; `none` means
`false` (`inter` untouched).  If the denominator is zero, `s` and `t` are NaN or infinite and
one of the comparisons on line 60 fails; the guard stands for that, and
`Verif.Props.Ieee` proves it against a model with NaN and infinities. -/
def intersects (tol : K) (p1 p2 o1 o2 : Pt K) : Option (Pt K) :=
  let d := den p1 p2 o1 o2
  if d = 0 then none
  else
    let s := numS p1 p2 o1 / d
    let t := numT p1 o1 o2 / d
    if s ≥ 0 - tol ∧ s ≤ 1 + tol ∧ t ≥ 0 - tol ∧ t ≤ 1 + tol then
      some ⟨p1.x + t * (p2.x - p1.x), p1.y + t * (p2.y - p1.y)⟩
    else none

/-- Segment.cpp:73-96 `intersectionInfinite`, same conventions as `intersects`. -/
def intersectionInfinite (tol : K) (p1 p2 o1 o2 : Pt K) : Option (Pt K) :=
  let d := den p1 p2 o1 o2
  if d = 0 then none
  else
    let t := numT p1 o1 o2 / d
    if t ≤ 1 + tol ∧ t ≥ 0 - tol then
      some ⟨p1.x + t * (p2.x - p1.x), p1.y + t * (p2.y - p1.y)⟩
    else none

/-- PointSegment.cpp:23-26 `operator==` (unordered, tolerant). -/
def eqTol (tol : K) (a1 a2 b1 b2 : Pt K) : Bool :=
  (a1.eqTol tol b1 && a2.eqTol tol b2) || (a1.eqTol tol b2 && a2.eqTol tol b1)

/-- IndexSegment.cpp:24-26 `middlePoint`. -/
def middle (a b : Pt K) : Pt K := ⟨(a.x + b.x) / 2, (a.y + b.y) / 2⟩

end Seg
end Delynoi
