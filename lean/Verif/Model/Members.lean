import Verif.Model.IndexSegment
/-!
# Small members: pairs and containment of segments in segments
-/
namespace Delynoi

/-- lib/utilities/include/utilities/Pair.h:5-30 class `Pair`. -/
structure PairT (T : Type) where
  first : T
  second : T
  deriving DecidableEq, Repr

namespace PairT
variable {K : Type} [Field K] [LinearOrder K]

/-- Pair.h:36-39 `operator==`. -/
def eq (a b : PairT K) : Bool := decide (a.first = b.first) && decide (a.second = b.second)

/-- Pair.h:56-63 `operator<`. -/
def lt (a b : PairT K) : Bool :=
  if a.first = b.first then decide (a.second < b.second) else decide (a.first < b.first)

/-- Pair.h:41-44 `dot`. -/
def dot (a b : PairT K) : K := a.first * b.first + a.second * b.second

/-- Pair.h:46-49 `operator*`, for a pair of `double`s. -/
def smul (a : PairT K) (c : K) : PairT K := ⟨a.first * c, a.second * c⟩

/-- Pair.h:51-54 `operator+`. -/
def add (a b : PairT K) : PairT K := ⟨a.first + b.first, a.second + b.second⟩

end PairT

namespace ISeg
variable {K : Type} [Field K] [LinearOrder K]

/-- IndexSegment.cpp:16-18 `contains(p, point)`. -/
def containsPoint (tol : K) (p : List (Pt K)) (s : ISeg) (q : Pt K) : Outcome Bool := do
  let a ← vecGet p s.p1
  let b ← vecGet p s.p2
  return Seg.contains tol q a b

/-- IndexSegment.cpp:20-22 `contains(p, s)`; the second test is not made if the first one fails. -/
def containsSeg (tol : K) (p : List (Pt K)) (s o : ISeg) : Outcome Bool := do
  let a ← vecGet p o.p1
  if ← containsPoint tol p s a then
    let b ← vecGet p o.p2
    containsPoint tol p s b
  else return false

/-- IndexSegment.cpp:76-78 `isContained(s, p)`, with PointSegment.cpp:7-9. -/
def isContained (tol : K) (s1 s2 : Pt K) (p : List (Pt K)) (o : ISeg) : Outcome Bool := do
  let a ← vecGet p o.p1
  if Seg.contains tol a s1 s2 then
    let b ← vecGet p o.p2
    return Seg.contains tol b s1 s2
  else return false

/-- IndexSegment.cpp:32-34 `intersection` with a `PointSegment`. -/
def intersectsPts (tol : K) (p : List (Pt K)) (s : ISeg) (o1 o2 : Pt K) : Outcome (Option (Pt K)) := do
  let a ← vecGet p s.p1
  let b ← vecGet p s.p2
  return Seg.intersects tol a b o1 o2

end ISeg
end Delynoi
