import Verif.Model.Polygon
/-!
# Holes (delynoi/include/delynoi/models/hole/Hole.h, src/models/hole/*.cpp)
-/
namespace Delynoi

/-- Hole.h:17-20 fields. -/
structure Hole (K : Type) where
  points : List (Pt K)
  center : Pt K
  segments : List ISeg
  deriving DecidableEq

namespace Hole
variable {K : Type} [Field K] [LinearOrder K]

/-- Hole.h:56-60 `getSegments(s, offset)` (the appended part). -/
def getSegments (h : Hole K) (offset : Int) : List ISeg := h.segments.map (fun s => s.add offset)

/-- Hole.h:103-107: the loop keeps the *last* containing segment. -/
def lastContaining (tol : K) (p : List (Pt K)) (q : Pt K) : ISeg → List ISeg → Outcome ISeg
  | c, [] => .ok c
  | c, s :: ss => do
    let b ← ISeg.contains tol p q s
    lastContaining tol p q (if b then s else c) ss

/-- Hole.h:73-110 `containsPoint`. -/
def containsPoint (tol : K) (h : Hole K) (q : Pt K) : Outcome Bool :=
  let odd := match h.points.getLast? with
    | none => false
    | some z => oddLoop tol q z false h.points
  if odd then .ok true
  else do
    let c ← lastContaining tol h.points q (ISeg.mk' (-1) (-1)) (h.getSegments 0)
    return decide (c.p1 ≠ -1) && decide (c.p2 ≠ -1)

/-- The common part of the two constructors: boundary points, center, and the segments of the
polygon with indices `0 .. n-1` (CircularHole.cpp:9-15, PolygonalHole.cpp:8). -/
def ofBoundary (pts : List (Pt K)) (center : Pt K) : Hole K :=
  ⟨pts, center, Delynoi.getSegments (trivialIndex pts.length)⟩

/-- PolygonalHole.cpp:3-9.  A NaN center (`none`) is not represented in `Hole` and marked `ub`;
property C51 shows the case does not arise. -/
def polygonal (tol : K) (p : List (Pt K)) : Outcome (Hole K) := do
  let g ← Poly.ofPoints tol p
  let r ← g.getCentroid p
  match r.2 with
  | some c => return ofBoundary p c
  | none => .ub

/-- CircularHole.cpp:3-15, with the result `pts` of `discretizeCircle` as a parameter (modelled
in `Verif.Model.Circle`).  The polygon constructor's self-intersection test sees no segments. -/
def circular (tol : K) (center : Pt K) (pts : List (Pt K)) : Outcome (Hole K) := do
  let _ ← Poly.ofIndices tol (trivialIndex pts.length) pts
  return ofBoundary pts center

end Hole
end Delynoi
