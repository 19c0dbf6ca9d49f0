import Verif.Model.IndexSegment
/-!
# Polygons (delynoi/src/models/polygon/Polygon.cpp)

Methods of `Polygon` take the mesh points `p` and look up the vertices `p[points[i]]`.  In the
model the lookup is done first (`resolve`, undefined behaviour if an index is out of range) and
the geometry works on the resolved vertex list.  (The C++ interleaves the two; the outcome is the
same when all indices are in range.)
-/
namespace Delynoi

/-- `p[points[0]], p[points[1]], ...` (Polygon.cpp:277-285 and every loop over `points`). -/
def resolve {α : Type} (p : List α) : List Int → Outcome (List α)
  | [] => .ok []
  | i :: is => do
    let a ← vecGet p i
    let as ← resolve p is
    return a :: as

/-- All pairs `(l[i], l[(i+1)%n])` for `i = 0 .. n-1` in loop order. -/
def cycPairs {α : Type} (l : List α) : List (α × α) := l.zip (l.drop 1 ++ l.take 1)

/-- All triples `(l[i], l[(i+1)%n], l[(i+2)%n])` for `i = 0 .. n-1` in loop order (`n ≥ 2`). -/
def cycTriples {α : Type} (l : List α) : List (α × α × α) :=
  l.zip ((l.drop 1 ++ l.take 1).zip (l.drop 2 ++ l.take 2))

section
variable {K : Type} [Field K] [LinearOrder K]

/-- geometryFunctions.cpp:29-39 `area`: fan of triangles seen from vertex 0.  The loop does not
run for an empty list. -/
def fanArea : List (Pt K) → K
  | [] => 0
  | a :: l => ((cycPairs (a :: l)).map (fun e => triangleArea e.1 e.2 a)).sum

/-- Polygon.cpp:107-116 `signedArea`. -/
def signedArea (l : List (Pt K)) : K :=
  1 / 2 * ((cycPairs l).map (fun e => e.1.x * e.2.y - e.2.x * e.1.y)).sum

/-- Polygon.cpp:224-240 `isClockwise`; `points[0]` on an empty polygon is undefined. -/
def isClockwise : List (Pt K) → Outcome Bool
  | [] => .ub
  | a :: l =>
    let z := (a :: l).getLast (by simp)
    let sum := (a.x - z.x) * (a.y + z.y) +
      (((a :: l).zip l).map (fun e => (e.2.x - e.1.x) * (e.2.y + e.1.y))).sum
    .ok (decide (sum > 0))

/-- Polygon.cpp:127-145 `calculateCentroid`; `none` when the signed area is zero (the C++
divides by zero and returns NaN or infinite coordinates). -/
def calculateCentroid (l : List (Pt K)) : Option (Pt K) :=
  let sx := ((cycPairs l).map
    (fun e => (e.1.x + e.2.x) * (e.1.x * e.2.y - e.2.x * e.1.y))).sum
  let sy := ((cycPairs l).map
    (fun e => (e.1.y + e.2.y) * (e.1.x * e.2.y - e.2.x * e.1.y))).sum
  let A := signedArea l
  if A = 0 then none else some ⟨sx / (6 * A), sy / (6 * A)⟩

/-- Polygon.cpp:322-336 `getAverage`; `none` for the empty polygon (0/0). -/
def getAverage (l : List (Pt K)) : Option (Pt K) :=
  if l = [] then none
  else some ⟨(l.map Pt.x).sum / l.length, (l.map Pt.y).sum / l.length⟩

/-- One edge of the crossing test, Polygon.cpp:159-165: is the toggle executed for the edge
`pI pJ`?  The division is by `pJ.y - pI.y`, non-zero under the guard. -/
def crosses (pI pJ q : Pt K) : Bool :=
  ((decide (pI.y ≤ q.y) && decide (pJ.y > q.y)) || (decide (pJ.y ≤ q.y) && decide (pI.y > q.y))) &&
    decide (pI.x + (q.y - pI.y) / (pJ.y - pI.y) * (pJ.x - pI.x) < q.x)

/-- Polygon.cpp:151-167: the loop; `pJ` is the vertex last remembered in `j` (it is *not*
advanced when `pI == pJ`). -/
def oddLoop (tol : K) (q : Pt K) : Pt K → Bool → List (Pt K) → Bool
  | _, odd, [] => odd
  | pJ, odd, pI :: l =>
    if pI.eqTol tol pJ then oddLoop tol q pJ odd l
    else oddLoop tol q pI (if crosses pI pJ q then !odd else odd) l

/-- Polygon.cpp:189-193 `inEdges` on the vertices: some edge contains the point.  (The C++ goes
through `containerEdge`; see `containerEdge` and property C31 for the index version.) -/
def inEdgesPts (tol : K) (l : List (Pt K)) (q : Pt K) : Bool :=
  (cycPairs l).any (fun e => Seg.contains tol q e.1 e.2)

/-- Polygon.cpp:147-174 `containsPoint`. -/
def containsPoint (tol : K) (l : List (Pt K)) (q : Pt K) : Bool :=
  match l.getLast? with
  | none => inEdgesPts tol l q
  | some z => if oddLoop tol q z false l then true else inEdgesPts tol l q

/-- Polygon.cpp:118-125 `getSegments`. -/
def getSegments (idx : List Int) : List ISeg := (cycPairs idx).map (fun e => ISeg.mk' e.1 e.2)

/-- First segment of the list containing the point, Polygon.cpp:180-186. -/
def firstContaining (tol : K) (p : List (Pt K)) (q : Pt K) : List ISeg → Outcome ISeg
  | [] => .ok (ISeg.mk' (-1) (-1))
  | s :: ss => do
    let c ← ISeg.contains tol p q s
    if c then return s else firstContaining tol p q ss

/-- Polygon.cpp:176-187 `containerEdge`. -/
def containerEdge (tol : K) (p : List (Pt K)) (idx : List Int) (q : Pt K) : Outcome ISeg :=
  firstContaining tol p q (getSegments idx)

/-- Polygon.cpp:189-193 `inEdges`. -/
def inEdges (tol : K) (p : List (Pt K)) (idx : List Int) (q : Pt K) : Outcome Bool := do
  let c ← containerEdge tol p idx q
  return decide (c.p1 ≠ -1 ∧ c.p2 ≠ -1)

/-- Polygon.cpp:195-209 `isConvex`; undefined for fewer than three vertices. -/
def isConvex : List (Pt K) → Outcome Bool
  | a :: b :: c :: l =>
    let det := orientation a b c
    .ok ((cycTriples (a :: b :: c :: l)).tail.all
      (fun t => decide (¬ det * orientation t.1 t.2.1 t.2.2 < 0)))
  | _ => .ub

/-- Polygon.cpp:291-311 `isSelfIntersecting` on the vertices. -/
def isSelfIntersecting (tol : K) (l : List (Pt K)) : Bool :=
  let n := l.length
  (cycPairs l).zipIdx.any (fun s =>
    (cycPairs l).zipIdx.any (fun t =>
      if s.2 = t.2 ∨ t.2 = (s.2 + n - 1) % n ∨ t.2 = (s.2 + 1) % n then false
      else (Seg.intersects tol s.1.1 s.1.2 t.1.1 t.1.2).isSome))

end

/-- utilities.h:22-27 `indexOf` on a vector of `int`. -/
def indexOfInt (l : List Int) (x : Int) : Int :=
  let pos := l.findIdx (fun e => e == x)
  if pos < l.length then (pos : Int) else -1

/-- Polygon.cpp:313-320 `containsEdge`. -/
def containsEdge (idx : List Int) (s : ISeg) : Bool :=
  let n : Int := idx.length
  let i := indexOfInt idx s.p1
  let j := indexOfInt idx s.p2
  decide (i ≠ -1) && decide (j ≠ -1) && (decide (|i - j| = 1) || decide (|i - j| = n - 1))

/-- Polygon.cpp:256-258 `isVertex`. -/
def isVertex (idx : List Int) (i : Int) : Bool := idx.any (fun e => e == i)

/-- Polygon.cpp:260-268 `calculateHash`: each `int` hash is converted to `size_t` and added. -/
def polyHash (idx : List Int) : BitVec 64 :=
  idx.foldl (fun h i => h + (hashInt i).signExtend 64) 0#64

/-- delynoi_utilities.cpp:10-14 `TrivialIndexVector` (appended to an empty vector). -/
def trivialIndex (n : Nat) : List Int := (List.range n).map Int.ofNat

/-- Maximum loop `if (d > max) max = d` of Polygon.cpp:66-75 and 340-350. -/
def maxLoop {K : Type} [LinearOrder K] (init : K) (ds : List K) : K :=
  ds.foldl (fun m d => if d > m then d else m) init

/-! ### The polygon object with its caches -/

/-- Polygon.h: fields.  `centroidEmpty` is the flag `isEmpty` of the cached centroid point. -/
structure Poly (K : Type) where
  points : List Int
  diameter : K
  area : K
  centroid : Pt K
  centroidEmpty : Bool
  hash : BitVec 64
  deriving DecidableEq

namespace Poly
variable {K : Type} [Field K] [LinearOrder K]

/-- The state after Polygon.cpp:13-18 (constructor body), 29-32 and 40-50: fresh caches. -/
def fresh (idx : List Int) : Poly K :=
  ⟨idx, -1, -1, ⟨0, 0⟩, true, polyHash idx⟩

/-- Polygon.cpp:8-19 constructor from indices.  `isSelfIntersecting(p)` runs on the *member*
`points`, which is still empty, so the test sees no segments. -/
def ofIndices (tol : K) (idx : List Int) (_p : List (Pt K)) : Outcome (Poly K) :=
  if isSelfIntersecting tol ([] : List (Pt K)) then .exn else .ok (fresh idx)

/-- Polygon.cpp:35-51 constructor from points: the test runs on the still empty member `points`,
and its exception object is constructed but not thrown. -/
def ofPoints (_tol : K) (p : List (Pt K)) : Outcome (Poly K) :=
  .ok (fresh (trivialIndex p.length))

/-- Polygon.cpp:21-33 `mutate`: returns the final state of the object and whether an exception
was thrown.  `points` is replaced before the test. -/
def mutate (tol : K) (g : Poly K) (p : List (Pt K)) : Poly K × Bool :=
  if isSelfIntersecting tol p then ({ g with points := trivialIndex p.length }, true)
  else (fresh (trivialIndex p.length), false)

/-- Polygon.cpp:55-62 copy constructor. -/
def copy (g : Poly K) : Poly K := { g with hash := polyHash g.points }

/-- Polygon.cpp:82-88 `getArea` (new state, result). -/
def getArea (g : Poly K) (p : List (Pt K)) : Outcome (Poly K × K) :=
  if g.area = -1 then do
    let l ← resolve p g.points
    return ({ g with area := fanArea l }, fanArea l)
  else .ok (g, g.area)

/-- Polygon.cpp:90-97 `getDiameter`; `calcD` stands for `calculateDiameter` on the resolved
vertices. -/
def getDiameter (calcD : List (Pt K) → Outcome K) (g : Poly K) (p : List (Pt K)) :
    Outcome (Poly K × K) :=
  if g.diameter < 0 then do
    let l ← resolve p g.points
    let d ← calcD l
    return ({ g with diameter := d }, d)
  else .ok (g, g.diameter)

/-- Polygon.cpp:99-105 `getCentroid`.  Point.cpp:16-18 `isValid` returns `isEmpty`, and
`Point()` sets `isEmpty = true` (Point.cpp:9-14).  `calculateCentroid` yields a point with
`isEmpty = false`; NaN coordinates are `none`. -/
def getCentroid (g : Poly K) (p : List (Pt K)) : Outcome (Poly K × Option (Pt K)) :=
  if !g.centroidEmpty then do
    let l ← resolve p g.points
    match calculateCentroid l with
    | some c => return ({ g with centroid := c, centroidEmpty := false }, some c)
    | none => return ({ g with centroidEmpty := false }, none)
  else .ok (g, some g.centroid)

/-- Polygon.cpp:270-275 `fixCCW`. -/
def fixCCW (g : Poly K) (p : List (Pt K)) : Outcome (Poly K) := do
  let l ← resolve p g.points
  let c ← isClockwise l
  if c then return { g with points := g.points.reverse, area := -1 } else return g

/-- Polygon.cpp:242-244 `operator==`. -/
def eq (a b : Poly K) : Bool := a.hash == b.hash

end Poly
end Delynoi
