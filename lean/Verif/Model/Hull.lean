import Verif.Model.Polygon
import Mathlib.Data.List.Sort
import Mathlib.Analysis.Real.Sqrt
/-!
# Convex hull and rotating calipers (delynoi/src/utilities/convexHull.cpp)
-/
namespace Delynoi
section
variable {K : Type} [Field K] [LinearOrder K]

/-- convexHull.cpp:7-15 `PointComparator`: exact lexicographic order. -/
def lexLt (a b : Pt K) : Bool := if a.x = b.x then decide (a.y < b.y) else decide (a.x < b.x)

/-- `std::sort` with the comparator (convexHull.cpp:18).  The comparator is a strict total order
on coordinates, so every sorting algorithm gives the same list. -/
def sortPts (l : List (Pt K)) : List (Pt K) := l.insertionSort (fun a b => lexLt b a = false)

/-- The two `while` loops of convexHull.cpp:21-27 on a vector kept as a stack (head = back). -/
def popWhile (bad : Pt K → Pt K → Pt K → Bool) (c : Pt K) : List (Pt K) → List (Pt K)
  | b :: a :: r => if bad a b c then popWhile bad c (a :: r) else b :: a :: r
  | s => s

/-- convexHull.cpp:19-31: one of the two chains, as a stack.  (The C++ builds both chains in the
same loop; they do not influence each other.) -/
def chainStack (bad : Pt K → Pt K → Pt K → Bool) (pts : List (Pt K)) : List (Pt K) :=
  pts.foldl (fun s c => c :: popWhile bad c s) []

/-- convexHull.cpp:21: pop condition of the upper chain. -/
def upperBad (a b c : Pt K) : Bool := decide (orientation a b c ≥ 0)

/-- convexHull.cpp:25: pop condition of the lower chain. -/
def lowerBad (a b c : Pt K) : Bool := decide (orientation a b c ≤ 0)

/-- convexHull.cpp:17-32 `convexHull`: (upper, lower), both from left to right. -/
def convexHull (pts : List (Pt K)) : List (Pt K) × List (Pt K) :=
  let s := sortPts pts
  ((chainStack upperBad s).reverse, (chainStack lowerBad s).reverse)

/-- convexHull.cpp:41-54: the loop, with `u[i], u[i+1], ...` as first and `l[j], l[j-1], ..., l[0]`
as second list.  Empty lists do not occur (see `rotatingCalipers`). -/
def calipers : List (Pt K) → List (Pt K) → List (Pt K × Pt K)
  | [a], b :: b' :: ls => (a, b) :: calipers [a] (b' :: ls)
  | a :: a' :: us, [b] => (a, b) :: calipers (a' :: us) [b]
  | a :: a' :: us, b :: b' :: ls =>
    (a, b) :: (if (a'.y - a.y) * (b.x - b'.x) > (b.y - b'.y) * (a'.x - a.x)
      then calipers (a' :: us) (b :: b' :: ls)
      else calipers (a :: a' :: us) (b' :: ls))
  | _, _ => []
termination_by us ls => us.length + ls.length

/-- convexHull.cpp:34-57 `rotatingCalipers`.  For no points `u.size()-1` wraps around and `u[0]`
is read out of range. -/
def rotatingCalipers (pts : List (Pt K)) : Outcome (List (Pt K × Pt K)) :=
  let h := convexHull pts
  if h.1 = [] ∨ h.2 = [] then .ub else .ok (calipers h.1 h.2.reverse)

end

/-- delynoi_utilities.cpp:24-26 `norm`. -/
noncomputable def norm2 (p : Pt ℝ) : ℝ := Real.sqrt (p.squareNorm)

/-- Polygon.cpp:64-76 `calculateDiameter`. -/
noncomputable def calculateDiameter (pts : List (Pt ℝ)) : Outcome ℝ := do
  let pairs ← rotatingCalipers pts
  return maxLoop (-1) (pairs.map (fun e => norm2 (e.1.sub e.2)))

/-- Segment.cpp:98-101 `length`. -/
noncomputable def segLength (a b : Pt ℝ) : ℝ := Real.sqrt ((a.x - b.x) ^ 2 + (a.y - b.y) ^ 2)

/-- Polygon.cpp:338-351 `getMaxDistance`, starting from `LLONG_MIN`. -/
noncomputable def getMaxDistance (pts : List (Pt ℝ)) : ℝ :=
  maxLoop (-9223372036854775808) ((cycPairs pts).map (fun e => segLength e.1 e.2))

end Delynoi
