import Verif.Model.Hole
import Verif.Model.Generator
import Mathlib.Algebra.Order.Floor.Defs
/-!
# Regions (delynoi/src/models/Region.cpp)
-/
namespace Delynoi

/-- Region.h fields and the inherited polygon. -/
structure Region (K : Type) where
  poly : Poly K
  p : List (Pt K)
  holes : List (Hole K)
  seeds : List (Pt K)
  deriving DecidableEq

namespace Region
variable {K : Type} [Field K] [LinearOrder K]

/-- Region.cpp:3-5 constructor from points. -/
def ofPoints (tol : K) (pts : List (Pt K)) : Outcome (Region K) := do
  let g ← Poly.ofPoints tol pts
  return ⟨g, pts, [], []⟩

/-- Region.cpp:7-10 `mutate`: final state and whether an exception was thrown. -/
def mutate (tol : K) (r : Region K) (pts : List (Pt K)) : Region K × Bool :=
  let g := r.poly.mutate tol pts
  ({ r with p := pts, poly := g.1 }, g.2)

/-- Region.cpp:14-22 constructor from a polygon and its mesh points.  The inherited polygon is
default constructed (uninitialised caches) and then mutated, which sets all fields or throws. -/
def ofPolygon (tol : K) (other : Poly K) (points : List (Pt K)) : Outcome (Region K) := do
  let p ← resolve points other.points
  let g := (Poly.fresh [] : Poly K).mutate tol p
  if g.2 then .exn else return ⟨g.1, p, [], []⟩

/-- Region.cpp:25-28 copy constructor: seeds are not copied. -/
def copy (r : Region K) : Region K := ⟨r.poly.copy, r.p, r.holes, []⟩

/-- Region.cpp:181-185 `containsPoint` (also `Polygon::containsPoint(p, ..)` on lines 74, 137). -/
def containsPoint (tol : K) (r : Region K) (q : Pt K) : Outcome Bool := do
  let l ← resolve r.p r.poly.points
  return Delynoi.containsPoint tol l q

/-- Region.cpp:187-191 `inEdges`. -/
def inEdges (tol : K) (r : Region K) (q : Pt K) : Outcome Bool :=
  Delynoi.inEdges tol r.p r.poly.points q

/-- Region.cpp:140-142: the loop over the holes with its short-circuit `&&`. -/
def keepLoop (tol : K) (q : Pt K) : Bool → List (Hole K) → Outcome Bool
  | keep, [] => .ok keep
  | keep, h :: hs =>
    if keep then do
      let c ← h.containsPoint tol q
      keepLoop tol q (!c) hs
    else keepLoop tol q false hs

/-- Region.cpp:136-153: the seeds that are kept.  A seed with a NaN coordinate is in no polygon
(`C27_ieee_nan`). -/
def keepSeeds (tol : K) (r : Region K) : List (Pt (Option K)) → Outcome (List (Pt K))
  | [] => .ok []
  | q :: qs =>
    match q.x, q.y with
    | some x, some y => do
      let c ← r.containsPoint tol ⟨x, y⟩
      if c then do
        let k ← keepLoop tol ⟨x, y⟩ true r.holes
        let rest ← keepSeeds tol r qs
        return (if k then ⟨x, y⟩ :: rest else rest)
      else keepSeeds tol r qs
    | _, _ => keepSeeds tol r qs

/-- A point with number coordinates. -/
def num (q : Pt K) : Pt (Option K) := ⟨some q.x, some q.y⟩

/-- Region.cpp:132-156 `clean`, run on the given seed vector. -/
def clean (tol : K) (r : Region K) (seeds : List (Pt (Option K))) : Outcome (Region K) := do
  let s ← keepSeeds tol r seeds
  return { r with seeds := s }

/-- Region.cpp:92-95 `addSeedPoints`: `assign` replaces the seeds. -/
def addSeedPoints (tol : K) (r : Region K) (seeds : List (Pt K)) : Outcome (Region K) :=
  clean tol r (seeds.map num)

/-- Minimum loop `v < m ? v : m` of Region.cpp:123, 125. -/
def minLoop (init : K) (vs : List K) : K := vs.foldl (fun m v => if v < m then v else m) init

/-- Region.cpp:116-130 `getBox`; `LLONG_MAX` and `LLONG_MIN` as `double` are ±2^63. -/
def getBox (r : Region K) : BBox K :=
  ⟨⟨minLoop (2 ^ 63) (r.p.map Pt.x), minLoop (2 ^ 63) (r.p.map Pt.y)⟩,
   ⟨maxLoop (-2 ^ 63) (r.p.map Pt.x), maxLoop (-2 ^ 63) (r.p.map Pt.y)⟩⟩

/-- Region.cpp:86-90 `generateSeedPoints`; also returns the functors' state. -/
def generateSeedPoints {σ : Type} (tol : K) (xFirst : Bool) (r : Region K) (g : Gen σ K) (s : σ)
    (nX nY : Int) : Outcome (Region K × σ) := do
  let new ← g.generate xFirst s r.getBox nX nY
  let r' ← clean tol r (r.seeds.map num ++ new.1)
  return (r', new.2)

/-- Region.cpp:110-113, after the file has been parsed into points (`Verif.Model.Text`). -/
def appendSeeds (tol : K) (r : Region K) (new : List (Pt K)) : Outcome (Region K) :=
  clean tol r ((r.seeds ++ new).map num)

/-- Region.cpp:193-195 `cleanSeedPoints`. -/
def cleanSeedPoints (r : Region K) : Region K := { r with seeds := [] }

/-- Region.cpp:82-84 `cleanInternalHoles`. -/
def cleanInternalHoles (r : Region K) : Region K := { r with holes := [] }

/-- Region.cpp:159-169 `getRegionPoints`. -/
def getRegionPoints (r : Region K) : List (Pt K) := r.p ++ r.holes.flatMap Hole.points

/-- Region.cpp:175-178: the loop over the holes with the running offset. -/
def holeSegments (offset : Int) : List (Hole K) → List ISeg
  | [] => []
  | h :: hs => h.getSegments offset ++ holeSegments (offset + (h.points.length : Int)) hs

/-- Region.cpp:171-179 `getSegments`. -/
def getSegments (r : Region K) : List ISeg :=
  Delynoi.getSegments r.poly.points ++ holeSegments (r.p.length : Int) r.holes

variable [FloorRing K]

/-- Conversion of a `double` to `int`: truncation towards zero, undefined if out of range. -/
def toInt (x : K) : Outcome Int :=
  let z := if 0 ≤ x then ⌊x⌋ else ⌈x⌉
  if -2147483648 ≤ z ∧ z ≤ 2147483647 then .ok z else .ub

/-- Region.cpp:46-47, 52-53 and ClipperWrapper.cpp `scalePoint`: one point on Clipper's grid. -/
def scalePoint (scale : Int) (q : Pt K) : Outcome (Int × Int) := do
  let x ← toInt ((scale : K) * q.x)
  let y ← toInt ((scale : K) * q.y)
  return (x, y)

/-- Region.cpp:45-54: a path on Clipper's grid. -/
def scalePath (scale : Int) : List (Pt K) → Outcome (List (Int × Int))
  | [] => .ok []
  | q :: qs => do
    let a ← scalePoint scale q
    let as ← scalePath scale qs
    return a :: as

/-- Region.cpp:66-67: back from the grid (`scale ≠ 0`). -/
def unscale (scale : Int) (a : Int × Int) : Pt K := ⟨(a.1 : K) / (scale : K), (a.2 : K) / (scale : K)⟩

/-- The Clipper library: `Execute(ctDifference)` on a subject and a clip path.  Any function. -/
abbrev Clip := List (Int × Int) → List (Int × Int) → List (List (Int × Int))

/-- Region.cpp:38-80 `addHole`: final state and whether `invalid_argument` was thrown.  A scale
of zero together with a one-path solution would produce NaN vertices; this is not modelled and
marked `ub`. -/
def addHole (tol : K) (scale : Int) (clip : Clip) (r : Region K) (h : Hole K) :
    Outcome (Region K × Bool) := do
  let region ← scalePath scale r.p
  let hole ← scalePath scale h.points
  match clip region hole with
  | [path] =>
    if scale = 0 then .ub
    else return r.mutate tol (path.map (unscale scale))
  | _ => do
    let c ← r.containsPoint tol h.center
    if c then return ({ r with holes := r.holes ++ [h] }, false)
    else return (r, true)

end Region
end Delynoi
