import Verif.Model.ClipperInt
import Verif.Model.Double
/-!
# Clipper's geometry on paths and rings (hole/clipper/lib/clipper.cpp:385-538)

As in Model/Double, every `double` operation is followed by a rounding `r`; `r := id` is exact
arithmetic and `r := fl` is binary64.
-/
namespace Delynoi.Clip
variable (r : ℚ → ℚ)

/-- A path point with rational coordinates. -/
def IPt.toPt (p : IPt) : Pt ℚ := ⟨p.X, p.Y⟩

/-- The pairs `(l[j], l[i])` of the loop `for (i = 0, j = size-1; i < size; ++i) { ...; j = i; }`. -/
def prevPairs {α : Type} (l : List α) : List (α × α) :=
  (l.drop (l.length - 1) ++ l.take (l.length - 1)).zip l

/-- clipper.cpp:399, the term `((double)poly[j].X + poly[i].X) * ((double)poly[j].Y - poly[i].Y)`. -/
def areaTerm (a b : IPt) : ℚ := r (r (r a.X + r b.X) * r (r a.Y - r b.Y))

/-- clipper.cpp:391-403 `Area` of a path. -/
def area (path : List IPt) : ℚ :=
  if path.length < 3 then 0
  else r (-(Rnd.sumLoop r 0 ((prevPairs path).map (fun e => areaTerm r e.1 e.2))) * (1 / 2))

/-- clipper.cpp:385-388 `Orientation`. -/
def orientation (path : List IPt) : Bool := decide (0 ≤ area r path)

/-- clipper.cpp:462-463 and 471-472, the number `d`; the differences are 64-bit, the products and
their difference `double`. -/
def pipCross (pt ip nx : IPt) : Outcome ℚ := do
  let a ← i64 (ip.X - pt.X)
  let b ← i64 (nx.Y - pt.Y)
  let c ← i64 (nx.X - pt.X)
  let d ← i64 (ip.Y - pt.Y)
  return r (r (r a * r b) - r (r c * r d))

/-- clipper.cpp:464-465 and 473-474: `none` is `return -1`. -/
def pipDecide (pt ip nx : IPt) (result : Int) : Outcome (Option Int) := do
  let d ← pipCross r pt ip nx
  if d = 0 then return none
  else if (decide (d > 0)) = (decide (nx.Y > ip.Y)) then return some (1 - result)
  else return some result

/-- clipper.cpp:450-478, the body of the loop for the edge from `ip` to `nx`; `none` is
`return -1`. -/
def pipStep (pt ip nx : IPt) (result : Int) : Outcome (Option Int) :=
  if nx.Y = pt.Y ∧ (nx.X = pt.X ∨ (ip.Y = pt.Y ∧ decide (nx.X > pt.X) = decide (ip.X < pt.X))) then
    .ok none
  else if decide (ip.Y < pt.Y) ≠ decide (nx.Y < pt.Y) then
    if ip.X ≥ pt.X then
      if nx.X > pt.X then .ok (some (1 - result)) else pipDecide r pt ip nx result
    else
      if nx.X > pt.X then pipDecide r pt ip nx result else .ok (some result)
  else .ok (some result)

/-- clipper.cpp:447-480, the loop over the edges. -/
def pipLoop (pt : IPt) : List (IPt × IPt) → Int → Outcome Int
  | [], result => .ok result
  | e :: es, result => do
    match ← pipStep r pt e.1 e.2 result with
    | none => return -1
    | some res => pipLoop pt es res

/-- clipper.cpp:440-482 `PointInPolygon`. -/
def pointInPolygon (pt : IPt) (path : List IPt) : Outcome Int :=
  if path.length < 3 then .ok 0 else pipLoop r pt (cycPairs path) 0

/-! ### Rings of output points

The circular list of `OutPt` that starts at `op` is the list of its points in the order of `Next`;
`Prev` is the cyclic predecessor. -/

/-- clipper.cpp:413, the term of the sum; the sum and the difference are 64-bit. -/
def ringTerm (a b : IPt) : Outcome ℚ := do
  let s ← i64 (a.X + b.X)
  let d ← i64 (a.Y - b.Y)
  return r (r s * r d)

/-- clipper.cpp:412-415, the loop of `Area(const OutPt*)`. -/
def ringSum : List (IPt × IPt) → ℚ → Outcome ℚ
  | [], acc => .ok acc
  | e :: es, acc => do
    let t ← ringTerm r e.1 e.2
    ringSum es (r (acc + t))

/-- clipper.cpp:406-417 `Area(const OutPt*)`; the null pointer is the empty ring. -/
def ringArea (ring : List IPt) : Outcome ℚ := do
  let a ← ringSum r (prevPairs ring) 0
  return r (a * (1 / 2))

/-- clipper.cpp:426-436 `PointIsVertex`, for a ring that is not empty. -/
def pointIsVertex (pt : IPt) (ring : List IPt) : Bool := ring.any (fun p => decide (p = pt))

/-- clipper.cpp:485-521 `PointInPolygon(const IntPoint&, OutPt*)`, for a ring that is not empty. -/
def pointInRing (pt : IPt) (ring : List IPt) : Outcome Int := pipLoop r pt (cycPairs ring) 0

/-- clipper.cpp:526-537 `Poly2ContainsPoly1`: the loop over the first ring. -/
def ringContains (ring2 : List IPt) : List IPt → Outcome Bool
  | [] => .ok true
  | p :: ps => do
    let res ← pointInRing r p ring2
    if res ≥ 0 then return decide (res > 0) else ringContains ring2 ps

end Delynoi.Clip
