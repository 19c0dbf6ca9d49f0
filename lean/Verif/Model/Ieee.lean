import Verif.Model.Polygon
import Verif.Model.Triangle
/-!
# Numbers with NaN and infinities

The rest of the model works over a field `K` and replaces a division by zero by a guard.  Here
the functions concerned are transcribed again, literally, over `K` extended with NaN and the two
infinities, so that `Verif.Props.Ieee` can prove that the guards say what the C++ code does.
Rounding is still not modelled, and zero has no sign: the quotient by zero takes an extra
argument `z` (is the zero divisor negative?), and the theorems hold for both values.
-/
namespace Delynoi

/-- A `double`: NaN, an infinity, or a finite number. -/
inductive Ext (K : Type) where
  | nan
  | ninf
  | fin (x : K)
  | pinf
  deriving DecidableEq, Repr

namespace Ext
variable {K : Type} [Field K] [LinearOrder K]

/-- IEEE negation. -/
protected def neg : Ext K → Ext K
  | nan => nan
  | ninf => pinf
  | fin x => fin (-x)
  | pinf => ninf

/-- IEEE addition. -/
protected def add : Ext K → Ext K → Ext K
  | nan, _ => nan
  | _, nan => nan
  | fin x, fin y => fin (x + y)
  | ninf, pinf => nan
  | pinf, ninf => nan
  | ninf, _ => ninf
  | _, ninf => ninf
  | pinf, _ => pinf
  | _, pinf => pinf

/-- Infinity of the given sign (`true` = negative). -/
def inf (neg : Bool) : Ext K := if neg then ninf else pinf

/-- An infinity of sign `neg` times a finite number. -/
def infMul (neg : Bool) (y : K) : Ext K :=
  if y = 0 then nan else inf (xor neg (decide (y < 0)))

/-- IEEE multiplication. -/
protected def mul : Ext K → Ext K → Ext K
  | nan, _ => nan
  | _, nan => nan
  | fin x, fin y => fin (x * y)
  | ninf, fin y => infMul true y
  | pinf, fin y => infMul false y
  | fin y, ninf => infMul true y
  | fin y, pinf => infMul false y
  | ninf, ninf => pinf
  | pinf, pinf => pinf
  | ninf, pinf => ninf
  | pinf, ninf => ninf

/-- IEEE division; `z` is the sign of the divisor when it is zero. -/
def div (z : Bool) : Ext K → Ext K → Ext K
  | nan, _ => nan
  | _, nan => nan
  | fin x, fin y =>
    if y = 0 then (if x = 0 then nan else inf (xor z (decide (x < 0)))) else fin (x / y)
  | fin _, ninf => fin 0
  | fin _, pinf => fin 0
  | ninf, fin y => inf (xor true (if y = 0 then z else decide (y < 0)))
  | pinf, fin y => inf (xor false (if y = 0 then z else decide (y < 0)))
  | _, _ => nan

instance : Neg (Ext K) := ⟨Ext.neg⟩
instance : Add (Ext K) := ⟨Ext.add⟩
instance : Sub (Ext K) := ⟨fun a b => Ext.add a (Ext.neg b)⟩
instance : Mul (Ext K) := ⟨Ext.mul⟩

/-- `std::abs`. -/
def abs : Ext K → Ext K
  | nan => nan
  | ninf => pinf
  | fin x => fin |x|
  | pinf => pinf

/-- `<`, false if an operand is NaN. -/
def lt : Ext K → Ext K → Bool
  | nan, _ => false
  | _, nan => false
  | fin x, fin y => decide (x < y)
  | ninf, ninf => false
  | ninf, _ => true
  | _, ninf => false
  | pinf, _ => false
  | _, pinf => true

/-- `<=`, false if an operand is NaN. -/
def le : Ext K → Ext K → Bool
  | nan, _ => false
  | _, nan => false
  | fin x, fin y => decide (x ≤ y)
  | ninf, _ => true
  | _, pinf => true
  | _, ninf => false
  | pinf, _ => false

/-- Not NaN and not infinite. -/
def Finite (a : Ext K) : Prop := ∃ x, a = fin x

end Ext

/-- A `Point` whose coordinates are any `double`. -/
abbrev EPt (K : Type) := Pt (Ext K)

/-- A point with finite coordinates. -/
def Pt.lift {K : Type} (p : Pt K) : EPt K := ⟨.fin p.x, .fin p.y⟩

namespace Ieee
variable {K : Type} [Field K] [LinearOrder K]
open Ext

/-- Segment.cpp:48-71 `intersects`, every operation as written; `z1`, `z2`: see `Ext.div`. -/
def intersects (z1 z2 : Bool) (tol : K) (p1 p2 o1 o2 : EPt K) : Option (EPt K) :=
  let s1x := p2.x - p1.x
  let s1y := p2.y - p1.y
  let s2x := o2.x - o1.x
  let s2y := o2.y - o1.y
  let s := Ext.div z1 (-s1y * (p1.x - o1.x) + s1x * (p1.y - o1.y)) (-s2x * s1y + s1x * s2y)
  let t := Ext.div z2 (s2x * (p1.y - o1.y) - s2y * (p1.x - o1.x)) (-s2x * s1y + s1x * s2y)
  if (fin 0 - fin tol).le s && s.le (fin 1 + fin tol) && (fin 0 - fin tol).le t &&
      t.le (fin 1 + fin tol) then
    some ⟨p1.x + t * s1x, p1.y + t * s1y⟩
  else none

/-- Segment.cpp:73-96 `intersectionInfinite` in the same way. -/
def intersectionInfinite (z : Bool) (tol : K) (p1 p2 o1 o2 : EPt K) : Option (EPt K) :=
  let s1x := p2.x - p1.x
  let s1y := p2.y - p1.y
  let s2x := o2.x - o1.x
  let s2y := o2.y - o1.y
  let t := Ext.div z (s2x * (p1.y - o1.y) - s2y * (p1.x - o1.x)) (-s2x * s1y + s1x * s2y)
  if t.le (fin 1 + fin tol) && (fin 0 - fin tol).le t then
    some ⟨p1.x + t * s1x, p1.y + t * s1y⟩
  else none

/-- The sub-expression `v >= a || abs(v-a) < tol` of Segment.cpp:26-29. -/
def geTol (tol : K) (v a : Ext K) : Bool := a.le v || (v - a).abs.lt (fin tol)

/-- The sub-expression `v <= a || abs(v-a) < tol` of Segment.cpp:26-29. -/
def leTol (tol : K) (v a : Ext K) : Bool := v.le a || (v - a).abs.lt (fin tol)

/-- Segment.cpp:23-33 `contains(point, p1, p2)`. -/
def contains (tol : K) (point p1 p2 : EPt K) : Bool :=
  let test1 := (geTol tol point.x p1.x && leTol tol point.x p2.x) ||
    (geTol tol point.x p2.x && leTol tol point.x p1.x)
  let test2 := (geTol tol point.y p1.y && leTol tol point.y p2.y) ||
    (geTol tol point.y p2.y && leTol tol point.y p1.y)
  test1 && test2 &&
    (p1.x * (p2.y - point.y) + p2.x * (point.y - p1.y) + point.x * (p1.y - p2.y)).abs.lt (fin tol)

/-- Polygon.cpp:159-165, the crossing test of one edge. -/
def crosses (z : Bool) (pI pJ q : EPt K) : Bool :=
  ((pI.y.le q.y && q.y.lt pJ.y) || (pJ.y.le q.y && q.y.lt pI.y)) &&
    (pI.x + Ext.div z (q.y - pI.y) (pJ.y - pI.y) * (pJ.x - pI.x)).lt q.x

/-- Polygon.cpp:151-167, the loop, on finite vertices and an arbitrary query point. -/
def oddLoop (z : Bool) (tol : K) (q : EPt K) : Pt K → Bool → List (Pt K) → Bool
  | _, odd, [] => odd
  | pJ, odd, pI :: l =>
    if pI.eqTol tol pJ then oddLoop z tol q pJ odd l
    else oddLoop z tol q pI (if crosses z pI.lift pJ.lift q then !odd else odd) l

/-- Polygon.cpp:147-174 `containsPoint`, finite vertices, arbitrary query point. -/
def containsPoint (z : Bool) (tol : K) (l : List (Pt K)) (q : EPt K) : Bool :=
  let onEdge := (cycPairs l).any (fun e => contains tol q e.1.lift e.2.lift)
  match l.getLast? with
  | none => onEdge
  | some c => if oddLoop z tol q c false l then true else onEdge

/-- Sum loop `acc += e` starting from 0. -/
def sum (l : List (Ext K)) : Ext K := l.foldl (· + ·) (fin 0)

/-- Polygon.cpp:127-145 `calculateCentroid` (with `signedArea`, 107-116). -/
def calculateCentroid (z : Bool) (l : List (Pt K)) : EPt K :=
  let cross := fun e : Pt K × Pt K => (fin e.1.x * fin e.2.y - fin e.2.x * fin e.1.y : Ext K)
  let sx := sum ((cycPairs l).map (fun e => (fin e.1.x + fin e.2.x) * cross e))
  let sy := sum ((cycPairs l).map (fun e => (fin e.1.y + fin e.2.y) * cross e))
  let A := fin (1 / 2) * sum ((cycPairs l).map cross)
  ⟨Ext.div z sx (fin 6 * A), Ext.div z sy (fin 6 * A)⟩

/-- Triangle.cpp:29-40 `calculateCircumcenter`. -/
def circumcenter (z : Bool) (a b c : Pt K) : EPt K :=
  let sq := fun p : Pt K => (fin p.x * fin p.x + fin p.y * fin p.y : Ext K)
  let d := (fin 2 : Ext K) * (fin a.x * (fin b.y - fin c.y) + fin b.x * (fin c.y - fin a.y) +
    fin c.x * (fin a.y - fin b.y))
  let x := sq a * (fin b.y - fin c.y) + sq b * (fin c.y - fin a.y) + sq c * (fin a.y - fin b.y)
  let y := sq a * (fin c.x - fin b.x) + sq b * (fin a.x - fin c.x) + sq c * (fin b.x - fin a.x)
  ⟨Ext.div z x d, Ext.div z y d⟩

/-- PointGenerator.cpp:28-34: the coordinate of grid line `j` of `n` over `[lo, lo + w]`;
`n - 1` is an `int` converted to `double`. -/
def gridCoord (z : Bool) (lo w : K) (n j : Int) : Ext K :=
  fin lo + fin (j : K) * Ext.div z (fin w) (fin ((n - 1 : Int) : K))

end Ieee
end Delynoi
