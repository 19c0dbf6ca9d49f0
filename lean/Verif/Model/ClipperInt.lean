import Verif.Model.Outcome
/-!
# Clipper's integer arithmetic (hole/clipper/lib/clipper.cpp:244-380, 541-576, 896-909)

`cInt`/`long64` is a signed 64-bit integer: an `Int` with overflow undefined (`i64`).  `ulong64` is
a `Nat` below `2^64`, computed modulo `2^64`.
-/
namespace Delynoi.Clip

/-- Result of a signed 64-bit operation: overflow is undefined. -/
def i64 (z : Int) : Outcome Int :=
  if -9223372036854775808 ≤ z ∧ z ≤ 9223372036854775807 then .ok z else .ub

/-- Reduction of an unsigned 64-bit operation. -/
def u64 (n : Nat) : Nat := n % 18446744073709551616

/-- Conversion of a signed 64-bit number to unsigned. -/
def toU64 (z : Int) : Nat := (z % 18446744073709551616).toNat

/-- Conversion of an unsigned 64-bit number to signed (two's complement). -/
def toI64 (n : Nat) : Int :=
  if n < 9223372036854775808 then (n : Int) else (n : Int) - 18446744073709551616

/-- clipper.hpp:85-90 `IntPoint` (without `use_xyz`). -/
structure IPt where
  X : Int
  Y : Int
deriving DecidableEq, Repr

/-- clipper.cpp:251-255 class `Int128`. -/
structure I128 where
  lo : Nat
  hi : Int
deriving DecidableEq, Repr

namespace I128

/-- clipper.cpp:257-261 constructor from a 64-bit number, and 268-273 `operator=`. -/
def of (v : Int) : I128 := ⟨toU64 v, if v < 0 then -1 else 0⟩

/-- clipper.cpp:275-276 `operator==`. -/
def eq (a b : I128) : Bool := decide (a.hi = b.hi) && decide (a.lo = b.lo)

/-- clipper.cpp:281-287 `operator>`. -/
def gt (a b : I128) : Bool := if a.hi ≠ b.hi then decide (a.hi > b.hi) else decide (a.lo > b.lo)

/-- clipper.cpp:289-295 `operator<`. -/
def lt (a b : I128) : Bool := if a.hi ≠ b.hi then decide (a.hi < b.hi) else decide (a.lo < b.lo)

/-- clipper.cpp:297-298 `operator>=`. -/
def ge (a b : I128) : Bool := !(lt a b)

/-- clipper.cpp:300-301 `operator<=`. -/
def le (a b : I128) : Bool := !(gt a b)

/-- clipper.cpp:303-309 `operator+=` and 311-316 `operator+`. -/
def add (a b : I128) : Outcome I128 := do
  let hi ← i64 (a.hi + b.hi)
  let lo := u64 (a.lo + b.lo)
  if lo < b.lo then
    let hi' ← i64 (hi + 1)
    return ⟨lo, hi'⟩
  else return ⟨lo, hi⟩

/-- clipper.cpp:331-337 unary `operator-`; `~x` is `-x - 1` on signed and `2^64 - 1 - x` on unsigned
numbers. -/
def neg (a : I128) : Outcome I128 :=
  if a.lo = 0 then do
    let h ← i64 (-a.hi)
    return ⟨0, h⟩
  else .ok ⟨u64 (18446744073709551615 - a.lo + 1), -a.hi - 1⟩

/-- clipper.cpp:318-322 `operator-=` and 324-329 `operator-`. -/
def sub (a b : I128) : Outcome I128 := do
  let n ← neg b
  add a n

/-- clipper.cpp:339-349 `operator double`, without the rounding. -/
def toDouble (a : I128) : Int :=
  if a.hi < 0 then
    if a.lo = 0 then a.hi * 18446744073709551616
    else -(((18446744073709551615 - a.lo : Nat) : Int) + (-a.hi - 1) * 18446744073709551616)
  else (a.lo : Int) + a.hi * 18446744073709551616

/-- clipper.cpp:358 and 362, `if (x < 0) x = -x`. -/
def absolute (x : Int) : Outcome Int := if x < 0 then i64 (-x) else .ok x

/-- clipper.cpp:372-375, the upper word `hi`, the lower word `c << 32`, to which `b` is added with
carry. -/
def withCarry (hi : Int) (l b : Nat) : Outcome I128 :=
  let lo := u64 (l + b)
  if lo < b then do
    let h ← i64 (hi + 1)
    return ⟨lo, h⟩
  else .ok ⟨lo, hi⟩

/-- clipper.cpp:354-380 `Int128Mul`.  `tmp.lo` is assigned from `long64` values, which only takes
the number to signed and back. -/
def mul (lhs rhs : Int) : Outcome I128 := do
  let negate : Bool := decide (lhs < 0) != decide (rhs < 0)
  let lhs ← absolute lhs
  let int1Hi := toU64 lhs / 4294967296
  let int1Lo := toU64 lhs % 4294967296
  let rhs ← absolute rhs
  let int2Hi := toU64 rhs / 4294967296
  let int2Lo := toU64 rhs % 4294967296
  let a := u64 (int1Hi * int2Hi)
  let b := u64 (int1Lo * int2Lo)
  let c := u64 (u64 (int1Hi * int2Lo) + u64 (int1Lo * int2Hi))
  let tmp ← withCarry (toI64 (u64 (a + c / 4294967296))) (u64 (c * 4294967296)) b
  if negate then neg tmp else .ok tmp

end I128

/-- clipper.hpp:78 `loRange`. -/
def loRange : Int := 1073741823

/-- clipper.hpp:79 `hiRange`. -/
def hiRange : Int := 4611686018427387903

/-- The comparison of two products of differences in `SlopesEqual`: `a * b == c * d`, with 128 bits
if the full range is in use (clipper.cpp:544-550, 558-563, 570-575). -/
def productsEqual (full : Bool) (a b c d : Int) : Outcome Bool :=
  if full then do
    let u ← I128.mul a b
    let v ← I128.mul c d
    return I128.eq u v
  else do
    let u ← i64 (a * b)
    let v ← i64 (c * d)
    return decide (u = v)

/-- clipper.cpp:541-551 `SlopesEqual` of two edges, given by their ends. -/
def slopesEqualE (bot1 top1 bot2 top2 : IPt) (full : Bool) : Outcome Bool := do
  let a ← i64 (top1.Y - bot1.Y)
  let b ← i64 (top2.X - bot2.X)
  let c ← i64 (top1.X - bot1.X)
  let d ← i64 (top2.Y - bot2.Y)
  productsEqual full a b c d

/-- clipper.cpp:554-563 `SlopesEqual` of three points. -/
def slopesEqual3 (p1 p2 p3 : IPt) (full : Bool) : Outcome Bool := do
  let a ← i64 (p1.Y - p2.Y)
  let b ← i64 (p2.X - p3.X)
  let c ← i64 (p1.X - p2.X)
  let d ← i64 (p2.Y - p3.Y)
  productsEqual full a b c d

/-- clipper.cpp:566-575 `SlopesEqual` of four points. -/
def slopesEqual4 (p1 p2 p3 p4 : IPt) (full : Bool) : Outcome Bool := do
  let a ← i64 (p1.Y - p2.Y)
  let b ← i64 (p3.X - p4.X)
  let c ← i64 (p1.X - p2.X)
  let d ← i64 (p3.Y - p4.Y)
  productsEqual full a b c d

/-- The condition of `RangeTest`, `Pt.X > r || Pt.Y > r || -Pt.X > r || -Pt.Y > r`, evaluated from
left to right. -/
def outside (r : Int) (p : IPt) : Outcome Bool :=
  if p.X > r then .ok true
  else if p.Y > r then .ok true
  else do
    let nx ← i64 (-p.X)
    if nx > r then .ok true
    else do
      let ny ← i64 (-p.Y)
      return decide (ny > r)

/-- clipper.cpp:896-909 `RangeTest`; the result is the new `useFullRange`.  The recursive call has
`useFullRange` set and does not recur again. -/
def rangeTest (p : IPt) (full : Bool) : Outcome Bool :=
  if full then do
    let o ← outside hiRange p
    if o then .exn else .ok true
  else do
    let o ← outside loRange p
    if o then do
      let o' ← outside hiRange p
      if o' then .exn else .ok true
    else .ok false

/-- clipper.cpp:1068-1076 in `AddPath`: the range tests, one point after the other. -/
def rangeTests : List IPt → Bool → Outcome Bool
  | [], full => .ok full
  | p :: ps, full => do
    let f ← rangeTest p full
    rangeTests ps f

end Delynoi.Clip
