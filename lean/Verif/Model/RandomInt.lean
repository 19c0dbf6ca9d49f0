import Verif.Model.Region
import Verif.Model.Generator
/-!
# Integer distributions (RandomInteger.cpp, RandomIntegerNoise.cpp)

Model/Generator treats the numbers an object draws as an arbitrary sequence; here the constructors
and the range of the distribution are modelled too.
-/
namespace Delynoi
variable {K : Type} [Field K] [LinearOrder K] [IsStrictOrderedRing K] [FloorRing K]

/-- RandomInteger.cpp:9 and RandomIntegerNoise.cpp:10, `std::uniform_int_distribution<int>(min,max)`
with `double` arguments: both are converted to `int` (truncation, undefined out of range), and a
distribution with `min > max` is undefined. -/
def uniformInt (min max : K) : Outcome (Int × Int) := do
  let a ← Region.toInt min
  let b ← Region.toInt max
  if a ≤ b then .ok (a, b) else .ub

/-- RandomInteger.cpp:13, one value of the distribution.  What the engine contributes is an
arbitrary number `n`; the distribution maps it onto its range. -/
def uniformDraw (p : Int × Int) (n : Nat) : Int := p.1 + (n : Int) % (p.2 - p.1 + 1)

/-- RandomInteger.cpp:6-14: construction and the functor obtained, for an arbitrary engine. -/
def randomInteger (min max : K) (engine : Nat → Nat) : Outcome (Fn Nat K) := do
  let p ← uniformInt min max
  return Fn.random (fun k => (uniformDraw p (engine k) : K))

/-- RandomIntegerNoise.cpp:6-15: construction and the functor obtained; `engine k` are the two
numbers the engine contributes to the `k`-th call. -/
def randomIntegerNoise {σ : Type} (f : Fn σ K) (min max : K) (engine : Nat → Nat × Nat) :
    Outcome (Fn (σ × Nat) K) := do
  let p ← uniformInt min max
  return Fn.integerNoise f (fun k => (uniformDraw p (engine k).1, uniformDraw p (engine k).2))

end Delynoi
