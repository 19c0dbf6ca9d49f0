import Verif.Model.BoundingBox
import Verif.Model.UniqueList
import Verif.Model.Outcome
/-!
# Point generators and functors (delynoi/src/models/generator)

A value is `Option K`: `none` is NaN, which arises from `0 * (w / 0)` when a single row or column
is requested (`Verif.Props.Ieee`).  A functor object has mutable state; `σ` is the joint state of
all functor objects, so two generators may share one functor.
-/
namespace Delynoi

/-- Functor.h:14 `virtual double apply(double x)` on the joint state. -/
abbrev Fn (σ K : Type) := σ → Option K → Outcome (Option K × σ)

/-- A sequence of calls of one functor, results in order and final state. -/
def Fn.run {σ K : Type} (f : Fn σ K) : σ → List (Option K) → Outcome (List (Option K) × σ)
  | s, [] => .ok ([], s)
  | s, x :: xs => do
    let r ← f s x
    let rs ← Fn.run f r.2 xs
    return (r.1 :: rs.1, rs.2)

section
variable {K : Type} [Field K] [LinearOrder K]

/-- FunctorClasses.cpp:7-11 `Constant`. -/
def Fn.constantClass : Fn Unit K := fun s x => .ok (x, s)

/-- FunctorClasses.cpp:13-19 `Uniform` (functions.cpp:20-22 `uniform`). -/
def Fn.uniform (delta : K) : Fn Unit K := fun s x => .ok (x.map (fun v => v * delta), s)

/-- functions.cpp:7-9 `constant()` is `Uniform(1.0)`. -/
def Fn.constant : Fn Unit K := Fn.uniform 1

/-- FunctorClasses.cpp:55-73 `DisplaceDelta`; the state is `alternating`, initially `false`. -/
def Fn.displace (delta : K) : Fn Bool K := fun alt x =>
  let alt := !alt
  if alt then .ok (x.map (fun v => v + delta / 2), alt) else .ok (x, alt)

/-- FunctorClasses.cpp:77-79 fields; `delta` is uninitialised at first (`none`). -/
structure AltState (K : Type) where
  visited : UList (Option K)
  delta : Option (Option K)
  alternating : Bool

/-- Initial state, FunctorClasses.cpp:77-81. -/
def AltState.init : AltState K := ⟨UList.empty, none, false⟩

/-- `<` on `double`, false with NaN. -/
def ltNum : Option K → Option K → Bool
  | some a, some b => decide (a < b)
  | _, _ => false

/-- `std::abs(a - b)` with NaN. -/
def absDiff : Option K → Option K → Option K
  | some a, some b => some |a - b|
  | _, _ => none

/-- FunctorClasses.cpp:83-85: the update of `delta`. -/
def altDelta (s : AltState K) (x : Option K) : Option (Option K) :=
  match s.visited.list with
  | [v] => some (absDiff v x)
  | _ => s.delta

/-- FunctorClasses.cpp:82-99 `ConstantAlternating::apply`; reading the uninitialised `delta` is
undefined. -/
def Fn.alternating : Fn (AltState K) K := fun s x =>
  let delta := altDelta s x
  let r := UList.pushBack ltNum s.visited x
  let toggle := decide ((r.2 : Int) < (r.1.list.length : Int) - 1)
  let s' : AltState K :=
    if toggle then ⟨UList.clear r.1, delta, !s.alternating⟩ else ⟨r.1, delta, s.alternating⟩
  if s'.alternating then
    match delta with
    | none => .ub
    | some d => .ok (x.bind (fun v => d.map (fun w => v + w / 2)), s')
  else .ok (x, s')

/-- RandomDoubleNoise.cpp:15-17 `apply`: the inner functor's result plus
`uni * (uni_int % 2 ? 1 : -1)`.  `draw k` are the values `(uni, uni_int)` this object obtains in
its `k`-th call.  The engine is shared by all objects of the class; as `draw` is an arbitrary
sequence, whatever the other objects draw in between is covered. -/
def Fn.doubleNoise {σ : Type} (f : Fn σ K) (draw : Nat → K × Int) : Fn (σ × Nat) K := fun s x => do
  let r ← f s.1 x
  let d := draw s.2
  return (r.1.map (fun v => v + d.1 * (if d.2 % 2 ≠ 0 then 1 else -1)), (r.2, s.2 + 1))

/-- RandomIntegerNoise.cpp:13-15 `apply`: two separate draws of the same integer distribution; in
C++ it is unspecified which of the two is made first, so `draw k` is the pair (value, sign draw)
of the `k`-th call.  `%` truncates in C++, but only whether the result is zero matters.  The product
is an `int`: negating the least one overflows. -/
def Fn.integerNoise {σ : Type} (f : Fn σ K) (draw : Nat → Int × Int) : Fn (σ × Nat) K := fun s x => do
  let r ← f s.1 x
  let d := draw s.2
  let z : Int := d.1 * (if d.2 % 2 ≠ 0 then 1 else -1)
  if 2147483647 < z then .ub
  else return (r.1.map (fun v => v + (z : K)), (r.2, s.2 + 1))

/-- RandomDouble.cpp:12-14 and RandomInteger.cpp:12-14 `apply`: the argument is ignored. -/
def Fn.random (draw : Nat → K) : Fn Nat K := fun s _ => .ok (some (draw s), s + 1)

/-- A functor acting on one part of the joint state. -/
def Fn.onFst {σ τ : Type} (f : Fn σ K) : Fn (σ × τ) K := fun s x => do
  let r ← f s.1 x
  return (r.1, (r.2, s.2))

/-- A functor acting on the other part of the joint state. -/
def Fn.onSnd {σ τ : Type} (f : Fn τ K) : Fn (σ × τ) K := fun s x => do
  let r ← f s.2 x
  return (r.1, (s.1, r.2))

/-- functions.h:15 `independent_variable`. -/
inductive Var where
  | x | y | both
  deriving DecidableEq, Repr

/-- PointGenerator.h:17-26 fields; an uninitialised functor pointer is `none`. -/
structure Gen (σ K : Type) where
  lX : Option (Fn σ K)
  lY : Option (Fn σ K)
  var : Var

namespace Gen
variable {σ : Type}

/-- PointGenerator.cpp:5-10. -/
def ofTwo (lX lY : Fn σ K) : Gen σ K := ⟨some lX, some lY, .both⟩

/-- PointGenerator.cpp:12-25. -/
def ofOne (l : Fn σ K) : Var → Outcome (Gen σ K)
  | .x => .ok ⟨none, some l, .x⟩
  | .y => .ok ⟨some l, none, .y⟩
  | .both => .exn

/-- Dereferencing a functor pointer and calling `apply`. -/
def call (f : Option (Fn σ K)) (s : σ) (x : Option K) : Outcome (Option K × σ) :=
  match f with
  | none => .ub
  | some f => f s x

/-- Floating point addition with NaN. -/
def addNum : Option K → Option K → Option K
  | some a, some b => some (a + b)
  | _, _ => none

/-- PointGenerator.cpp:41-51 `result`.  On line 48 the order of the two `apply` calls is
unspecified in C++: `xFirst` chooses it. -/
def result (xFirst : Bool) (g : Gen σ K) (s : σ) (x y : Option K) :
    Outcome (Pt (Option K) × σ) :=
  match g.var with
  | .x => do
    let r ← call g.lY s x
    return (⟨x, addNum y r.1⟩, r.2)
  | .y => do
    let r ← call g.lX s y
    return (⟨addNum x r.1, y⟩, r.2)
  | .both =>
    if xFirst then do
      let a ← call g.lX s x
      let b ← call g.lY a.2 y
      return (⟨a.1, b.1⟩, b.2)
    else do
      let b ← call g.lY s y
      let a ← call g.lX b.2 x
      return (⟨a.1, b.1⟩, a.2)

/-- PointGenerator.cpp:28-34: coordinate of grid line `j`; NaN when `n - 1` is zero (then
`j = 0`, and `0 * (w / 0)` is NaN whatever `w` is). -/
def gridCoord (lo w : K) (n : Int) (j : Nat) : Option K :=
  if n = 1 then none else some (lo + (j : K) * (w / ((n - 1 : Int) : K)))

/-- PointGenerator.cpp:31-38: the two loops, over the pairs `(i, j)` in loop order. -/
def genLoop (xFirst : Bool) (g : Gen σ K) (box : BBox K) (nX nY : Int) :
    σ → List (Nat × Nat) → Outcome (List (Pt (Option K)) × σ)
  | s, [] => .ok ([], s)
  | s, (i, j) :: l => do
    let r ← result xFirst g s (gridCoord box.xMin box.width nX j) (gridCoord box.yMin box.height nY i)
    let rs ← genLoop xFirst g box nX nY r.2 l
    return (r.1 :: rs.1, rs.2)

/-- Index pairs visited by `for i < nY, for j < nX`. -/
def gridPairs (nX nY : Int) : List (Nat × Nat) :=
  (List.range nY.toNat).flatMap (fun i => (List.range nX.toNat).map (fun j => (i, j)))

/-- PointGenerator.cpp:27-39 `generate` (the appended points). -/
def generate (xFirst : Bool) (g : Gen σ K) (s : σ) (box : BBox K) (nX nY : Int) :
    Outcome (List (Pt (Option K)) × σ) :=
  genLoop xFirst g box nX nY s (gridPairs nX nY)

end Gen
end
end Delynoi
