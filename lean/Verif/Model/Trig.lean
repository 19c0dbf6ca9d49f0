import Verif.Model.Generator
import Verif.Model.Hole
import Verif.Model.Region
import Mathlib.Analysis.SpecialFunctions.Trigonometric.Basic
import Mathlib.Analysis.SpecialFunctions.Complex.Arg
/-!
# Angles, circles, arcs and the trigonometric functors

Over the reals: `sin`, `cos`, `M_PI` and `atan2` are the exact functions.
-/
namespace Delynoi

/-- lib/utilities/src/utilities.cpp:50-52 `radian`. -/
noncomputable def radian (angle : ℝ) : ℝ := angle * Real.pi / 180

/-- lib/utilities/src/utilities.cpp:54-58 `degrees`. -/
noncomputable def degrees (angle : ℝ) : ℝ :=
  (if angle > 0 then angle else 2 * Real.pi + angle) * 180 / Real.pi

/-- C `atan2(y, x)`: the angle in `(-π, π]` of the vector `(x, y)`, and 0 for the zero vector. -/
noncomputable def atan2 (y x : ℝ) : ℝ := Complex.arg ⟨x, y⟩

/-- Segment.cpp:40-46 `cartesianAngle`. -/
noncomputable def cartesianAngle (p1 p2 : Pt ℝ) : ℝ := degrees (atan2 (p2.y - p1.y) (p2.x - p1.x))

/-- Angle.h:19-26, the constructor; `int(a/360)` is undefined out of range. -/
def angleOf {K : Type} [Field K] [LinearOrder K] [FloorRing K] (a : K) : Outcome K := do
  let k ← Region.toInt (a / 360)
  let a := a - 360 * (k : K)
  if a ≥ 0 ∧ a < 180 then return a else return a - 180

/-- Angle.h:33-41 `operator<`. -/
def angleLt {K : Type} [Field K] [LinearOrder K] (tol : K) (a b : K) : Bool :=
  if |a - b| < tol then false else decide (a < b)

/-- lib/utilities/src/utilities.cpp:44-48 `normalize`; a zero vector gives NaN (`none`). -/
noncomputable def normalize (v : Pt ℝ) : Option (Pt ℝ) :=
  let norm := Real.sqrt (v.x ^ 2 + v.y ^ 2)
  if norm = 0 then none else some ⟨v.x / norm, v.y / norm⟩

/-- Circle.cpp:18-19 and delynoi_utilities.cpp:41-42: a point of the circle. -/
noncomputable def circlePoint (center : Pt ℝ) (radius angle : ℝ) : Pt ℝ :=
  ⟨center.x + radius * Real.cos (radian angle), center.y + radius * Real.sin (radian angle)⟩

/-- Circle.cpp:16-24, the loop with a bound on the number of tests; running out is `ub`. -/
noncomputable def circleLoop (center : Pt ℝ) (radius delta : ℝ) : Nat → ℝ → Outcome (List (Pt ℝ))
  | 0, _ => .ub
  | fuel + 1, angle =>
    if angle < 360 then do
      let rest ← circleLoop center radius delta fuel (angle + delta)
      return circlePoint center radius angle :: rest
    else .ok []

/-- Circle.cpp:10-27 `discretizeCircle`: `360 / grade` is an integer division (undefined for 0)
truncating toward zero. -/
noncomputable def discretizeCircle (fuel : Nat) (grade : Int) (center : Pt ℝ) (radius : ℝ) :
    Outcome (List (Pt ℝ)) :=
  if grade = 0 then .ub else circleLoop center radius ((Int.tdiv 360 grade : Int) : ℝ) fuel 0

/-- delynoi_utilities.cpp:32-51 `generateArcPoints`.  With `grade = 0` the step is `±inf` or NaN,
and the single point has NaN coordinates (`none`). -/
noncomputable def generateArcPoints (grade : Int) (center : Pt ℝ) (radius initAngle endAngle : ℝ) :
    List (Option (Pt ℝ)) :=
  (List.range (grade + 1).toNat).map (fun (i : Nat) =>
    if grade = 0 then none
    else some (circlePoint center radius (initAngle + (endAngle - initAngle) / (grade : ℝ) * (i : ℝ))))

/-- FunctorClasses.cpp:21-36 `Sine`. -/
noncomputable def Fn.sine (amplitude frecuency phase : ℝ) : Fn Unit ℝ := fun s x =>
  .ok (x.map (fun v => amplitude * Real.sin (radian (frecuency * v * 180) + radian phase)), s)

/-- FunctorClasses.cpp:38-53 `Cosine`. -/
noncomputable def Fn.cosine (amplitude frecuency phase : ℝ) : Fn Unit ℝ := fun s x =>
  .ok (x.map (fun v => amplitude * Real.cos (radian (frecuency * v * 180) + radian phase)), s)

end Delynoi
