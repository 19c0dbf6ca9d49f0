import Mathlib.Algebra.Order.Field.Rat
/-!
# Global configuration (delynoi/src/config/DelynoiConfig.cpp)
-/
namespace Delynoi

/-- DelynoiConfig.h:9-30, fields.  The tolerance is a `double`, here a rational number. -/
structure Config where
  grade : Int
  tol : ℚ
  scale : Int
  precision : Int
  deriving DecidableEq

namespace Config

/-- lib/utilities/include/utilities/Precision.h:5. -/
inductive Preset where
  | small
  | mid
  | large
  deriving DecidableEq

/-- Values of the enumerators, Precision.h:5. -/
def Preset.value : Preset → Int
  | .small => 6
  | .mid => 10
  | .large => 16

/-- DelynoiConfig.cpp:5-10, constructor (`0.00001` is a `double` close to this). -/
def new : Config := ⟨12, 1 / 100000, 100000, 6⟩

/-- Calls on the singleton. -/
inductive Op where
  | setDiscretizationGrade (d : Int)
  | setTolerance (t : ℚ)
  | setScale (s : Int)
  | setPreset (p : Preset)
  | setPrecision (p : Int)
  | getDiscretizationGrade
  | getTolerance
  | getScale
  | getPrecision

/-- What a call returns. -/
inductive Ret where
  | unit
  | int (i : Int)
  | dbl (q : ℚ)
  deriving DecidableEq

/-- DelynoiConfig.cpp:12-46: one call on the object. -/
def call (c : Config) : Op → Config × Ret
  | .setDiscretizationGrade d => ({ c with grade := d }, .unit)
  | .setTolerance t => ({ c with tol := t }, .unit)
  | .setScale s => ({ c with scale := s }, .unit)
  | .setPreset p => ({ c with precision := p.value }, .unit)
  | .setPrecision p => ({ c with precision := p }, .unit)
  | .getDiscretizationGrade => (c, .int c.grade)
  | .getTolerance => (c, .dbl c.tol)
  | .getScale => (c, .int c.scale)
  | .getPrecision => (c, .int c.precision)

end Config

/-- DelynoiConfig.cpp:48-54 `instance`: `s_instance` (`none` = `nullptr`, line 3) is created on the
first use. -/
def configInstance (s : Option Config) : Option Config × Config :=
  match s with
  | none => (some Config.new, Config.new)
  | some c => (some c, c)

/-- A program only reaches the configuration through `DelynoiConfig::instance()->...`. -/
def configCall (s : Option Config) (o : Config.Op) : Option Config × Config.Ret :=
  let i := configInstance s
  let r := i.2.call o
  (some r.1, r.2)

/-- A whole program: the results of all calls. -/
def configRun : Option Config → List Config.Op → Option Config × List Config.Ret
  | s, [] => (s, [])
  | s, o :: os =>
    let r := configCall s o
    let rs := configRun r.1 os
    (rs.1, r.2 :: rs.2)

end Delynoi
