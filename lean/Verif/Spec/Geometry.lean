import Mathlib.Algebra.Order.Field.Basic
import Verif.Model.Point
/-!
# Geometric vocabulary for specifications

Only uses the coordinates of points.
-/
namespace Delynoi
variable {K : Type} [Field K] [LinearOrder K]

/-- The point at parameter `t` of the line through `a` and `b`. -/
def lineAt (a b : Pt K) (t : K) : Pt K := ⟨(1 - t) * a.x + t * b.x, (1 - t) * a.y + t * b.y⟩

/-- Two points agree to within `tol` in both coordinates. -/
def Close (tol : K) (a b : Pt K) : Prop := |a.x - b.x| < tol ∧ |a.y - b.y| < tol

/-- Direction vectors of the lines `ab` and `cd` are linearly dependent. -/
def Parallel (a b c d : Pt K) : Prop :=
  (b.x - a.x) * (d.y - c.y) = (b.y - a.y) * (d.x - c.x)

/-- Closeness is transitive in each coordinate on `S`: no chains of close values that drift
apart.  This holds e.g. when different coordinate values are at least `tol` apart. -/
def TolSeparated (tol : K) (S : Set (Pt K)) : Prop :=
  (∀ a ∈ S, ∀ b ∈ S, ∀ c ∈ S, |a.x - b.x| < tol → |b.x - c.x| < tol → |a.x - c.x| < tol) ∧
  (∀ a ∈ S, ∀ b ∈ S, ∀ c ∈ S, |a.y - b.y| < tol → |b.y - c.y| < tol → |a.y - c.y| < tol)

/-- Squared Euclidean distance. -/
def sqDist (a b : Pt K) : K := (a.x - b.x) ^ 2 + (a.y - b.y) ^ 2

/-- Twice the signed area of the triangle `abc`, positive iff counter-clockwise. -/
def turn (a b c : Pt K) : K := (b.x - a.x) * (c.y - a.y) - (b.y - a.y) * (c.x - a.x)

end Delynoi
