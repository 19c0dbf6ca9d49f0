import Verif.Model.Point
import Mathlib.Algebra.Order.Field.Rat
/-!
# Vocabulary for rounding: binary64 numbers and error constants
-/
namespace Delynoi

/-- A finite binary64 number (any exponent upwards). -/
def IsDouble (x : ℚ) : Prop := ∃ m e : Int, -1074 ≤ e ∧ |m| < 2 ^ 53 ∧ x = (m : ℚ) * (2 : ℚ) ^ e

/-- A point with binary64 coordinates. -/
def DPt (p : Pt ℚ) : Prop := IsDouble p.x ∧ IsDouble p.y

/-- The unit roundoff of binary64. -/
def uRnd : ℚ := 1 / 2 ^ 53

/-- Half of the smallest positive binary64 number. -/
def etaRnd : ℚ := 1 / 2 ^ 1075

/-- `1 + u`. -/
def gRnd : ℚ := 1 + uRnd

/-- Two coordinates whose difference is a binary64 number, or which are at least the tolerance
apart. -/
def Sharp (tol x y : ℚ) : Prop := IsDouble (x - y) ∨ tol ≤ |x - y|

/-- The size of the two products in the orientation test. -/
def turnSize (a b c : Pt ℚ) : ℚ := |(b.x - a.x) * (c.y - a.y)| + |(b.y - a.y) * (c.x - a.x)|

/-- `x` is a multiple of `2 ^ e`. -/
def MultOf (e : Int) (x : ℚ) : Prop := ∃ k : Int, x = (k : ℚ) * (2 : ℚ) ^ e

/-- The coordinates are multiples of `2 ^ e`: zero, or not too small. -/
def Coarse (e : Int) (p : Pt ℚ) : Prop := MultOf e p.x ∧ MultOf e p.y

/-- Equal signs. -/
def SameSign (a b : ℚ) : Prop := (0 < a ↔ 0 < b) ∧ (a < 0 ↔ b < 0)

/-- The second component is zero or at least as large as the first. -/
def Rising : List ℚ → Prop
  | a :: b :: _ => b = 0 ∨ |a| ≤ |b|
  | _ => True

/-- `2 ^ l` is the last bit of `x`: an odd multiple of it. -/
def Lsb (l : Int) (x : ℚ) : Prop := ∃ k : Int, k % 2 = 1 ∧ x = (k : ℚ) * (2 : ℚ) ^ l

/-- The components of an expansion, after components with sum `S` and largest component `p`: a
component which is not zero has its last bit above all earlier components and above their sum. -/
def Expansion (S p : ℚ) : List ℚ → Prop
  | [] => True
  | x :: xs => IsDouble x ∧ ((x = 0 ∧ Expansion S p xs) ∨
      ∃ l, Lsb l x ∧ |p| < (2 : ℚ) ^ l ∧ |S| < 3 / 4 * (2 : ℚ) ^ l ∧ Expansion (S + x) x xs)

/-- `x` lies below the bits of `y`: `y` is a multiple of a power of two above `x`. -/
def Below (x y : ℚ) : Prop := ∃ s : Int, MultOf s y ∧ |x| < (2 : ℚ) ^ s

/-- Shewchuk's "nonoverlapping": one lies below the bits of the other. -/
def NonOverlap (x y : ℚ) : Prop := Below x y ∨ Below y x

/-- Shewchuk's "adjacent": overlapping, or after doubling one of them. -/
def Adjacent (x y : ℚ) : Prop := ¬(NonOverlap x y ∧ NonOverlap x (2 * y) ∧ NonOverlap (2 * x) y)

/-- Shewchuk's "strongly nonoverlapping": no two components overlap, none is adjacent to two others,
and adjacent ones are powers of two. -/
def StronglyNonOverlap (h : List ℚ) : Prop :=
  (∀ i j (hi : i < h.length) (hj : j < h.length), i ≠ j → NonOverlap h[i] h[j] ∧
    (Adjacent h[i] h[j] → (∃ s t : Int, |h[i]| = (2 : ℚ) ^ s ∧ |h[j]| = (2 : ℚ) ^ t) ∧
      ∀ m (hm : m < h.length), m ≠ i → m ≠ j → ¬Adjacent h[i] h[m]))

end Delynoi
