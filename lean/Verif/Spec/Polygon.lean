import Verif.Spec.Geometry
import Mathlib.Data.List.FinRange
import Mathlib.Data.Fintype.Basic
/-!
# Vocabulary for polygon properties: vertices by index, crossings, convexity
-/
namespace Delynoi
variable {K : Type} [Field K] [LinearOrder K]

/-- The vertex after the `i`-th one, cyclically. -/
def nextV {α : Type} (l : List α) (i : Fin l.length) : α :=
  l[(i.val + 1) % l.length]'(Nat.mod_lt _ (by have := i.isLt; omega))

/-- The edge `ab` (half-open in height: lower end included, upper end excluded) meets the
horizontal ray going left from `q`. -/
def CrossesLeft (a b q : Pt K) : Prop :=
  min a.y b.y ≤ q.y ∧ q.y < max a.y b.y ∧
    ∃ t, 0 ≤ t ∧ t ≤ 1 ∧ (lineAt a b t).y = q.y ∧ (lineAt a b t).x < q.x

open Classical in
/-- Number of edges crossed by the ray going left from `q`. -/
noncomputable def crossings (l : List (Pt K)) (q : Pt K) : Nat :=
  (List.finRange l.length).countP (fun i => decide (CrossesLeft l[i] (nextV l i) q))

/-- Cyclically consecutive vertices are the same or distinguishable by the tolerant `==`. -/
def NeighboursApart (tol : K) (l : List (Pt K)) : Prop :=
  ∀ i : Fin l.length, Close tol l[i] (nextV l i) → l[i] = nextV l i

/-- Strictly convex, counter-clockwise: every vertex not on an edge is strictly left of it. -/
def StrictlyConvexCCW (l : List (Pt K)) : Prop :=
  3 ≤ l.length ∧ ∀ i k : Fin l.length, k ≠ i → k.val ≠ (i.val + 1) % l.length →
    0 < turn l[i] (nextV l i) l[k]

/-- Strictly inside a counter-clockwise convex polygon. -/
def Inside (l : List (Pt K)) (q : Pt K) : Prop :=
  ∀ i : Fin l.length, 0 < turn l[i] (nextV l i) q

/-- Strictly outside a counter-clockwise convex polygon. -/
def Outside (l : List (Pt K)) (q : Pt K) : Prop :=
  ∃ i : Fin l.length, turn l[i] (nextV l i) q < 0

end Delynoi
