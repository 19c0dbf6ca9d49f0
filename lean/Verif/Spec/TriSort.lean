import Verif.Model.Point
import Mathlib.Data.List.Basic
/-!
# Order needed by a divide-and-conquer algorithm with alternating cuts
-/
namespace Delynoi

/-- `CutReady le axis l`: the list `l` can be cut in the middle along `axis` (`le axis x y`: `x`
does not come after `y` along that axis), both halves can be cut along the other axis, and so
on; lists of at most three elements are in the order of axis 0. -/
inductive CutReady {V : Type} (le : Bool → V → V → Prop) : Bool → List V → Prop
  | small (axis : Bool) (l : List V) : l.length ≤ 3 → l.Pairwise (le false) →
      CutReady le axis l
  | cut (axis : Bool) (l r : List V) : 3 < l.length + r.length →
      l.length = (l.length + r.length) / 2 → (∀ x ∈ l, ∀ y ∈ r, le axis x y) →
      CutReady le (!axis) l → CutReady le (!axis) r → CutReady le axis (l ++ r)

/-- `p` does not come after `q` in the order of the first coordinate (`axis = false`) or the
second one, ties broken by the other. -/
def AxisLe {K : Type} [LinearOrder K] (axis : Bool) (p q : Pt K) : Prop :=
  if axis then p.y < q.y ∨ (p.y = q.y ∧ p.x ≤ q.x) else p.x < q.x ∨ (p.x = q.x ∧ p.y ≤ q.y)

end Delynoi
