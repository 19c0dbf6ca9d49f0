import Verif.Model.Point
/-!
# Input of Triangle: specification
-/
namespace Delynoi.Tri

/-- `lo` and `hi` are the corners of the smallest box around the points. -/
structure IsBox {K : Type} [LinearOrder K] (pts : List (Pt K)) (lo hi : Pt K) : Prop where
  bound : ∀ q ∈ pts, lo.x ≤ q.x ∧ q.x ≤ hi.x ∧ lo.y ≤ q.y ∧ q.y ≤ hi.y
  left : ∃ q ∈ pts, q.x = lo.x
  right : ∃ q ∈ pts, q.x = hi.x
  bottom : ∃ q ∈ pts, q.y = lo.y
  top : ∃ q ∈ pts, q.y = hi.y

/-- The segments (two numbers, counted from `first`, and a marker) that link different points, by the positions of the points. -/
noncomputable def realSegs {K : Type} (pts : List (Pt K)) (first : Int) (segs : List ((Int × Int) × Int)) : List (Nat × Nat × Int) :=
  open Classical in
  segs.filterMap fun s =>
    if 0 ≤ s.1.1 - first ∧ 0 ≤ s.1.2 - first ∧
        ∃ p q, pts[(s.1.1 - first).toNat]? = some p ∧ pts[(s.1.2 - first).toNat]? = some q ∧ p ≠ q
      then some ((s.1.1 - first).toNat, (s.1.2 - first).toNat, s.2) else none

end Delynoi.Tri
