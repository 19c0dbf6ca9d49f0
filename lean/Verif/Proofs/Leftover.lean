import Verif.Model.Leftover
import Verif.Proofs.Resolve
import Mathlib.Algebra.BigOperators.Group.Finset.Basic
import Mathlib.Algebra.BigOperators.Intervals
import Mathlib.Algebra.BigOperators.Field
import Mathlib.Tactic.Ring
/-!
# Lemmas for the area of a list of points
-/
set_option linter.unusedSectionVars false
namespace Delynoi
variable {K : Type} [Field K] [LinearOrder K]

/-- Going once around, a sum over the next vertices is the sum over the vertices. -/
theorem sum_around (n : Nat) (f : Nat → K) :
    ∑ i ∈ Finset.range n, f ((i + 1) % n) = ∑ i ∈ Finset.range n, f i := by
  cases n with
  | zero => rfl
  | succ m =>
    rw [Finset.sum_range_succ, Finset.sum_range_succ', Nat.mod_self]
    congr 1
    refine Finset.sum_congr rfl fun i hi => ?_
    rw [Nat.mod_eq_of_lt (by have := Finset.mem_range.1 hi; omega)]

theorem vecGet_getD {α : Type} (v : List α) (d : α) (i : Nat) (h : i < v.length) :
    vecGet v (i : Int) = .ok (v.getD i d) := by
  simp [vecGet, List.getElem?_eq_getElem h]

theorem areaFrom_eq (p : List (Pt K)) (hp : 0 < p.length) (d : Pt K) : ∀ (m i : Nat) (s : K),
    areaFrom p i m s = .ok (s + ∑ j ∈ Finset.range m,
      triangleArea (p.getD ((i + j) % p.length) d) (p.getD ((i + j + 1) % p.length) d) (p.getD 0 d))
  | 0, i, s => by simp [areaFrom]
  | m + 1, i, s => by
    have h0 := vecGet_getD p d 0 hp
    rw [areaFrom, vecGet_getD p d _ (Nat.mod_lt _ hp), vecGet_getD p d _ (Nat.mod_lt _ hp)]
    rw [show ((0 : Nat) : Int) = 0 from rfl] at h0
    rw [h0]
    simp only [Outcome.bind_ok]
    rw [areaFrom_eq p hp d m, Finset.sum_range_succ', add_assoc]
    congr 2
    rw [add_comm]
    congr 1
    exact Finset.sum_congr rfl fun j _ => by rw [show i + 1 + j = i + (j + 1) by omega]

theorem fan_around (n : Nat) (P : Nat → Pt K) (o : Pt K) :
    ∑ i ∈ Finset.range n, triangleArea (P (i % n)) (P ((i + 1) % n)) o =
      (∑ i ∈ Finset.range n, ((P i).x * (P ((i + 1) % n)).y - (P ((i + 1) % n)).x * (P i).y)) / 2 := by
  have h1 : ∀ i ∈ Finset.range n, triangleArea (P (i % n)) (P ((i + 1) % n)) o =
      ((P i).x * (P ((i + 1) % n)).y - (P ((i + 1) % n)).x * (P i).y) / 2
        + ((P ((i + 1) % n)).x * o.y - o.x * (P ((i + 1) % n)).y) / 2
        - ((P i).x * o.y - o.x * (P i).y) / 2 := by
    intro i hi
    rw [Nat.mod_eq_of_lt (Finset.mem_range.1 hi)]
    simp only [triangleArea, area2, crossProduct, Pt.sub]
    ring
  rw [Finset.sum_congr rfl h1, Finset.sum_sub_distrib, Finset.sum_add_distrib,
    sum_around n (fun i => ((P i).x * o.y - o.x * (P i).y) / 2), Finset.sum_div]
  ring

end Delynoi
