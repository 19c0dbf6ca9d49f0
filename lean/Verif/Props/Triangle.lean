import Verif.Model.Triangle
import Verif.Spec.Geometry
import Mathlib.Tactic.FieldSimp
import Mathlib.Tactic.LinearCombination
import Mathlib.Tactic.Ring
import Mathlib.Tactic.NormNum
import Mathlib.Data.Rat.Cast.Order
import Mathlib.Algebra.Order.Field.Rat
/-!
# Properties C37, C38: circumcenter and third point
-/
set_option linter.unusedSectionVars false
namespace Delynoi

section
variable {K : Type} [Field K] [LinearOrder K] [IsStrictOrderedRing K]

private theorem circumD_eq (a b c : Pt K) : circumD a b c = 2 * turn a b c := by
  unfold circumD turn; ring

/-- C37: the circumcenter exists exactly for non-collinear vertices. -/
theorem C37_defined_iff (a b c : Pt K) : (circumcenter a b c).isSome ↔ turn a b c ≠ 0 := by
  unfold circumcenter
  rw [circumD_eq]
  by_cases h : turn a b c = 0 <;> simp [h]

/-- C37: it is equidistant from the vertices, and the only such point. -/
theorem C37_circumcenter (a b c q : Pt K) (h : turn a b c ≠ 0) :
    circumcenter a b c = some q ↔ sqDist q a = sqDist q b ∧ sqDist q a = sqDist q c := by
  have hd : circumD a b c ≠ 0 := by rw [circumD_eq]; simpa using h
  have key : ∀ u : Pt K, circumcenter a b c = some u → sqDist u a = sqDist u b ∧ sqDist u a = sqDist u c := by
    intro u hu
    unfold circumcenter at hu
    rw [if_neg hd] at hu
    have hu := (Option.some.inj hu).symm
    have hx : u.x * circumD a b c = sqNorm a * (b.y - c.y) + sqNorm b * (c.y - a.y) + sqNorm c * (a.y - b.y) := by
      rw [hu]; field_simp
    have hy : u.y * circumD a b c = sqNorm a * (c.x - b.x) + sqNorm b * (a.x - c.x) + sqNorm c * (b.x - a.x) := by
      rw [hu]; field_simp
    constructor
    · apply mul_left_cancel₀ hd
      unfold sqDist
      unfold circumD sqNorm at *
      linear_combination (-2 * (a.x - b.x)) * hx + (-2 * (a.y - b.y)) * hy
    · apply mul_left_cancel₀ hd
      unfold sqDist
      unfold circumD sqNorm at *
      linear_combination (-2 * (a.x - c.x)) * hx + (-2 * (a.y - c.y)) * hy
  constructor
  · exact key q
  · rintro ⟨h1, h2⟩
    obtain ⟨u, hu⟩ : ∃ u, circumcenter a b c = some u := by
      unfold circumcenter; rw [if_neg hd]; exact ⟨_, rfl⟩
    obtain ⟨g1, g2⟩ := key u hu
    rw [hu]
    congr 1
    have e1 : (u.x - q.x) * (a.x - b.x) + (u.y - q.y) * (a.y - b.y) = 0 := by
      have h2 : (2 : K) ≠ 0 := by norm_num
      apply mul_left_cancel₀ h2
      unfold sqDist at *
      linear_combination h1 - g1
    have e2 : (u.x - q.x) * (a.x - c.x) + (u.y - q.y) * (a.y - c.y) = 0 := by
      have h2' : (2 : K) ≠ 0 := by norm_num
      apply mul_left_cancel₀ h2'
      unfold sqDist at *
      linear_combination h2 - g2
    have hx : u.x - q.x = 0 := by
      apply mul_left_cancel₀ h
      unfold turn
      linear_combination (a.y - c.y) * e1 - (a.y - b.y) * e2
    have hy : u.y - q.y = 0 := by
      apply mul_left_cancel₀ h
      unfold turn
      linear_combination -(a.x - c.x) * e1 + (a.x - b.x) * e2
    ext
    · linear_combination hx
    · linear_combination hy

/-- C37: the vertex order does not matter (also for collinear vertices, where there is none). -/
theorem C37_order (a b c : Pt K) :
    circumcenter b a c = circumcenter a b c ∧ circumcenter a c b = circumcenter a b c ∧
    circumcenter c b a = circumcenter a b c ∧ circumcenter b c a = circumcenter a b c ∧
    circumcenter c a b = circumcenter a b c := by
  have swap : ∀ a b c : Pt K, circumcenter b a c = circumcenter a b c := by
    intro a b c
    have e : circumD b a c = -circumD a b c := by unfold circumD; ring
    unfold circumcenter
    rw [e]
    simp only [neg_eq_zero]
    split
    · rfl
    · rename_i h
      congr 2
      · rw [div_eq_div_iff (neg_ne_zero.2 h) h]; ring
      · rw [div_eq_div_iff (neg_ne_zero.2 h) h]; ring
  have rot : ∀ a b c : Pt K, circumcenter b c a = circumcenter a b c := by
    intro a b c
    have e : circumD b c a = circumD a b c := by unfold circumD; ring
    unfold circumcenter
    rw [e]
    split
    · rfl
    · congr 2
      · ring
      · ring
  refine ⟨swap a b c, ?_, ?_, rot a b c, ?_⟩
  · exact (rot b a c).trans (swap a b c)
  · exact (rot c b a).symm.trans (swap a b c)
  · exact (rot c a b).symm

example : turn (⟨0, 0⟩ : Pt ℚ) ⟨4, 0⟩ ⟨0, 2⟩ ≠ 0 ∧
    circumcenter (⟨0, 0⟩ : Pt ℚ) ⟨4, 0⟩ ⟨0, 2⟩ = some ⟨2, 1⟩ := by decide +kernel

end

/-- C38: on a triangle with distinct vertices and an edge of it in either direction,
`thirdPoint` is the remaining vertex. -/
theorem C38_thirdPoint (pts : List Int) (e : EdgeData) (h3 : pts.length = 3) (hn : pts.Nodup)
    (h1 : e.p1 ∈ pts) (h2 : e.p2 ∈ pts) (h12 : e.p1 ≠ e.p2) :
    ∃ v, thirdPoint pts e = .ok v ∧ v ∈ pts ∧ v ≠ e.p1 ∧ v ≠ e.p2 ∧
      ∀ w ∈ pts, w = e.p1 ∨ w = e.p2 ∨ w = v := by
  match pts, h3 with
  | [a, b, c], _ =>
    simp only [List.nodup_cons, List.mem_cons, List.not_mem_nil, or_false, not_or, not_false_eq_true,
      List.nodup_nil, and_true] at hn h1 h2
    obtain ⟨⟨hab, hac⟩, hbc⟩ := hn
    refine ⟨_, rfl, ?_⟩
    unfold thirdPoint3
    rcases h1 with h1 | h1 | h1 <;> rcases h2 with h2 | h2 | h2 <;>
      (simp_all [eq_comm]; try grind)

/-- C38: orientation of the edge does not matter. -/
theorem C38_symmetric (pts : List Int) (e : EdgeData) (h3 : pts.length = 3) (hn : pts.Nodup)
    (h1 : e.p1 ∈ pts) (h2 : e.p2 ∈ pts) (h12 : e.p1 ≠ e.p2) :
    thirdPoint pts { e with p1 := e.p2, p2 := e.p1 } = thirdPoint pts e := by
  obtain ⟨v, hv, hv1, hv2, hv3, hv4⟩ := C38_thirdPoint pts e h3 hn h1 h2 h12
  obtain ⟨w, hw, hw1, hw2, hw3, hw4⟩ := C38_thirdPoint pts { e with p1 := e.p2, p2 := e.p1 } h3 hn h2 h1
    (Ne.symm h12)
  rw [hv, hw]
  congr 1
  rcases hv4 w hw1 with h | h | h
  · exact absurd h hw3
  · exact absurd h hw2
  · exact h

/-- C38: for fewer than three vertices `thirdPoint` reads a missing vertex. -/
theorem C38_thirdPoint_missing (pts : List Int) (e : EdgeData) (h : pts.length < 3) : thirdPoint pts e = .ub := by
  match pts, h with
  | [], _ => rfl
  | [_], _ => rfl
  | [_, _], _ => rfl
  | _ :: _ :: _ :: _, h => (simp only [List.length_cons] at h; omega)

example : thirdPoint [7, 4, 9] (EdgeData.mk' 9 7) = .ok 4 := by decide +kernel

end Delynoi
