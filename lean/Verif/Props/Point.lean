import Verif.Model.Point
import Verif.Spec.Geometry
import Verif.Spec.UniqueList
import Mathlib.Tactic.Linarith
import Mathlib.Tactic.NormNum
import Mathlib.Data.Rat.Cast.Order
import Mathlib.Algebra.Order.Field.Rat
/-!
# Properties C08, C09: comparison of points
-/
namespace Delynoi
variable {K : Type} [Field K] [LinearOrder K] [IsStrictOrderedRing K]
open Pt

/-- C08: `==` says exactly that both coordinates agree within the tolerance. -/
theorem C08_eq_iff_close (tol : K) (a b : Pt K) : a.eqTol tol b = true ↔ Close tol a b := by
  simp [eqTol, Close]

/-- C08: `==` is reflexive for a positive tolerance. -/
theorem C08_eq_refl (tol : K) (h : 0 < tol) (a : Pt K) : a.eqTol tol a = true := by
  simp [eqTol, h]

/-- C08: `==` is symmetric. -/
theorem C08_eq_symm (tol : K) (a b : Pt K) : a.eqTol tol b = b.eqTol tol a := by
  simp [eqTol, abs_sub_comm]

/-- C08: exactly one of `a<b`, `b<a`, `a==b` (positive tolerance). -/
theorem C08_trichotomy (tol : K) (h : 0 < tol) (a b : Pt K) :
    (a.ltTol tol b = true ∧ b.ltTol tol a = false ∧ a.eqTol tol b = false) ∨
    (a.ltTol tol b = false ∧ b.ltTol tol a = true ∧ a.eqTol tol b = false) ∨
    (a.ltTol tol b = false ∧ b.ltTol tol a = false ∧ a.eqTol tol b = true) := by
  unfold ltTol eqTol
  rw [abs_sub_comm b.x a.x, abs_sub_comm b.y a.y]
  by_cases hx : |a.x - b.x| < tol
  · by_cases hy : |a.y - b.y| < tol
    · simp [hx, hy]
    · have hne : a.y ≠ b.y := by
        intro he; apply hy; simpa [he] using h
      rcases lt_or_gt_of_ne hne with hl | hl
      · simp [hx, hy, hl, hl.le]
      · simp [hx, hy, hl, hl.le]
  · have hne : a.x ≠ b.x := by
      intro he; apply hx; simpa [he] using h
    rcases lt_or_gt_of_ne hne with hl | hl
    · simp [hx, hl, hl.le]
    · simp [hx, hl, hl.le]

/-- C08: `a<b` means: smaller `x` by at least the tolerance, or `x` equal within the tolerance
and smaller `y` by at least the tolerance. -/
theorem C08_lt_iff (tol : K) (h : 0 < tol) (a b : Pt K) :
    a.ltTol tol b = true ↔
      a.x ≤ b.x - tol ∨ (|a.x - b.x| < tol ∧ a.y ≤ b.y - tol) := by
  unfold ltTol
  by_cases hx : |a.x - b.x| < tol
  · have hx' := abs_lt.1 hx
    have : ¬ a.x ≤ b.x - tol := by intro hc; linarith [hx'.1]
    simp only [hx, if_true, this, false_or, true_and]
    by_cases hy : |a.y - b.y| < tol
    · have hy' := abs_lt.1 hy
      have : ¬ a.y ≤ b.y - tol := by intro hc; linarith [hy'.1]
      simp [hy, this]
    · simp only [hy, if_false, decide_eq_true_eq]
      rw [abs_lt, not_and_or] at hy
      constructor
      · intro hl
        rcases hy with hy | hy <;> linarith
      · intro hl; linarith
  · simp only [hx, if_false, decide_eq_true_eq, false_and, or_false]
    rw [abs_lt, not_and_or] at hx
    constructor
    · intro hl
      rcases hx with hx | hx <;> linarith
    · intro hl; linarith

example : (⟨1, 2⟩ : Pt ℚ).eqTol (1/100) ⟨1 + 1/200, 2⟩ = true ∧
    (⟨1, 2⟩ : Pt ℚ).ltTol (1/100) ⟨1 + 1/200, 3⟩ = true := by decide +kernel

/-- C09: on a tolerance-separated set `<` is a strict weak order, as `std::map` needs. -/
theorem C09_swo_of_separated (tol : K) (h : 0 < tol) (S : Set (Pt K)) (hS : TolSeparated tol S) :
    SWO (fun a b : Pt K => a.ltTol tol b) S := by
  obtain ⟨hx, hy⟩ := hS
  have eqv : ∀ a b : Pt K, a.ltTol tol b = false → b.ltTol tol a = false → Close tol a b := by
    intro a b h1 h2
    rcases C08_trichotomy tol h a b with h3 | h3 | h3
    · rw [h3.1] at h1; simp at h1
    · rw [h3.2.1] at h2; simp at h2
    · exact (C08_eq_iff_close tol a b).1 h3.2.2
  have eqv' : ∀ a b : Pt K, Close tol a b → a.ltTol tol b = false ∧ b.ltTol tol a = false := by
    intro a b hc
    have hc := (C08_eq_iff_close tol a b).2 hc
    rcases C08_trichotomy tol h a b with h3 | h3 | h3
    · rw [h3.2.2] at hc; simp at hc
    · rw [h3.2.2] at hc; simp at hc
    · exact ⟨h3.1, h3.2.1⟩
  refine ⟨?_, ?_, ?_⟩
  · intro a _
    simp [ltTol, h]
  · intro a ha b hb c hc hab hbc
    simp only [C08_lt_iff tol h] at hab hbc ⊢
    rcases hab with hab | ⟨hab, hab'⟩ <;> rcases hbc with hbc | ⟨hbc, hbc'⟩
    · left; linarith
    · -- a.x ≤ b.x - tol, b ≈ c in x
      left
      by_contra hcon
      have hac : |a.x - c.x| < tol := by
        rw [abs_lt] at hbc ⊢; constructor <;> linarith [hbc.1, hbc.2]
      have := hx a ha c hc b hb hac (by rwa [abs_sub_comm])
      rw [abs_lt] at this; linarith [this.1]
    · left
      by_contra hcon
      have hac : |a.x - c.x| < tol := by
        rw [abs_lt] at hab ⊢; constructor <;> linarith [hab.1, hab.2]
      have := hx b hb a ha c hc (by rwa [abs_sub_comm]) hac
      rw [abs_lt] at this; linarith [this.1]
    · right
      exact ⟨hx a ha b hb c hc hab hbc, by linarith⟩
  · intro a ha b hb c hc h1 h2 h3 h4
    have hab := eqv a b h1 h2
    have hbc := eqv b c h3 h4
    exact eqv' a c ⟨hx a ha b hb c hc hab.1 hbc.1, hy a ha b hb c hc hab.2 hbc.2⟩

/-- C09: a sufficient condition that is easy to check - distinct coordinates differ by at least
the tolerance. -/
theorem C09_separated_of_gap (tol : K) (_h : 0 < tol) (S : Set (Pt K))
    (hx : ∀ a ∈ S, ∀ b ∈ S, a.x = b.x ∨ tol ≤ |a.x - b.x|)
    (hy : ∀ a ∈ S, ∀ b ∈ S, a.y = b.y ∨ tol ≤ |a.y - b.y|) : TolSeparated tol S := by
  refine ⟨?_, ?_⟩
  · intro a ha b hb c _ h1 h2
    rcases hx a ha b hb with he | he
    · rwa [he]
    · exact absurd h1 (not_lt.2 he)
  · intro a ha b hb c _ h1 h2
    rcases hy a ha b hb with he | he
    · rwa [he]
    · exact absurd h1 (not_lt.2 he)

/-- C09 without the restriction is violated: for every tolerance there is a cycle
`a < b < c < a`, so `operator<` is not transitive. -/
theorem C09_cycle_refuted (tol : K) (h : 0 < tol) :
    ∃ a b c : Pt K, a.ltTol tol b = true ∧ b.ltTol tol c = true ∧ c.ltTol tol a = true := by
  refine ⟨⟨6 / 5 * tol, 0⟩, ⟨3 / 5 * tol, tol⟩, ⟨0, 2 * tol⟩, ?_, ?_, ?_⟩
  · rw [C08_lt_iff tol h]; right
    refine ⟨?_, by simp⟩
    simp only; rw [abs_lt]; constructor <;> linarith
  · rw [C08_lt_iff tol h]; right
    refine ⟨?_, ?_⟩
    · simp only; rw [abs_lt]; constructor <;> linarith
    · simp only; linarith
  · rw [C08_lt_iff tol h]; left; simp only; linarith

/-- C09: `==` is not transitive either. -/
theorem C09_eq_not_transitive (tol : K) (h : 0 < tol) :
    ∃ a b c : Pt K, a.eqTol tol b = true ∧ b.eqTol tol c = true ∧ a.eqTol tol c = false := by
  refine ⟨⟨0, 0⟩, ⟨3 / 5 * tol, 0⟩, ⟨6 / 5 * tol, 0⟩, ?_, ?_, ?_⟩
  · rw [C08_eq_iff_close]; refine ⟨?_, by simp [h]⟩
    simp only; rw [abs_lt]; constructor <;> linarith
  · rw [C08_eq_iff_close]; refine ⟨?_, by simp [h]⟩
    simp only; rw [abs_lt]; constructor <;> linarith
  · rw [← Bool.not_eq_true, C08_eq_iff_close]
    intro hc
    have := (abs_lt.1 hc.1).1
    simp only at this; linarith

/-- A unit grid is tolerance-separated for every tolerance up to 1. -/
example : TolSeparated (1/100 : ℚ) {p | ∃ i j : ℤ, p = ⟨i, j⟩} := by
  apply C09_separated_of_gap _ (by norm_num)
  all_goals
    rintro a ⟨i, j, rfl⟩ b ⟨k, l, rfl⟩
    simp only
  · by_cases he : i = k
    · left; rw [he]
    · right
      have h1 : (1 : ℤ) ≤ |i - k| := Int.one_le_abs (sub_ne_zero.2 he)
      have h2 : (1 : ℚ) ≤ |(i : ℚ) - k| := by exact_mod_cast h1
      linarith
  · by_cases he : j = l
    · left; rw [he]
    · right
      have h1 : (1 : ℤ) ≤ |j - l| := Int.one_le_abs (sub_ne_zero.2 he)
      have h2 : (1 : ℚ) ≤ |(j : ℚ) - l| := by exact_mod_cast h1
      linarith

end Delynoi
