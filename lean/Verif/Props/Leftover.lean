import Verif.Proofs.Leftover
import Verif.Props.Triangle
import Verif.Props.PolygonMisc
/-!
# Properties C173, C174, C175: order of polygons, area of a list of points, triangles with a vector of centers
-/
set_option linter.unusedSectionVars false
namespace Delynoi

section
variable {K : Type} [Field K] [LinearOrder K] [IsStrictOrderedRing K]

/-- C173: `operator<` of polygons is irreflexive and transitive. -/
theorem C173_strict : (∀ a : Poly K, a.lt a = false) ∧
    ∀ a b c : Poly K, a.lt b = true → b.lt c = true → a.lt c = true := by
  constructor
  · intro a; simp [Poly.lt, BitVec.ult]
  · intro a b c h1 h2
    simp only [Poly.lt, BitVec.ult, decide_eq_true_eq] at *
    omega

/-- C173: two polygons are equal for `operator==` exactly if none is less than the other; so containers that use the one
and those that use the other treat the same polygons as equal. -/
theorem C173_equivalent (a b : Poly K) : a.eq b = true ↔ a.lt b = false ∧ b.lt a = false := by
  simp only [Poly.lt, Poly.eq, BitVec.ult, decide_eq_false_iff_not, beq_iff_eq, ← BitVec.toNat_inj]
  omega

/-- C173: neither the first vertex nor the direction matters, for the polygons on both sides. -/
theorem C173_perm (a b c : List Int) (h : a.Perm b) :
    (Poly.fresh a : Poly K).lt (Poly.fresh c) = (Poly.fresh b : Poly K).lt (Poly.fresh c) ∧
    (Poly.fresh c : Poly K).lt (Poly.fresh a) = (Poly.fresh c : Poly K).lt (Poly.fresh b) := by
  have e := C34_perm_equal_partial (K := K) a b h
  simp only [Poly.eq, beq_iff_eq] at e
  simp [Poly.lt, e]

/-- C173 does not give an order of the polygons: different polygons need not be comparable. -/
theorem C173_total_refuted : ∃ a b : List Int, a.Nodup ∧ b.Nodup ∧ ¬ a.Perm b ∧
    (Poly.fresh a : Poly ℚ).lt (Poly.fresh b) = false ∧ (Poly.fresh b : Poly ℚ).lt (Poly.fresh a) = false := by
  obtain ⟨a, b, ha, hb, hp, he⟩ := C34_refuted
  exact ⟨a, b, ha, hb, hp, (C173_equivalent _ _).1 he⟩

example : (Poly.fresh [1, 2, 3] : Poly ℚ).lt (Poly.fresh [1, 2, 4]) = true ∨
    (Poly.fresh [1, 2, 4] : Poly ℚ).lt (Poly.fresh [1, 2, 3]) = true := by decide +kernel

/-- C174: the area of a list of points is half of the sum of `x i * y (i + 1) - x (i + 1) * y i` around the polygon
(the default `d` is never read); no read is out of range, also for an empty list. -/
theorem C174_area (p : List (Pt K)) (d : Pt K) :
    areaOfPoints p = .ok ((∑ i ∈ Finset.range p.length,
      ((p.getD i d).x * (p.getD ((i + 1) % p.length) d).y - (p.getD ((i + 1) % p.length) d).x * (p.getD i d).y)) / 2) := by
  unfold areaOfPoints
  rcases Nat.eq_zero_or_pos p.length with h | h
  · simp [h, areaFrom]
  · rw [areaFrom_eq p h d, zero_add]
    simp only [Nat.zero_add]
    rw [fan_around p.length (fun i => p.getD i d) (p.getD 0 d)]

example : areaOfPoints [(⟨0, 0⟩ : Pt ℚ), ⟨4, 0⟩, ⟨4, 3⟩, ⟨2, 1⟩, ⟨0, 3⟩] = .ok 8 := by decide +kernel
example : areaOfPoints ([] : List (Pt ℚ)) = .ok 0 := by decide +kernel

/-- C175: a triangle with corners in range appends one center to the vector, keeps the old ones, and stores the place of the new
one; the center is equidistant from the corners if these are not collinear. -/
theorem C175_appends (i j k : Int) (p : List (Pt K)) (a b c : Pt K) (centers : List (Option (Pt K)))
    (hi : vecGet p i = .ok a) (hj : vecGet p j = .ok b) (hk : vecGet p k = .ok c) (h : turn a b c ≠ 0) :
    ∃ q, triangleInto [i, j, k] p centers = .ok (some q, centers.length, centers ++ [some q]) ∧
      sqDist q a = sqDist q b ∧ sqDist q a = sqDist q c ∧
      (centers ++ [some q])[centers.length]? = some (some q) := by
  obtain ⟨q, hq⟩ := Option.isSome_iff_exists.1 ((C37_defined_iff a b c).2 h)
  obtain ⟨h1, h2⟩ := (C37_circumcenter a b c q h).1 hq
  have g0 : vecGet [i, j, k] 0 = .ok i := rfl
  have g1 : vecGet [i, j, k] 1 = .ok j := rfl
  have g2 : vecGet [i, j, k] 2 = .ok k := rfl
  refine ⟨q, ?_, h1, h2, by simp⟩
  simp [triangleInto, g0, g1, g2, hi, hj, hk, hq]

/-- C175: with collinear corners something that is not a point is appended. -/
theorem C175_collinear (i j k : Int) (p : List (Pt K)) (a b c : Pt K) (centers : List (Option (Pt K)))
    (hi : vecGet p i = .ok a) (hj : vecGet p j = .ok b) (hk : vecGet p k = .ok c) (h : turn a b c = 0) :
    triangleInto [i, j, k] p centers = .ok (none, centers.length, centers ++ [none]) := by
  have hq : circumcenter a b c = none := by
    have := (C37_defined_iff a b c).not.2 (by simpa using h)
    simpa using this
  have g0 : vecGet [i, j, k] 0 = .ok i := rfl
  have g1 : vecGet [i, j, k] 1 = .ok j := rfl
  have g2 : vecGet [i, j, k] 2 = .ok k := rfl
  simp [triangleInto, g0, g1, g2, hi, hj, hk, hq]

/-- C175: equal centers are not recognised: the two triangles of a square get different indices for the same point. -/
theorem C175_shared_refuted : ∃ (p : List (Pt ℚ)) (q : Pt ℚ) (l : List (Option (Pt ℚ))),
    triangleInto [0, 1, 2] p [] = .ok (some q, 0, l) ∧ ∃ l', triangleInto [0, 2, 3] p l = .ok (some q, 1, l') :=
  ⟨[⟨0, 0⟩, ⟨2, 0⟩, ⟨2, 2⟩, ⟨0, 2⟩], ⟨1, 1⟩, [some ⟨1, 1⟩], by decide +kernel, [some ⟨1, 1⟩, some ⟨1, 1⟩], by decide +kernel⟩

example : ∃ a b c : Pt ℚ, vecGet [⟨0, 0⟩, ⟨2, 0⟩, (⟨2, 2⟩ : Pt ℚ)] 0 = .ok a ∧ vecGet [⟨0, 0⟩, ⟨2, 0⟩, (⟨2, 2⟩ : Pt ℚ)] 1 = .ok b ∧
    vecGet [⟨0, 0⟩, ⟨2, 0⟩, (⟨2, 2⟩ : Pt ℚ)] 2 = .ok c ∧ turn a b c ≠ 0 :=
  ⟨⟨0, 0⟩, ⟨2, 0⟩, ⟨2, 2⟩, rfl, rfl, rfl, by decide +kernel⟩
example : turn (⟨0, 0⟩ : Pt ℚ) ⟨1, 1⟩ ⟨2, 2⟩ = 0 := by decide +kernel

end
end Delynoi
