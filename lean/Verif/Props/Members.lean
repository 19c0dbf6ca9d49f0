import Verif.Model.Members
import Verif.Props.Segment
/-!
# Small members (C112)
-/
set_option linter.unusedSectionVars false
namespace Delynoi
variable {K : Type} [Field K] [LinearOrder K] [IsStrictOrderedRing K]

/-- C112: what a segment accepts is convex. -/
theorem C112_convex (tol : K) (h : 0 < tol) (a b p q : Pt K) (t : K) (h0 : 0 ≤ t) (h1 : t ≤ 1)
    (hp : Seg.contains tol p a b = true) (hq : Seg.contains tol q a b = true) :
    Seg.contains tol (lineAt p q t) a b = true := by
  rw [C11_contains_iff tol h] at hp hq ⊢
  have e1 : 0 ≤ 1 - t := by linarith
  have key : ∀ lo hi u v : K, (lo < u ∧ u < hi) → (lo < v ∧ v < hi) →
      lo < (1 - t) * u + t * v ∧ (1 - t) * u + t * v < hi := by
    intro lo hi u v ⟨u1, u2⟩ ⟨v1, v2⟩
    rcases eq_or_lt_of_le h0 with h2 | h2
    · rw [← h2]; simp [u1, u2]
    · constructor
      · have := mul_le_mul_of_nonneg_left u1.le e1
        have := mul_lt_mul_of_pos_left v1 h2
        linarith
      · have := mul_le_mul_of_nonneg_left u2.le e1
        have := mul_lt_mul_of_pos_left v2 h2
        linarith
  refine ⟨key _ _ _ _ hp.1 hq.1, key _ _ _ _ hp.2.1 hq.2.1, ?_⟩
  have e : turn a b (lineAt p q t) = (1 - t) * turn a b p + t * turn a b q := by
    unfold turn lineAt; ring
  rw [e, abs_lt]
  exact key _ _ _ _ (abs_lt.1 hp.2.2) (abs_lt.1 hq.2.2)

/-- C112: so `contains(p, s)` holds exactly if every point of `s` is accepted. -/
theorem C112_containsSeg (tol : K) (h : 0 < tol) (p : List (Pt K)) (s o : ISeg) (a b c d : Pt K)
    (ha : vecGet p s.p1 = .ok a) (hb : vecGet p s.p2 = .ok b)
    (hc : vecGet p o.p1 = .ok c) (hd : vecGet p o.p2 = .ok d) :
    ∃ v, ISeg.containsSeg tol p s o = .ok v ∧
      (v = true ↔ ∀ t, 0 ≤ t → t ≤ 1 → Seg.contains tol (lineAt c d t) a b = true) := by
  have e0 : lineAt c d 0 = c := by simp [lineAt]
  have e1 : lineAt c d 1 = d := by simp [lineAt]
  have hp : ∀ q, ISeg.containsPoint tol p s q = .ok (Seg.contains tol q a b) := by
    intro q; unfold ISeg.containsPoint; rw [ha, hb]; rfl
  refine ⟨Seg.contains tol c a b && Seg.contains tol d a b, ?_, ?_⟩
  · unfold ISeg.containsSeg
    rw [hc, Outcome.bind_ok, hp, Outcome.bind_ok]
    cases hcc : Seg.contains tol c a b
    · rfl
    · simp only [if_true]; rw [hd, Outcome.bind_ok, hp]; rfl
  · rw [Bool.and_eq_true]
    constructor
    · rintro ⟨g1, g2⟩ t h0 h1
      exact C112_convex tol h a b c d t h0 h1 g1 g2
    · intro g
      have g0 := g 0 (le_refl _) zero_le_one
      have g1 := g 1 zero_le_one (le_refl _)
      rw [e0] at g0; rw [e1] at g1
      exact ⟨g0, g1⟩

/-- C112: and so does `isContained`. -/
theorem C112_isContained (tol : K) (h : 0 < tol) (p : List (Pt K)) (o : ISeg) (a b c d : Pt K)
    (hc : vecGet p o.p1 = .ok c) (hd : vecGet p o.p2 = .ok d) :
    ∃ v, ISeg.isContained tol a b p o = .ok v ∧
      (v = true ↔ ∀ t, 0 ≤ t → t ≤ 1 → Seg.contains tol (lineAt c d t) a b = true) := by
  have e0 : lineAt c d 0 = c := by simp [lineAt]
  have e1 : lineAt c d 1 = d := by simp [lineAt]
  refine ⟨Seg.contains tol c a b && Seg.contains tol d a b, ?_, ?_⟩
  · unfold ISeg.isContained
    rw [hc, Outcome.bind_ok]
    cases hcc : Seg.contains tol c a b
    · rfl
    · simp only [if_true]; rw [hd, Outcome.bind_ok]; rfl
  · rw [Bool.and_eq_true]
    constructor
    · rintro ⟨g1, g2⟩ t h0 h1
      exact C112_convex tol h a b c d t h0 h1 g1 g2
    · intro g
      have g0 := g 0 (le_refl _) zero_le_one
      have g1 := g 1 zero_le_one (le_refl _)
      rw [e0] at g0; rw [e1] at g1
      exact ⟨g0, g1⟩

example : ISeg.containsSeg (1/100000 : ℚ) [⟨0, 0⟩, ⟨4, 4⟩, ⟨1, 1⟩, ⟨3, 3⟩, ⟨5, 5⟩] (ISeg.mk' 0 1) (ISeg.mk' 3 2) = .ok true ∧
    ISeg.containsSeg (1/100000 : ℚ) [⟨0, 0⟩, ⟨4, 4⟩, ⟨1, 1⟩, ⟨3, 3⟩, ⟨5, 5⟩] (ISeg.mk' 0 1) (ISeg.mk' 3 4) = .ok false ∧
    ISeg.isContained (1/100000 : ℚ) ⟨0, 0⟩ ⟨4, 4⟩ [⟨1, 1⟩, ⟨3, 3⟩, ⟨5, 5⟩] (ISeg.mk' 1 2) = .ok false := by
  decide +kernel

/-- C112: an intersection with a segment given by points is an intersection of the segments, up to the
tolerance (as in C12). -/
theorem C112_intersection (tol : K) (p : List (Pt K)) (s : ISeg) (a b o1 o2 q : Pt K)
    (ha : vecGet p s.p1 = .ok a) (hb : vecGet p s.p2 = .ok b) :
    ISeg.intersectsPts tol p s o1 o2 = .ok (some q) ↔
      ¬ Parallel a b o1 o2 ∧ ∃ t u, -tol ≤ t ∧ t ≤ 1 + tol ∧ -tol ≤ u ∧ u ≤ 1 + tol ∧
        q = lineAt a b t ∧ q = lineAt o1 o2 u := by
  have e : ISeg.intersectsPts tol p s o1 o2 = .ok (Seg.intersects tol a b o1 o2) := by
    unfold ISeg.intersectsPts; rw [ha, hb]; rfl
  rw [e, ← C12_intersects_iff, Outcome.ok.injEq]

example : ISeg.intersectsPts (1/100000 : ℚ) [⟨0, 0⟩, ⟨4, 4⟩] (ISeg.mk' 0 1) ⟨0, 4⟩ ⟨4, 0⟩ = .ok (some ⟨2, 2⟩) := by
  decide +kernel

/-- C112: `<` orders pairs lexicographically: a strict total order with the equality `==`. -/
theorem C112_pair_order (a b c : PairT K) :
    (a.eq b = true ↔ a = b) ∧ a.lt a = false ∧ (a.lt b = true → b.lt c = true → a.lt c = true) ∧
    (a.lt b = true ∨ a = b ∨ b.lt a = true) ∧
    (a.lt b = true ↔ a.first < b.first ∨ (a.first = b.first ∧ a.second < b.second)) := by
  have key : ∀ a b : PairT K, a.lt b = true ↔ a.first < b.first ∨ (a.first = b.first ∧ a.second < b.second) := by
    intro a b
    unfold PairT.lt
    by_cases h : a.first = b.first
    · rw [if_pos h, decide_eq_true_eq, h]; simp
    · rw [if_neg h, decide_eq_true_eq]; simp [h]
  refine ⟨?_, ?_, ?_, ?_, key a b⟩
  · unfold PairT.eq
    rw [Bool.and_eq_true, decide_eq_true_eq, decide_eq_true_eq]
    cases a; cases b; simp
  · rw [← Bool.not_eq_true, key]; simp
  · rw [key, key, key]
    rintro (h1 | ⟨h1, h2⟩) (h3 | ⟨h3, h4⟩)
    · exact Or.inl (h1.trans h3)
    · exact Or.inl (h3 ▸ h1)
    · exact Or.inl (h1 ▸ h3)
    · exact Or.inr ⟨h1.trans h3, h2.trans h4⟩
  · rw [key, key]
    rcases lt_trichotomy a.first b.first with h | h | h
    · exact Or.inl (Or.inl h)
    · rcases lt_trichotomy a.second b.second with h' | h' | h'
      · exact Or.inl (Or.inr ⟨h, h'⟩)
      · refine Or.inr (Or.inl ?_)
        cases a; cases b; simp_all
      · exact Or.inr (Or.inr (Or.inr ⟨h.symm, h'⟩))
    · exact Or.inr (Or.inr (Or.inl h))

/-- C112: `dot` is a symmetric bilinear form, positive on pairs other than zero. -/
theorem C112_pair_dot (a b c : PairT K) (k : K) :
    a.dot b = b.dot a ∧ (a.add b).dot c = a.dot c + b.dot c ∧ (a.smul k).dot b = a.dot b * k ∧
    (0 < a.dot a ↔ a ≠ ⟨0, 0⟩) := by
  refine ⟨by unfold PairT.dot; ring, by unfold PairT.dot PairT.add; ring, by unfold PairT.dot PairT.smul; ring, ?_⟩
  unfold PairT.dot
  constructor
  · rintro h rfl; simp at h
  · intro h
    by_cases h1 : a.first = 0
    · have h2 : a.second ≠ 0 := by
        intro h2; apply h; cases a; simp_all
      have := mul_self_pos.2 h2
      have := mul_self_nonneg a.first
      linarith
    · have := mul_self_pos.2 h1
      have := mul_self_nonneg a.second
      linarith

end Delynoi
