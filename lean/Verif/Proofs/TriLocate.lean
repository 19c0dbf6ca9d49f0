import Verif.Spec.TriLocate
import Verif.Proofs.TriMesh2
import Mathlib.Tactic.Linarith
import Mathlib.Tactic.Ring
import Mathlib.Tactic.LinearCombination
import Mathlib.Tactic.FieldSimp
import Mathlib.Tactic.Positivity
/-! # One step of the walk -/
set_option linter.unusedSectionVars false
namespace Delynoi.Tri
variable {K : Type} [Field K] [LinearOrder K] [IsStrictOrderedRing K]
  {m : Heap} {L : Nat → Prop} {pos : Nat → Pt K} {p : Pt K}

theorem ccwDet_eq (a b c : Pt K) : Carve.ccwDet a b c = turn a b c := by
  simp only [Carve.ccwDet, turn]; ring

theorem ptExt {a b : Pt K} (hx : a.x = b.x) (hy : a.y = b.y) : a = b := by
  cases a; cases b; simp_all

/-- A point on the line of `a` and `b`, to the left of `b → c` and not to the right of `c → a`, or
the like, is at this place of the line. -/
theorem lineAt_of_turn {a b p : Pt K} (hab : a ≠ b) (h0 : turn a b p = 0) : ∃ t, p = lineAt a b t := by
  simp only [turn] at h0
  by_cases hx : a.x = b.x
  · have hy : b.y - a.y ≠ 0 := fun h => hab (ptExt hx (by linarith))
    refine ⟨(p.y - a.y) / (b.y - a.y), ptExt ?_ ?_⟩
    · have : (b.y - a.y) * (p.x - a.x) = 0 := by
        have hx' : b.x - a.x = 0 := by linarith
        rw [hx'] at h0; linarith
      rcases mul_eq_zero.1 this with h | h
      · exact absurd h hy
      · simp only [lineAt, hx]; rw [hx] at h; linear_combination h
    · simp only [lineAt]; field_simp; ring
  · have hx' : b.x - a.x ≠ 0 := fun h => hx (by linarith)
    refine ⟨(p.x - a.x) / (b.x - a.x), ptExt ?_ ?_⟩
    · simp only [lineAt]; field_simp; ring
    · simp only [lineAt]; field_simp; linear_combination h0

theorem Heap.Tri3.next {x : Otri} {v a b : Nat} (h : m.Tri3 L x v a b) : m.Tri3 L (lnext x) a b v := by
  obtain ⟨h1, h2, h3, h4⟩ := h
  refine ⟨h1, h3, ?_, ?_⟩
  · have : ∀ i : Fin 3, i + 1 + 1 = i + 2 := by decide
    simpa [lnext, this] using h4
  · have : ∀ i : Fin 3, i + 1 + 2 = i := by decide
    simpa [lnext, this] using h2

theorem Heap.Tri3.prev {x : Otri} {v a b : Nat} (h : m.Tri3 L x v a b) : m.Tri3 L (lprev x) b v a := by
  obtain ⟨h1, h2, h3, h4⟩ := h
  refine ⟨h1, h4, ?_, ?_⟩
  · have : ∀ i : Fin 3, i + 2 + 1 = i := by decide
    simpa [lprev, this] using h2
  · have : ∀ i : Fin 3, i + 2 + 2 = i + 1 := by decide
    simpa [lprev, this] using h3

theorem Heap.Tri3.dir {x : Otri} {v a b : Nat} (h : m.Tri3 L x v a b) : m.Dir L x a b := ⟨h.1, h.2.2⟩

theorem Heap.Dir.tri (h : Linked m L) {x : Otri} {a b : Nat} (d : m.Dir L x a b) : ∃ v, m.Tri3 L x v a b := by
  obtain ⟨v, hv⟩ := h.corners x.1 d.1 x.2
  exact ⟨v, d.1, hv, d.2.1, d.2.2⟩

theorem Heap.Tri3.uniq {x : Otri} {v a b v' a' b' : Nat} (h : m.Tri3 L x v a b) (h' : m.Tri3 L x v' a' b') :
    v = v' ∧ a = a' ∧ b = b' := by
  obtain ⟨-, h1, h2, h3⟩ := h
  obtain ⟨-, g1, g2, g3⟩ := h'
  exact ⟨Option.some.inj (h1.symm.trans g1), Option.some.inj (h2.symm.trans g2), Option.some.inj (h3.symm.trans g3)⟩

/-- Across an edge. -/
theorem Linked.cross (h : Linked m L) {x : Otri} {v a b : Nat} (t : m.Tri3 L x v a b) (hn : m.nbr x ≠ (0, 0)) :
    ∃ w, m.Tri3 L (m.nbr x) w b a := by
  rcases h.links x t.1 with e | ⟨v', w', d1, d2⟩
  · exact absurd e hn
  · obtain ⟨-, d3, d4⟩ := d1
    obtain ⟨-, -, t3, t4⟩ := t
    rw [t3] at d3; rw [t4] at d4
    cases d3; cases d4
    exact d2.tri h

theorem nbr_zero (h : Linked m L) {x : Otri} (hx : L x.1) : (m.nbr x).1 = 0 ↔ m.nbr x = (0, 0) := by
  constructor
  · intro e
    rcases h.links x hx with e' | ⟨v, w, -, d⟩
    · exact e'
    · exact absurd d.1 (by rw [e]; exact h.dummy)
  · intro e; rw [e]

/-- The precondition of a step, for the corners of the triangle. -/
def AheadAt (o d p : Pt K) : Prop := 0 < turn o d p ∨ ∃ t, (t < 0 ∨ 1 < t) ∧ p = lineAt o d t

/-- The walk goes on across `lprev x` or `lnext x`. -/
inductive WalkStep (m : Heap) (L : Nat → Prop) (pos : Nat → Pt K) (p : Pt K) : Otri → Otri → Prop
  | left {x : Otri} {a o d : Nat} : m.Tri3 L x a o d → m.nbr (lprev x) ≠ (0, 0) →
      0 < turn (pos o) (pos a) p →
      (turn (pos a) (pos d) p ≤ 0 ∨ 0 ≤ ((pos a).x - p.x) * ((pos d).x - (pos o).x) + ((pos a).y - p.y) * ((pos d).y - (pos o).y)) →
      WalkStep m L pos p x (m.nbr (lprev x))
  | right {x : Otri} {a o d : Nat} : m.Tri3 L x a o d → m.nbr (lnext x) ≠ (0, 0) →
      0 < turn (pos a) (pos d) p →
      (turn (pos o) (pos a) p ≤ 0 ∨ ((pos a).x - p.x) * ((pos d).x - (pos o).x) + ((pos a).y - p.y) * ((pos d).y - (pos o).y) ≤ 0) →
      WalkStep m L pos p x (m.nbr (lnext x))

theorem step_spec (h : Linked m L) (c : Ccw m L pos) (cs stop : Bool) {x : Otri} {a o d : Nat} (t : m.Tri3 L x a o d)
    (hp : AheadAt (pos o) (pos d) p) (fuel : Nat) :
    (∃ r y, preciseLoop m pos p cs stop (fuel + 1) x (pos o) (pos d) (pos a) = .ok (some (r, y)) ∧
      Answer m L pos p (cs && stop) r y) ∨
    ∃ y a' o' d', WalkStep m L pos p x y ∧ m.Tri3 L y a' o' d' ∧ 0 < turn (pos o') (pos d') p ∧
      preciseLoop m pos p cs stop (fuel + 1) x (pos o) (pos d) (pos a) =
        preciseLoop m pos p cs stop fuel y (pos o') (pos d') (pos a') := by
  have hc := c x a o d t
  rw [preciseLoop]
  simp only [ccwDet_eq]
  by_cases hv : (pos a).x = p.x ∧ (pos a).y = p.y
  · rw [if_pos hv]
    left
    refine ⟨_, _, rfl, a, o, t.prev.dir, ptExt hv.1 hv.2⟩
  rw [if_neg hv]
  have hv' : pos a ≠ p := fun e => hv (by rw [e]; exact ⟨rfl, rfl⟩)
  by_cases hin : ¬ 0 < turn (pos o) (pos a) p ∧ ¬ 0 < turn (pos a) (pos d) p
  · rw [if_pos hin]
    left
    obtain ⟨h1, h2⟩ := hin
    -- the point cannot be on the line of the edge
    have hl : 0 < turn (pos o) (pos d) p := by
      rcases hp with hp | ⟨s, hs, hp⟩
      · exact hp
      exfalso
      have e1 : turn (pos o) (pos a) p = - s * turn (pos a) (pos o) (pos d) := by
        rw [hp]; simp only [turn, lineAt]; ring
      have e2 : turn (pos a) (pos d) p = (s - 1) * turn (pos a) (pos o) (pos d) := by
        rw [hp]; simp only [turn, lineAt]; ring
      rw [e1] at h1; rw [e2] at h2
      rcases hs with hs | hs
      · exact h1 (mul_pos (by linarith) hc)
      · exact h2 (mul_pos (by linarith) hc)
    have hoa : pos a ≠ pos o := by
      intro e; rw [e] at hc; simp [turn] at hc
    have hda : pos d ≠ pos a := by
      intro e; rw [e] at hc; simp [turn] at hc
    have h1' := not_lt.1 h1
    have h2' := not_lt.1 h2
    by_cases hd0 : turn (pos o) (pos a) p = 0
    · rw [if_pos hd0]
      refine ⟨_, _, rfl, a, o, t.prev.dir, ?_⟩
      obtain ⟨s, hs⟩ := lineAt_of_turn (a := pos a) (b := pos o) (p := p) hoa (by rw [← neg_eq_zero, ← hd0]; simp only [turn]; ring)
      refine ⟨s, ?_, ?_, hs⟩
      · have e : turn (pos a) (pos d) p = - s * turn (pos a) (pos o) (pos d) := by
          rw [hs]; simp only [turn, lineAt]; ring
        rw [e] at h2'
        have hs0 : 0 ≤ s := by
          by_contra hn
          have : 0 < - s * turn (pos a) (pos o) (pos d) := mul_pos (by linarith) hc
          linarith
        rcases hs0.lt_or_eq with h | h
        · exact h
        · exact absurd (by rw [hs, ← h]; apply ptExt <;> simp [lineAt]) hv'
      · have e : turn (pos o) (pos d) p = (1 - s) * turn (pos a) (pos o) (pos d) := by
          rw [hs]; simp only [turn, lineAt]; ring
        rw [e] at hl
        by_contra hn
        have : (1 - s) * turn (pos a) (pos o) (pos d) ≤ 0 := mul_nonpos_of_nonpos_of_nonneg (by linarith) hc.le
        linarith
    rw [if_neg hd0]
    have h1'' : turn (pos o) (pos a) p < 0 := lt_of_le_of_ne h1' hd0
    by_cases ho0 : turn (pos a) (pos d) p = 0
    · rw [if_pos ho0]
      refine ⟨_, _, rfl, d, a, t.next.dir, ?_⟩
      obtain ⟨s, hs⟩ := lineAt_of_turn (a := pos d) (b := pos a) (p := p) hda (by rw [← neg_eq_zero, ← ho0]; simp only [turn]; ring)
      refine ⟨s, ?_, ?_, hs⟩
      · have e : turn (pos o) (pos d) p = s * turn (pos a) (pos o) (pos d) := by
          rw [hs]; simp only [turn, lineAt]; ring
        rw [e] at hl
        by_contra hn
        have : s * turn (pos a) (pos o) (pos d) ≤ 0 := mul_nonpos_of_nonpos_of_nonneg (by linarith) hc.le
        linarith
      · have e : turn (pos o) (pos a) p = (s - 1) * turn (pos a) (pos o) (pos d) := by
          rw [hs]; simp only [turn, lineAt]; ring
        rw [e] at h1''
        by_contra hn
        have : 0 ≤ (s - 1) * turn (pos a) (pos o) (pos d) := mul_nonneg (by linarith) hc.le
        linarith
    rw [if_neg ho0]
    have h2'' : turn (pos a) (pos d) p < 0 := lt_of_le_of_ne h2' ho0
    refine ⟨_, _, rfl, a, o, d, t, ?_, hl, ?_⟩
    · have : turn (pos a) (pos o) p = - turn (pos o) (pos a) p := by simp only [turn]; ring
      linarith
    · have : turn (pos d) (pos a) p = - turn (pos a) (pos d) p := by simp only [turn]; ring
      linarith
  rw [if_neg hin]
  -- the two ways to go on
  generalize hml : (if 0 < turn (pos o) (pos a) p then
      if 0 < turn (pos a) (pos d) p then decide (0 < ((pos a).x - p.x) * ((pos d).x - (pos o).x) + ((pos a).y - p.y) * ((pos d).y - (pos o).y))
      else true else false) = ml
  have hL : ml = true → 0 < turn (pos o) (pos a) p := by
    intro e; rw [e] at hml; by_contra hn; rw [if_neg hn] at hml; cases hml
  have hL2 : ml = true → turn (pos a) (pos d) p ≤ 0 ∨
      0 ≤ ((pos a).x - p.x) * ((pos d).x - (pos o).x) + ((pos a).y - p.y) * ((pos d).y - (pos o).y) := by
    intro e
    rw [e] at hml
    by_cases h2 : 0 < turn (pos a) (pos d) p
    · rw [if_pos (hL e), if_pos h2, decide_eq_true_eq] at hml
      exact Or.inr hml.le
    · exact Or.inl (not_lt.1 h2)
  have hR2 : ml = false → turn (pos o) (pos a) p ≤ 0 ∨
      ((pos a).x - p.x) * ((pos d).x - (pos o).x) + ((pos a).y - p.y) * ((pos d).y - (pos o).y) ≤ 0 := by
    intro e
    rw [e] at hml
    by_cases h1 : 0 < turn (pos o) (pos a) p
    · rw [if_pos h1] at hml
      by_cases h2 : 0 < turn (pos a) (pos d) p
      · rw [if_pos h2, decide_eq_false_iff_not] at hml
        exact Or.inr (not_lt.1 hml)
      · rw [if_neg h2] at hml; cases hml
    · exact Or.inl (not_lt.1 h1)
  have hR : ml = false → 0 < turn (pos a) (pos d) p := by
    intro e
    rw [e] at hml
    by_cases h1 : 0 < turn (pos o) (pos a) p
    · rw [if_pos h1] at hml
      by_contra h2
      rw [if_neg h2] at hml; cases hml
    · by_contra h2; exact hin ⟨h1, h2⟩
  cases ml with
  | true =>
    have hl := hL rfl
    simp only [if_true, Heap.sym, Heap.tspivot]
    have hr : turn (pos a) (pos o) p < 0 := by
      have : turn (pos a) (pos o) p = - turn (pos o) (pos a) p := by simp only [turn]; ring
      linarith
    by_cases hst : (cs && stop) = true ∧ (m.sub (lprev x)).1 ≠ 0
    · rw [if_pos hst]
      exact Or.inl ⟨_, _, rfl, a, o, t.prev.dir, hr, Or.inr hst⟩
    rw [if_neg hst]
    by_cases h0 : (m.nbr (lprev x)).1 = 0
    · rw [if_pos h0]
      exact Or.inl ⟨_, _, rfl, a, o, t.prev.dir, hr, Or.inl ((nbr_zero h t.prev.1).1 h0)⟩
    rw [if_neg h0]
    have h0' : m.nbr (lprev x) ≠ (0, 0) := fun e => h0 (by rw [e])
    obtain ⟨w, hw⟩ := h.cross t.prev h0'
    refine Or.inr ⟨_, w, o, a, .left t h0' hl (hL2 rfl), hw, hl, ?_⟩
    simp [Heap.apex, hw.2.1, deref]
  | false =>
    have hl := hR rfl
    simp only [Bool.false_eq_true, if_false, Heap.sym, Heap.tspivot]
    have hr : turn (pos d) (pos a) p < 0 := by
      have : turn (pos d) (pos a) p = - turn (pos a) (pos d) p := by simp only [turn]; ring
      linarith
    by_cases hst : (cs && stop) = true ∧ (m.sub (lnext x)).1 ≠ 0
    · rw [if_pos hst]
      exact Or.inl ⟨_, _, rfl, d, a, t.next.dir, hr, Or.inr hst⟩
    rw [if_neg hst]
    by_cases h0 : (m.nbr (lnext x)).1 = 0
    · rw [if_pos h0]
      exact Or.inl ⟨_, _, rfl, d, a, t.next.dir, hr, Or.inl ((nbr_zero h t.next.1).1 h0)⟩
    rw [if_neg h0]
    have h0' : m.nbr (lnext x) ≠ (0, 0) := fun e => h0 (by rw [e])
    obtain ⟨w, hw⟩ := h.cross t.next h0'
    refine Or.inr ⟨_, w, a, d, .right t h0' hl (hR2 rfl), hw, hl, ?_⟩
    simp [Heap.apex, hw.2.1, deref]

/-- Whatever the walk answers is right. -/
theorem loop_answer (h : Linked m L) (c : Ccw m L pos) (cs stop : Bool) : ∀ (fuel : Nat) (x : Otri) (a o d : Nat),
    m.Tri3 L x a o d → AheadAt (pos o) (pos d) p →
    preciseLoop m pos p cs stop fuel x (pos o) (pos d) (pos a) = .ok none ∨
    ∃ r y, preciseLoop m pos p cs stop fuel x (pos o) (pos d) (pos a) = .ok (some (r, y)) ∧ Answer m L pos p (cs && stop) r y := by
  intro fuel
  induction fuel with
  | zero => intro x a o d _ _; exact Or.inl rfl
  | succ fuel ih =>
    intro x a o d t hp
    rcases step_spec h c cs stop t hp fuel with hr | ⟨y, a', o', d', -, t', hp', e⟩
    · exact Or.inr hr
    · rw [e]; exact ih y a' o' d' t' (Or.inl hp')

theorem precise_eq (cs stop : Bool) {x : Otri} {a o d : Nat} (t : m.Tri3 L x a o d) (fuel : Nat) :
    preciselocate m pos p cs stop fuel x = preciseLoop m pos p cs stop fuel x (pos o) (pos d) (pos a) := by
  obtain ⟨-, h1, h2, h3⟩ := t
  simp [preciselocate, Heap.org, Heap.dest, Heap.apex, lnext, lprev, h1, h2, h3, deref]

end Delynoi.Tri
