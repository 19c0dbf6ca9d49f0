import Verif.Proofs.TriLocate2
/-! # Choosing where the walk starts -/
set_option linter.unusedSectionVars false
namespace Delynoi.Tri
variable {K : Type} [Field K] [LinearOrder K] [IsStrictOrderedRing K]
  {m : Heap} {L : Nat → Prop} {pos : Nat → Pt K} {p : Pt K}

/-- The comparison of coordinates decides whether a point of the line is between the endpoints. -/
theorem between_iff {o d : Pt K} (hod : o ≠ d) {t : K} (h0 : t ≠ 0) (h1 : t ≠ 1) :
    (decide (o.x < (lineAt o d t).x) = decide ((lineAt o d t).x < d.x) ∧
      decide (o.y < (lineAt o d t).y) = decide ((lineAt o d t).y < d.y)) ↔ 0 < t ∧ t < 1 := by
  have one : ∀ u v : K, (u = v → (decide (u < (1 - t) * u + t * v) = decide ((1 - t) * u + t * v < v))) ∧
      (u ≠ v → ((decide (u < (1 - t) * u + t * v) = decide ((1 - t) * u + t * v < v)) ↔ 0 < t ∧ t < 1)) := by
    intro u v
    have e1 : u < (1 - t) * u + t * v ↔ 0 < t * (v - u) := by
      constructor <;> intro h <;> nlinarith
    have e2 : (1 - t) * u + t * v < v ↔ 0 < (1 - t) * (v - u) := by
      constructor <;> intro h <;> nlinarith
    rw [decide_eq_decide, e1, e2]
    refine ⟨fun e => by rw [e]; simp, fun hne => ?_⟩
    rcases lt_or_gt_of_ne hne with h | h
    · have hv : 0 < v - u := by linarith
      rw [mul_pos_iff_of_pos_right hv, mul_pos_iff_of_pos_right hv]
      constructor
      · intro hh
        rcases lt_or_gt_of_ne h0 with g | g
        · exact absurd (hh.2 (by linarith)) (by linarith)
        · exact ⟨g, by linarith [hh.1 g]⟩
      · rintro ⟨g1, g2⟩
        exact ⟨fun _ => by linarith, fun _ => g1⟩
    · have hv : v - u < 0 := by linarith
      rw [← neg_mul_neg t, ← neg_mul_neg (1 - t), mul_pos_iff_of_pos_right (by linarith), mul_pos_iff_of_pos_right (by linarith)]
      constructor
      · intro hh
        rcases lt_or_gt_of_ne h0 with g | g
        · have := hh.1 (by linarith); exact absurd this (by linarith)
        · refine ⟨g, ?_⟩
          rcases lt_or_gt_of_ne h1 with g' | g'
          · exact g'
          · have := hh.2 (by linarith); linarith
      · rintro ⟨g1, g2⟩
        exact ⟨fun _ => by linarith, fun _ => by linarith⟩
  simp only [lineAt]
  by_cases hx : o.x = d.x
  · have hy : o.y ≠ d.y := fun h => hod (ptExt hx h)
    have a1 := (one o.x d.x).1 hx
    exact ⟨fun h => ((one o.y d.y).2 hy).1 h.2, fun h => ⟨a1, ((one o.y d.y).2 hy).2 h⟩⟩
  · refine ⟨fun h => ((one o.x d.x).2 hx).1 h.1, fun h => ⟨((one o.x d.x).2 hx).2 h, ?_⟩⟩
    by_cases hy : o.y = d.y
    · exact (one o.y d.y).1 hy
    · exact ((one o.y d.y).2 hy).2 h

/-- The walk is called with the point ahead, or the answer is found before, or the start is an edge
of the boundary with the point beyond. -/
theorem locateFrom_spec (h : Linked m L) (c : Ccw m L pos) (cs : Bool) (fuel : Nat) {x : Otri} (hx : L x.1) :
    (∃ r y, locateFrom m pos p cs fuel x = .ok (some (r, y)) ∧ Answer m L pos p false r y) ∨
    (∃ y, Ahead m L pos p y ∧ locateFrom m pos p cs fuel x = preciselocate m pos p cs false fuel y) ∨
    (∃ v w, m.Dir L x v w ∧ m.nbr x = (0, 0) ∧ turn (pos v) (pos w) p < 0 ∧
      locateFrom m pos p cs fuel x = preciselocate m pos p cs false fuel (0, 0)) := by
  obtain ⟨v, hv⟩ := h.corners x.1 hx (x.2 + 1)
  obtain ⟨w, hw⟩ := h.corners x.1 hx (x.2 + 2)
  have hd : m.Dir L x v w := ⟨hx, hv, hw⟩
  obtain ⟨a, t⟩ := hd.tri h
  have ht := c _ _ _ _ t
  have hvw : pos v ≠ pos w := by
    intro e
    have : turn (pos a) (pos v) (pos w) = 0 := by rw [e]; simp only [turn]; ring
    linarith
  have unf : locateFrom m pos p cs fuel x =
      if (pos v).x = p.x ∧ (pos v).y = p.y then .ok (some (.onVertex, x))
      else if (pos w).x = p.x ∧ (pos w).y = p.y then .ok (some (.onVertex, lnext x))
      else if turn (pos v) (pos w) p < 0 then preciselocate m pos p cs false fuel (m.nbr x)
      else if turn (pos v) (pos w) p = 0 ∧ (decide ((pos v).x < p.x) = decide (p.x < (pos w).x) ∧
        decide ((pos v).y < p.y) = decide (p.y < (pos w).y)) then .ok (some (.onEdge, x))
      else preciselocate m pos p cs false fuel x := by
    simp only [locateFrom, Heap.org, Heap.dest, lnext, lprev, hv, hw, deref, ccwDet_eq, Heap.sym]
    rfl
  rw [unf]
  by_cases h1 : (pos v).x = p.x ∧ (pos v).y = p.y
  · rw [if_pos h1]
    exact Or.inl ⟨_, _, rfl, v, w, hd, ptExt h1.1 h1.2⟩
  rw [if_neg h1]
  by_cases h2 : (pos w).x = p.x ∧ (pos w).y = p.y
  · rw [if_pos h2]
    exact Or.inl ⟨_, _, rfl, w, a, t.next.dir, ptExt h2.1 h2.2⟩
  rw [if_neg h2]
  by_cases h3 : turn (pos v) (pos w) p < 0
  · rw [if_pos h3]
    by_cases h0 : m.nbr x = (0, 0)
    · exact Or.inr (Or.inr ⟨v, w, hd, h0, h3, by rw [h0]⟩)
    · obtain ⟨b, tb⟩ := h.cross t h0
      refine Or.inr (Or.inl ⟨m.nbr x, ⟨w, v, tb.dir, Or.inl ?_⟩, rfl⟩)
      have : turn (pos w) (pos v) p = - turn (pos v) (pos w) p := by simp only [turn]; ring
      linarith
  rw [if_neg h3]
  rcases (not_lt.1 h3).lt_or_eq with h4 | h4
  · rw [if_neg (fun e => h4.ne' e.1)]
    exact Or.inr (Or.inl ⟨x, ⟨v, w, hd, Or.inl h4⟩, rfl⟩)
  · obtain ⟨s, hs⟩ := lineAt_of_turn hvw h4.symm
    have hs0 : s ≠ 0 := by
      rintro rfl
      exact h1 (by rw [hs]; simp [lineAt])
    have hs1 : s ≠ 1 := by
      rintro rfl
      exact h2 (by rw [hs]; simp [lineAt])
    have hb := between_iff hvw hs0 hs1
    rw [← hs] at hb
    by_cases h5 : 0 < s ∧ s < 1
    · rw [if_pos ⟨h4.symm, hb.2 h5⟩]
      exact Or.inl ⟨_, _, rfl, v, w, hd, s, h5.1, h5.2, hs⟩
    · rw [if_neg (fun e => h5 (hb.1 e.2))]
      refine Or.inr (Or.inl ⟨x, ⟨v, w, hd, Or.inr ⟨s, ?_, hs⟩⟩, rfl⟩)
      rcases lt_or_gt_of_ne hs0 with g | g
      · exact Or.inl g
      · right
        rcases lt_or_gt_of_ne hs1 with g' | g'
        · exact absurd ⟨g, g'⟩ h5
        · exact g'

theorem sampleLoop_spec (h : Linked m L) {dead : Nat → Bool} : ∀ (samples : List Nat) (x : Otri) (dist : K),
    (∀ t ∈ samples, dead t = false → L t) → L x.1 →
    ∃ y, sampleLoop m pos p dead samples x dist = .ok y ∧ L y.1 ∧ (y = x ∨ ∃ t ∈ samples, y = (t, 0)) := by
  intro samples
  induction samples with
  | nil => intro x dist _ hx; exact ⟨x, rfl, hx, Or.inl rfl⟩
  | cons t samples ih =>
    intro x dist hs hx
    have hs' : ∀ t ∈ samples, dead t = false → L t := fun t ht => hs t (List.mem_cons_of_mem _ ht)
    rw [sampleLoop]
    by_cases hd : dead t = true
    · rw [if_pos hd]
      obtain ⟨y, e, hy, hh⟩ := ih x dist hs' hx
      refine ⟨y, e, hy, hh.imp id ?_⟩
      rintro ⟨u, hu, e⟩; exact ⟨u, List.mem_cons_of_mem _ hu, e⟩
    · rw [if_neg hd]
      have ht := hs t (List.mem_cons_self ..) (by simpa using hd)
      obtain ⟨v, hv⟩ := h.corners t ht 1
      have hv' : m.org (t, 0) = some v := by simpa [Heap.org, lnext] using hv
      simp only [hv', deref]
      show ∃ y, (if distTo p (pos v) < dist then sampleLoop m pos p dead samples (t, 0) (distTo p (pos v))
        else sampleLoop m pos p dead samples x dist) = .ok y ∧ _
      split
      · obtain ⟨y, e, hy, hh⟩ := ih (t, 0) (distTo p (pos v)) hs' ht
        refine ⟨y, e, hy, Or.inr ?_⟩
        rcases hh with hh | ⟨u, hu, e⟩
        · exact ⟨t, List.mem_cons_self .., hh⟩
        · exact ⟨u, List.mem_cons_of_mem _ hu, e⟩
      · obtain ⟨y, e, hy, hh⟩ := ih x dist hs' hx
        refine ⟨y, e, hy, hh.imp id ?_⟩
        rintro ⟨u, hu, e⟩; exact ⟨u, List.mem_cons_of_mem _ hu, e⟩

theorem locate_start (h : Linked m L) (cs : Bool) {dead : Nat → Bool} {recent : Option Otri} {samples : List Nat} (fuel : Nat)
    {x : Otri} (hs : ∀ t ∈ samples, dead t = false → L t) (hr : ∀ r, recent = some r → dead r.1 = false → L r.1) (hx : L x.1) :
    (∃ r y, locate m pos p cs dead recent samples fuel x = .ok (some (r, y)) ∧ Answer m L pos p false r y) ∨
    ∃ y, L y.1 ∧ locate m pos p cs dead recent samples fuel x = locateFrom m pos p cs fuel y := by
  obtain ⟨v, hv⟩ := h.corners x.1 hx (x.2 + 1)
  have hv' : m.org x = some v := hv
  have samp : ∀ (z : Otri) (dist : K), L z.1 → ∃ y, L y.1 ∧
      (do let y ← sampleLoop m pos p dead samples z dist
          locateFrom m pos p cs fuel y) = locateFrom m pos p cs fuel y := by
    intro z dist hz
    obtain ⟨y, e, hy, -⟩ := sampleLoop_spec (pos := pos) (p := p) h samples z dist hs hz
    exact ⟨y, hy, by rw [e]; rfl⟩
  simp only [locate, hv', deref]
  cases recent with
  | none => exact Or.inr (samp x _ hx)
  | some r =>
    by_cases hd : dead r.1 = true
    · simp only [hd, if_true]
      exact Or.inr (samp x _ hx)
    · have hrL := hr r rfl (by simpa using hd)
      obtain ⟨w, hw⟩ := h.corners r.1 hrL (r.2 + 1)
      obtain ⟨w', hw'⟩ := h.corners r.1 hrL (r.2 + 2)
      have ho : m.org r = some w := hw
      simp only [hd, ho, Outcome.bind_ok, Bool.false_eq_true, if_false]
      by_cases h1 : (pos w).x = p.x ∧ (pos w).y = p.y
      · rw [if_pos h1]
        exact Or.inl ⟨_, _, rfl, w, w', ⟨hrL, hw, hw'⟩, ptExt h1.1 h1.2⟩
      · rw [if_neg h1]
        split
        · exact Or.inr (samp r _ hrL)
        · exact Or.inr (samp x _ hx)

end Delynoi.Tri
