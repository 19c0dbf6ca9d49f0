import Verif.Spec.TriEncroach
import Verif.Proofs.TriFixup3
import Verif.Proofs.TriCdt2
/-! # Encroached subsegments: the test -/
set_option linter.unusedSectionVars false
namespace Delynoi.Tri
variable {K : Type} [Field K] [LinearOrder K] [IsStrictOrderedRing K] {m : Heap} {s : Segs} {L : Nat → Prop} {pos : Nat → Pt K}

theorem inDiametral_iff {a b p : Pt K} : InDiametral a b p ↔ dotAt a b p < 0 := by
  have : sqDist (midpt a b) p - sqDist (midpt a b) a = dotAt a b p := by
    simp only [sqDist, midpt, dotAt]; ring
  unfold InDiametral
  rw [← this, sub_neg]

theorem dotAt_symm (a b p : Pt K) : dotAt a b p = dotAt b a p := by simp only [dotAt]; ring

/-- An edge whose circle is empty on both sides is locally Delaunay. -/
theorem locally_of_diametral (f : Flat m L pos) {x : Otri} (h1 : ∀ v a b, m.Tri3 L x v a b → ¬ InDiametral (pos a) (pos b) (pos v))
    (h2 : ∀ v a b, m.Tri3 L (m.nbr x) v a b → ¬ InDiametral (pos a) (pos b) (pos v)) : LocallyDelaunay m L pos x := by
  intro v a b d T1 T2 o o1 o2
  have k1 := h1 _ _ _ T1
  have k2 := h2 _ _ _ T2
  rw [inDiametral_iff] at k1 k2
  have hm : sqDist (midpt (pos a) (pos b)) (pos a) = sqDist (midpt (pos a) (pos b)) (pos b) := by
    simp only [sqDist, midpt]; ring
  have e1 : sqDist (midpt (pos a) (pos b)) (pos v) - sqDist (midpt (pos a) (pos b)) (pos a) = dotAt (pos a) (pos b) (pos v) := by
    simp only [sqDist, midpt, dotAt]; ring
  have e2 : sqDist (midpt (pos a) (pos b)) (pos d) - sqDist (midpt (pos a) (pos b)) (pos a) = dotAt (pos b) (pos a) (pos d) := by
    simp only [sqDist, midpt, dotAt]; ring
  have t1 := f.ccw _ _ _ _ T1
  have t2 := f.ccw _ _ _ _ T2
  have := fan_next (p := pos d) (o := midpt (pos a) (pos b)) (q := o) (a := pos b) (d := pos a) (e := pos v) hm.symm o1.symm (o1.symm.trans o2)
    (by rw [← hm]; linarith) t1 t2
  rw [← hm, ← o1] at this
  linarith

/-- A constrained Delaunay triangulation without encroached subsegments is Delaunay. -/
theorem delaunay_of_settled (h : Linked m L) (f : Flat m L pos) (g : Segmented m L) (hall : ∀ y, L y.1 → Settled true m L pos y)
    (hne : ∀ y, ¬ Encroached m L pos y) : Delaunay m L pos := by
  intro x hx
  by_cases hn : m.nbr x = (0, 0)
  · intro v a b d _ T2
    exact absurd T2.1 (by rw [hn]; exact h.dummy)
  by_cases h0 : (m.sub x).1 = 0
  · rcases hall x hx with k | k | k
    exacts [absurd h0 k.2, absurd k hn, k]
  · have hn' := (h.across hx hn).1
    refine locally_of_diametral f (fun v a b T hd => hne x ⟨h0, v, a, b, T, hd⟩) (fun v a b T hd => hne (m.nbr x) ⟨?_, v, a, b, T, hd⟩)
    rw [g.both x hx hn' h0]; exact h0

theorem ssym_ssym (o : Osub) : ssym (ssym o) = o := by simp [ssym]
theorem ssym_ne (o : Osub) : ssym o ≠ o := by
  intro h; have := congrArg Prod.snd h; simp [ssym] at this

theorem sub_inj (g : Segmented m L) {x y : Otri} (hx : L x.1) (hy : L y.1) (h0 : (m.sub x).1 ≠ 0) (he : m.sub x = m.sub y) : x = y := by
  rw [← g.back x hx h0, he, g.back y hy (he ▸ h0)]

/-- The other side of a subsegment. -/
theorem stri_other (h : Linked m L) (g : Segmented m L) (B : Bare m L) {y : Otri} (hy : L y.1) (h0 : (m.sub y).1 ≠ 0) :
    (m.nbr y = (0, 0) ∧ (m.stri (ssym (m.sub y))).1 = 0) ∨
    (m.nbr y ≠ (0, 0) ∧ L (m.nbr y).1 ∧ m.sub (m.nbr y) = ssym (m.sub y) ∧ m.stri (ssym (m.sub y)) = m.nbr y) := by
  by_cases hn : m.nbr y = (0, 0)
  · exact Or.inl ⟨hn, B y hy h0 hn⟩
  · have hl := (h.across hy hn).1
    have hb := g.both y hy hl h0
    refine Or.inr ⟨hn, hl, hb, ?_⟩
    have := g.back _ hl (by rw [hb]; exact h0)
    rw [hb] at this
    exact this

/-- What `checkseg4encroach` returns, from the answers for the two sides. -/
def encResult (c1 c2 : Bool) (bad : List Enc) (o : Osub) (p r : Nat) : Nat × List Enc :=
  ((if c1 then 1 else 0) + (if c2 then 2 else 0),
    if c2 then bad ++ [⟨ssym o, r, p⟩] else if c1 then bad ++ [⟨o, p, r⟩] else bad)

theorem checkEnc_of {o : Osub} {p r : Nat} {c1 c2 : Bool} (bad : List Enc) (hp : s.send o = some p) (hr : s.send (ssym o) = some r)
    (h1 : s.encSide pos p r (s.mesh.stri o) = .ok c1) (h2 : s.encSide pos p r (s.mesh.stri (ssym o)) = .ok c2) :
    s.checkEnc pos o bad = .ok (encResult c1 c2 bad o p r) := by
  have e1 : s.sorg o = some p := hp
  have e2 : s.sdest o = some r := hr
  unfold Segs.checkEnc
  rw [e1, e2]
  simp only [must, Outcome.bind_ok, h1, h2]
  cases c1 <;> cases c2 <;> simp [encResult]

theorem encSide_live {p r : Nat} {y : Otri} {v a b : Nat} (h : Linked s.mesh L) (T : s.mesh.Tri3 L y v a b) :
    s.encSide pos p r y = .ok (decide (dotAt (pos p) (pos r) (pos v) < 0)) := by
  have h0 : y.1 ≠ 0 := fun h0 => h.dummy (h0 ▸ T.1)
  have ha : s.mesh.apex y = some v := T.2.1
  unfold Segs.encSide
  rw [if_neg h0, ha]
  rfl

theorem encSide_dummy {p r : Nat} {y : Otri} (h0 : y.1 = 0) : s.encSide pos p r y = .ok false := by
  unfold Segs.encSide
  rw [if_pos h0]

theorem side_iff (g : Segmented m L) {y : Otri} {v a b : Nat} (T : m.Tri3 L y v a b) (h0 : (m.sub y).1 ≠ 0) :
    SideEncroached m L pos (m.sub y) ↔ dotAt (pos b) (pos a) (pos v) < 0 := by
  rw [dotAt_symm, ← inDiametral_iff]
  constructor
  · rintro ⟨x, hx, -, v', a', b', T', hd⟩
    have := sub_inj g T.1 T'.1 h0 hx.symm
    subst this
    have i1 := T.2.1.symm.trans T'.2.1
    have i2 := T.2.2.1.symm.trans T'.2.2.1
    have i3 := T.2.2.2.symm.trans T'.2.2.2
    cases i1; cases i2; cases i3; exact hd
  · intro hd
    exact ⟨y, rfl, h0, v, a, b, T, hd⟩

/-- `checkseg4encroach`, for both sides of the subsegment of an edge. -/
theorem checkEnc_edge (M : SegMesh s L) (B : Bare s.mesh L) {y : Otri} {v a b : Nat} (T : s.mesh.Tri3 L y v a b) (h0 : (s.mesh.sub y).1 ≠ 0) :
    ∃ c1 c2 : Bool, (c1 = true ↔ SideEncroached s.mesh L pos (s.mesh.sub y)) ∧ (c2 = true ↔ SideEncroached s.mesh L pos (ssym (s.mesh.sub y))) ∧
      (∀ bad, s.checkEnc pos (s.mesh.sub y) bad = .ok (encResult c1 c2 bad (s.mesh.sub y) b a)) ∧
      ∀ bad, s.checkEnc pos (ssym (s.mesh.sub y)) bad = .ok (encResult c2 c1 bad (ssym (s.mesh.sub y)) a b) := by
  have h := M.linked
  have g := M.segmented
  obtain ⟨e1, e2⟩ := M.endpointed.ends y a b (Tri3.dirs T).1 h0
  have e2 : s.send (ssym (s.mesh.sub y)) = some a := e2
  have hb := g.back y T.1 h0
  have k1 := side_iff (pos := pos) g T h0
  have s1 : ∀ p r, s.encSide pos p r (s.mesh.stri (s.mesh.sub y)) = .ok (decide (dotAt (pos p) (pos r) (pos v) < 0)) := by
    intro p r; rw [hb]; exact encSide_live h T
  rcases stri_other h g B T.1 h0 with ⟨hn, ho⟩ | ⟨hn, hl, hs, ho⟩
  · refine ⟨decide (dotAt (pos b) (pos a) (pos v) < 0), false, by rw [decide_eq_true_iff, k1], ?_, fun bad => ?_, fun bad => ?_⟩
    · refine ⟨fun h => absurd h (by simp), ?_⟩
      rintro ⟨x, hx, hx0, v', a', b', T', -⟩
      exfalso
      rcases g.same y x T.1 T'.1 h0 (by rw [hx]; rfl) with rfl | rfl
      · exact ssym_ne _ hx.symm
      · exact h.dummy (by have := T'.1; rw [hn] at this; exact this)
    · exact checkEnc_of bad e1 e2 (s1 b a) (encSide_dummy ho)
    · refine checkEnc_of bad e2 (by rw [ssym_ssym]; exact e1) (encSide_dummy ho) ?_
      rw [ssym_ssym, s1 a b, dotAt_symm]
  · obtain ⟨-, -, v', w', j1, j2⟩ := h.across T.1 hn
    obtain ⟨d, A, B', T2⟩ := h.tri hl
    have D := (Tri3.dirs T).1
    have D2 := (Tri3.dirs T2).1
    have i1 := j1.2.1.symm.trans D.2.1
    have i2 := j1.2.2.symm.trans D.2.2
    have i3 := j2.2.1.symm.trans D2.2.1
    have i4 := j2.2.2.symm.trans D2.2.2
    cases i1; cases i2; cases i3; cases i4
    have k2 := side_iff (pos := pos) g T2 (by rw [hs]; exact h0)
    rw [hs] at k2
    have s2 : ∀ p r, s.encSide pos p r (s.mesh.stri (ssym (s.mesh.sub y))) = .ok (decide (dotAt (pos p) (pos r) (pos d) < 0)) := by
      intro p r; rw [ho]; exact encSide_live h T2
    refine ⟨decide (dotAt (pos b) (pos a) (pos v) < 0), decide (dotAt (pos b) (pos a) (pos d) < 0), by rw [decide_eq_true_iff, k1],
      by rw [decide_eq_true_iff, k2, dotAt_symm], fun bad => ?_, fun bad => ?_⟩
    · exact checkEnc_of bad e1 e2 (s1 b a) (s2 b a)
    · refine checkEnc_of bad e2 (by rw [ssym_ssym]; exact e1) ?_ ?_
      · rw [s2 a b, dotAt_symm]
      · rw [ssym_ssym, s1 a b, dotAt_symm]

/-- An entry of the pool that is up to date: the subsegment has these ends. -/
def Actual (m : Heap) (L : Nat → Prop) (c : Enc) : Prop := c.ss.1 ≠ 0 ∧ ∃ z, m.Dir L z c.dest c.org ∧ m.sub z = c.ss

/-- The subsegment is in the pool. -/
def Queued (m : Heap) (L : Nat → Prop) (bad : List Enc) (n : Nat) : Prop := ∃ c ∈ bad, Actual m L c ∧ c.ss.1 = n

theorem encResult_spec {c1 c2 : Bool} {bad : List Enc} {o : Osub} {p r : Nat} (a1 : c1 = true → Actual m L ⟨o, p, r⟩)
    (a2 : c2 = true → Actual m L ⟨ssym o, r, p⟩) :
    (∀ c ∈ bad, c ∈ (encResult c1 c2 bad o p r).2) ∧
    (∀ c ∈ (encResult c1 c2 bad o p r).2, c ∈ bad ∨ (Actual m L c ∧ c.ss.1 = o.1)) ∧
    (c1 = true ∨ c2 = true → Queued m L (encResult c1 c2 bad o p r).2 o.1) := by
  cases c1 <;> cases c2 <;> simp only [encResult, if_true, if_false, Bool.false_eq_true]
  · exact ⟨fun c h => h, fun c h => Or.inl h, fun h => by simp at h⟩
  all_goals
    refine ⟨fun c h => by simp [h], ?_, fun _ => ?_⟩
    · intro c hc
      simp only [List.mem_append, List.mem_cons, List.not_mem_nil, or_false] at hc
      rcases hc with hc | rfl
      · exact Or.inl hc
      · exact Or.inr ⟨by first | exact a2 rfl | exact a1 rfl, rfl⟩
    · exact ⟨_, List.mem_append_right _ (List.mem_cons_self ..), by first | exact a2 rfl | exact a1 rfl, rfl⟩

/-- What matters for the pool. -/
theorem checkEnc_spec (M : SegMesh s L) (B : Bare s.mesh L) {o : Osub} {y : Otri} (hy : L y.1) (h0 : (s.mesh.sub y).1 ≠ 0)
    (ho : o.1 = (s.mesh.sub y).1) (bad : List Enc) :
    ∃ n bad', s.checkEnc pos o bad = .ok (n, bad') ∧ (∀ c ∈ bad, c ∈ bad') ∧ (∀ c ∈ bad', c ∈ bad ∨ (Actual s.mesh L c ∧ c.ss.1 = o.1)) ∧
      ∀ x, (s.mesh.sub x).1 = o.1 → Encroached s.mesh L pos x → Queued s.mesh L bad' o.1 := by
  obtain ⟨v, a, b, T⟩ := M.linked.tri hy
  obtain ⟨c1, c2, k1, k2, k3, k4⟩ := checkEnc_edge (pos := pos) M B T h0
  have g := M.segmented
  have h := M.linked
  have D := (Tri3.dirs T).1
  have hx : ∀ x, (s.mesh.sub x).1 = o.1 → Encroached s.mesh L pos x → c1 = true ∨ c2 = true := by
    rintro x hx hE
    obtain ⟨e0, v', a', b', T', hd⟩ := hE
    rcases g.same y x hy T'.1 h0 (by rw [hx, ho]) with rfl | rfl
    · exact Or.inl (k1.2 ⟨x, rfl, e0, v', a', b', T', hd⟩)
    · exact Or.inr (k2.2 ⟨_, g.both y hy T'.1 h0, e0, v', a', b', T', hd⟩)
  have a1 : c1 = true → Actual s.mesh L ⟨s.mesh.sub y, b, a⟩ := fun _ => ⟨h0, y, D, rfl⟩
  have a2 : c2 = true → Actual s.mesh L ⟨ssym (s.mesh.sub y), a, b⟩ := by
    intro hc
    obtain ⟨x, hx, hx0, v', a', b', T', -⟩ := k2.1 hc
    rcases g.same y x hy T'.1 h0 (by rw [hx]; rfl) with rfl | rfl
    · exact absurd hx.symm (ssym_ne _)
    · have hn : s.mesh.nbr y ≠ (0, 0) := fun hn => h.dummy (by have := T'.1; rw [hn] at this; exact this)
      obtain ⟨-, -, v'', w'', j1, j2⟩ := h.across hy hn
      have i1 := j1.2.1.symm.trans D.2.1
      have i2 := j1.2.2.symm.trans D.2.2
      cases i1; cases i2
      exact ⟨h0, _, j2, hx⟩
  obtain ho' | ho' : o = s.mesh.sub y ∨ o = ssym (s.mesh.sub y) := by
    rcases o with ⟨n, t⟩
    simp only at ho
    subst ho
    cases hc : (s.mesh.sub y).2 <;> cases t <;> simp [ssym, Prod.ext_iff, hc]
  · subst ho'
    obtain ⟨r1, r2, r3⟩ := encResult_spec (m := s.mesh) (L := L) (bad := bad) a1 a2
    exact ⟨_, _, k3 bad, r1, r2, fun x h1 h2 => r3 (hx x h1 h2)⟩
  · subst ho'
    obtain ⟨r1, r2, r3⟩ := encResult_spec (m := s.mesh) (L := L) (bad := bad) (o := ssym (s.mesh.sub y)) a2 (by rw [ssym_ssym]; exact a1)
    exact ⟨_, _, k4 bad, r1, r2, fun x h1 h2 => r3 (hx x h1 h2).symm⟩

end Delynoi.Tri
