import Verif.Proofs.TriSegment
/-! # `insertsubseg` -/
set_option linter.unusedSectionVars false
namespace Delynoi.Tri
variable {L : Nat → Prop}

theorem markVertex_some (s : Segs) (v : Nat) (k : Int) : ∃ f, s.markVertex (some v) k = .ok { s with vmark := f } ∧
    ∀ u, f u = if u = v ∧ s.vmark u = 0 then k else s.vmark u := by
  unfold Segs.markVertex
  by_cases h : s.vmark v = 0
  · refine ⟨Function.update s.vmark v k, by simp only [if_pos h], fun u => ?_⟩
    rw [Function.update_apply]
    by_cases hu : u = v
    · subst hu; simp [h]
    · simp [hu]
  · refine ⟨s.vmark, by simp only [if_neg h], fun u => ?_⟩
    by_cases hu : u = v
    · subst hu; simp [h]
    · simp [hu]

theorem mark_two {s0 : Nat → Int} {f g : Nat → Int} {v w : Nat} {k : Int} (hf : ∀ u, f u = if u = v ∧ s0 u = 0 then k else s0 u)
    (hg : ∀ u, g u = if u = w ∧ f u = 0 then k else f u) (u : Nat) :
    g u = if (u = v ∨ u = w) ∧ s0 u = 0 then k else s0 u := by
  rw [hg, hf]
  generalize s0 u = c
  by_cases h0 : c = 0
  · subst h0
    by_cases h1 : u = v <;> by_cases h2 : u = w <;> simp only [h1, h2, true_and, false_and, or_true, true_or, or_false, if_true, if_false]
    all_goals split_ifs <;> first | rfl | omega
  · simp only [h0, and_false, if_false]

/-- Neighbours of live triangles are others, or `dummytri`. -/
theorem nbr_self {m : Heap} (h : Linked m L) (p : Proper m L) {x : Otri} (hx : L x.1) : m.nbr x ≠ x := by
  intro e
  rcases h.links x hx with h0 | ⟨v, w, h1, h2⟩
  · rw [e] at h0; rw [h0] at hx; exact h.dummy hx
  · rw [e] at h2
    have hc : m.corner (x.1, x.2 + 1) = m.corner (x.1, x.2 + 2) := by rw [h1.2.1, h2.2.2]
    have := p x.1 hx _ _ hc
    have h3 : ∀ i : Fin 3, i + 1 ≠ i + 2 := by decide
    exact h3 _ this

theorem insertsubseg_spec {s : Segs} (M : SegMesh s L) {x : Otri} {v w : Nat} (hd : s.mesh.Dir L x v w) (k : Int) :
    ∃ s', s.insertsubseg x k = .ok s' ∧ SegMesh s' L ∧ Subbed s s' L x v w k := by
  obtain ⟨h, g, p, E⟩ := M
  have ho : s.mesh.org x = some v := hd.2.1
  have hde : s.mesh.dest x = some w := hd.2.2
  obtain ⟨f, q1, hf⟩ := markVertex_some s v k
  obtain ⟨f', q2, hf'⟩ := markVertex_some { s with vmark := f } w k
  have hvm := mark_two hf hf'
  unfold Segs.insertsubseg
  rw [ho, hde]
  simp only [q1, Outcome.bind_ok, q2]
  clear q1 q2
  simp only [Heap.tspivot]
  by_cases h0 : (s.mesh.sub x).1 = 0
  · simp only [h0, if_true]
    refine ⟨_, rfl, ?_⟩
    have hne : ∀ y, L y.1 → (s.mesh.sub y).1 ≠ s.count + 1 := fun y hy hh => by have := E.made y hy; omega
    simp only [Segs.makesubseg, Segs.setsorg, Segs.setsdest, Segs.setsegorg, Segs.setsegdest, Segs.tsbond, Segs.setmark, Heap.tsbond, Heap.sym,
      ssym, Bool.not_false]
    have hnx : s.mesh.nbr x ≠ x := nbr_self h p hd.1
    have hnx' : x ≠ s.mesh.nbr x := fun e => hnx e.symm
    refine ⟨⟨⟨h.dummy, h.corners, h.once, h.links, h.complete⟩, ?_, p, ?_⟩, rfl, rfl, ?_, ?_, ?_, ?_, ?_, ?_, hvm, ?_, ?_⟩
    · -- segmented
      refine ⟨?_, ?_, ?_, ?_, ?_⟩
      · intro y hy
        simp only [Function.update_apply]
        by_cases e1 : y = s.mesh.nbr x
        · simp [e1]
        · by_cases e2 : y = x
          · subst e2; simp [e1]
          · simp only [if_neg e1, if_neg e2]
            intro hs
            rw [if_neg, if_neg, if_neg, if_neg]
            · exact g.back y hy hs
            all_goals
              intro e3
              apply hne y hy
              rw [e3]
      · intro y hy
        simp only [Function.update_apply]
        by_cases e1 : y = s.mesh.nbr x
        · simp [e1]
        · by_cases e2 : y = x
          · subst e2; simp [e1]
          · simp only [if_neg e1, if_neg e2]; exact g.none y hy
      · intro y hy hy2
        simp only [Function.update_apply] at hy2 ⊢
        by_cases e1 : y = s.mesh.nbr x
        · -- the other side of the new one
          have hl : L (s.mesh.nbr x).1 := e1 ▸ hy
          have h0' : s.mesh.nbr x ≠ (0, 0) := fun hh => by rw [hh] at hl; exact h.dummy hl
          have := (h.across hd.1 h0').2.1
          intro _
          rw [e1, this]; simp [hnx']
        · by_cases e2 : y = x
          · subst e2
            intro _
            simp [e1]
          · simp only [if_neg e1, if_neg e2]
            have h0' : s.mesh.nbr y ≠ (0, 0) := fun hh => by rw [hh] at hy2; exact h.dummy hy2
            have hyy := (h.across hy h0').2.1
            have e3 : s.mesh.nbr y ≠ s.mesh.nbr x := by
              intro hh
              have hl : L (s.mesh.nbr x).1 := hh ▸ hy2
              have h0'' : s.mesh.nbr x ≠ (0, 0) := fun hh => by rw [hh] at hl; exact h.dummy hl
              rw [hh, (h.across hd.1 h0'').2.1] at hyy
              exact e2 hyy.symm
            have e4 : s.mesh.nbr y ≠ x := by
              intro hh; rw [hh] at hyy; exact e1 hyy.symm
            rw [if_neg e3, if_neg e4]
            exact g.both y hy hy2
      · intro y hy hy2
        simp only [Function.update_apply] at hy2 ⊢
        by_cases e1 : y = s.mesh.nbr x
        · simp [e1]
        · by_cases e2 : y = x
          · subst e2; simp [e1]
          · simp only [if_neg e1, if_neg e2]
            have h0' : s.mesh.nbr y ≠ (0, 0) := fun hh => by rw [hh] at hy2; exact h.dummy hy2
            have hyy := (h.across hy h0').2.1
            have e3 : s.mesh.nbr y ≠ s.mesh.nbr x := by
              intro hh
              have hl : L (s.mesh.nbr x).1 := hh ▸ hy2
              have h0'' : s.mesh.nbr x ≠ (0, 0) := fun hh => by rw [hh] at hl; exact h.dummy hl
              rw [hh, (h.across hd.1 h0'').2.1] at hyy
              exact e2 hyy.symm
            have e4 : s.mesh.nbr y ≠ x := by
              intro hh; rw [hh] at hyy; exact e1 hyy.symm
            rw [if_neg e3, if_neg e4]
            exact g.neither y hy hy2
      · intro y z hy hz
        simp only [Function.update_apply]
        by_cases e1 : y = s.mesh.nbr x
        · have hl : L (s.mesh.nbr x).1 := e1 ▸ hy
          have h0' : s.mesh.nbr x ≠ (0, 0) := fun hh => by rw [hh] at hl; exact h.dummy hl
          have hxx := (h.across hd.1 h0').2.1
          rw [if_pos e1]
          intro _ hh
          by_cases f1 : z = s.mesh.nbr x
          · exact Or.inl (f1.trans e1.symm)
          · by_cases f2 : z = x
            · right; rw [f2, e1, hxx]
            · rw [if_neg f1, if_neg f2] at hh
              exact absurd hh.symm (hne z hz)
        · rw [if_neg e1]
          by_cases e2 : y = x
          · rw [if_pos e2]
            intro _ hh
            by_cases f1 : z = s.mesh.nbr x
            · right; rw [f1, e2]
            · by_cases f2 : z = x
              · exact Or.inl (f2.trans e2.symm)
              · rw [if_neg f1, if_neg f2] at hh
                exact absurd hh.symm (hne z hz)
          · rw [if_neg e2]
            intro hs hh
            by_cases f1 : z = s.mesh.nbr x
            · rw [if_pos f1] at hh; exact absurd hh (hne y hy)
            · rw [if_neg f1] at hh
              by_cases f2 : z = x
              · rw [if_pos f2] at hh; exact absurd hh (hne y hy)
              · rw [if_neg f2] at hh
                exact g.same y z hy hz hs hh
    · -- endpoints
      refine ⟨?_, ?_⟩
      · intro y hy
        simp only [Function.update_apply]
        by_cases e1 : y = s.mesh.nbr x
        · simp [e1]
        · by_cases e2 : y = x
          · subst e2; simp [e1]
          · simp only [if_neg e1, if_neg e2]
            have := E.made y hy; omega
      · intro y a b hy
        have hy' : s.mesh.Dir L y a b := hy
        simp only [Function.update_apply]
        by_cases e1 : y = s.mesh.nbr x
        · have hl : L (s.mesh.nbr x).1 := e1 ▸ hy'.1
          have h0' : s.mesh.nbr x ≠ (0, 0) := fun hh => by rw [hh] at hl; exact h.dummy hl
          obtain ⟨-, -, v', w', d1, d2⟩ := h.across hd.1 h0'
          obtain ⟨rfl, rfl⟩ := hd.uniq d1
          rw [← e1] at d2
          obtain ⟨rfl, rfl⟩ := hy'.uniq d2
          intro _
          simp [e1]
        · by_cases e2 : y = x
          · subst e2
            obtain ⟨rfl, rfl⟩ := hy'.uniq hd
            intro _
            simp [e1]
          · simp only [if_neg e1, if_neg e2]
            intro hs
            have nn : ∀ b c : Bool, ((s.mesh.sub y).1, b) ≠ (s.count + 1, c) := by
              intro b c hh
              exact hne y hy'.1 (by rw [Prod.mk.injEq] at hh; exact hh.1)
            have n1 : ∀ c : Bool, s.mesh.sub y ≠ (s.count + 1, c) := by
              intro c hh
              exact hne y hy'.1 (by rw [hh])
            simp only [nn, n1, if_false]
            exact E.ends y a b hy' hs
    · simp only [Function.update_apply]
      rw [if_neg hnx']; simp
    · intro y hy e2 e1
      simp only [Function.update_apply]
      rw [if_neg e1, if_neg e2]
    · intro hh; exact absurd h0 hh
    · intro _
      simp [Segs.segorg, Segs.segdest, ssym, Function.update_apply, hnx']
    · intro n hn _
      simp only [Function.update_apply]
      rw [if_neg (by omega), if_neg (by omega)]
    · intro o hn
      simp only [Function.update_apply]
      have n1 : ∀ c : Bool, o ≠ (s.count + 1, c) := by
        rintro c rfl
        simp only at hn; omega
      simp only [n1, if_false]
    · intro o hn
      simp only [Function.update_apply]
      have n1 : ∀ c : Bool, o ≠ (s.count + 1, c) := by
        rintro c rfl
        simp only at hn; omega
      simp only [n1, if_false]
    · rintro - ⟨o1, o2⟩ ho
      simp only at ho
      subst ho
      simp only [Function.update_apply]
      cases o2 <;> simp [dummysub]
  · simp only [h0, if_false]
    by_cases hk : s.smark (s.mesh.sub x).1 = 0
    · simp only [hk, if_true]
      refine ⟨_, rfl, ⟨h, g, p, E.made, E.ends⟩, rfl, rfl, h0, fun _ _ _ _ => rfl, fun _ => ⟨rfl, rfl, ?_⟩, fun hh => absurd hh h0, ?_,
        fun _ _ => rfl, hvm, fun _ _ => rfl, fun hh => absurd hh h0⟩
      · simp [Segs.setmark, hk]
      · intro n hn hne
        simp only [Segs.setmark, Function.update_apply]
        rw [if_neg hne]
    · simp only [hk, if_false]
      refine ⟨_, rfl, ⟨h, g, p, E.made, E.ends⟩, rfl, rfl, h0, fun _ _ _ _ => rfl, fun _ => ⟨rfl, rfl, ?_⟩, fun hh => absurd hh h0, ?_,
        fun _ _ => rfl, hvm, fun _ _ => rfl, fun hh => absurd hh h0⟩
      · simp [hk]
      · intro n hn hne; rfl

end Delynoi.Tri
