import Verif.Proofs.TriFixup2
/-! # `constrainededge` across one edge, and `insertsegment` -/
set_option linter.unusedSectionVars false
namespace Delynoi.Tri
variable {K : Type} [Field K] [LinearOrder K] [IsStrictOrderedRing K] {m : Heap} {s : Segs} {L : Nat → Prop} {pos : Nat → Pt K}

theorem SegMesh.of_mesh (M : SegMesh s L) {m' : Heap} (h : Linked m' L) (g : Segmented m' L) (f : Flat m' L pos)
    (hb : KeepsSubs m' L s.mesh L) : SegMesh { s with mesh := m' } L where
  linked := h
  segmented := g
  proper := f.proper h
  endpointed :=
    { made := by
        intro x hx
        by_cases h0 : (m'.sub x).1 = 0
        · show (m'.sub x).1 ≤ _
          omega
        · obtain ⟨v, A, B, T⟩ := h.tri (x := x) hx
          obtain ⟨y, hy, e⟩ := hb x A B (Tri3.dirs T).1 h0
          show (m'.sub x).1 ≤ _
          rw [← e]
          exact M.endpointed.made y hy.1
      ends := by
        intro x v w hx h0
        obtain ⟨y, hy, e⟩ := hb x v w hx h0
        have := M.endpointed.ends y v w hy (by rw [e]; exact h0)
        rw [e] at this
        exact this }

theorem Settled.congr {m m' : Heap} (e1 : m'.corner = m.corner) (e2 : m'.nbr = m.nbr) {y : Otri} (hsub : (m.sub y).1 ≠ 0 → (m'.sub y).1 ≠ 0)
    (hs : Settled true m L pos y) : Settled true m' L pos y := by
  rcases hs with ⟨-, hs⟩ | hs | hs
  · exact Or.inl ⟨rfl, hsub hs⟩
  · exact Or.inr (Or.inl (by rw [e2]; exact hs))
  · refine Or.inr (Or.inr ?_)
    intro v a b d t1 t2
    unfold Heap.Tri3 at t1 t2
    rw [e1] at t1 t2
    rw [e2] at t2
    exact hs v a b d t1 t2

variable {a b c d : Nat} {x : Otri}

theorem constrainededge_single (M : SegMesh s L) (f : Flat s.mesh L pos) (hall : ∀ y, L y.1 → Settled true s.mesh L pos y)
    (hx : s.mesh.Tri3 L x b c a) (ht : s.mesh.Tri3 L (s.mesh.nbr (lnext x)) d b a) (h0 : (s.mesh.sub (lnext x)).1 = 0)
    (v1 : 0 < turn (pos d) (pos c) (pos a)) (v2 : 0 < turn (pos c) (pos d) (pos b))
    (si : Segs → Otri → Osub → Outcome (Segs × Otri)) (k : Int) (depth turns fuel : Nat) :
    ∃ s', constrainededge si pos (pos d) k (depth + 1) turns (fuel + 1) s x = .ok s' ∧ SegMesh s' L ∧ Flat s'.mesh L pos ∧
      (∀ y, L y.1 → Settled true s'.mesh L pos y) ∧ Swapped s L s' a b c d ∧
      (∃ y, s'.mesh.Dir L y d c ∧ (s'.mesh.sub y).1 = s.count + 1) ∧ s'.count = s.count + 1 ∧ s'.smark (s.count + 1) = k ∧
      (∀ n, 0 < n → n ≤ s.count → s'.smark n = s.smark n) ∧
      ∀ u, s'.vmark u = if (u = d ∨ u = c) ∧ s.vmark u = 0 then k else s.vmark u := by
  have h := M.linked
  have g := M.segmented
  have TE : s.mesh.Tri3 L (lnext x) c a b := (Tri3.rot hx).1
  have hn : s.mesh.nbr (lnext x) ≠ (0, 0) := fun hh => h.dummy (by have := ht.1; rw [hh] at this; exact this)
  have q := quad_of_convex h f (Tri3.dirs TE).1 TE.2.1 hn ht.2.1 v1 v2
  obtain ⟨cc1, cc2, cc3, cc4, cc5, cc6, cc7⟩ := flip_corner h q true
  have h' := flip_linked h q true
  have f' := flip_flat h f q true v1 v2
  have g' := flip_segmented h q g
  have ht0 : (s.mesh.sub (s.mesh.nbr (lnext x))).1 = 0 := g.neither _ q.le q.lt h0
  have hset := @flip_all_settled K _ _ _ s.mesh L pos _ _ _ _ _ _ h f g q v1 v2 hall h0
  have back := flip_keeps_back h q g h0 ht0
  have M1 := M.of_mesh h' g' f' back
  have nq : (s.mesh.flip true (lnext x)).nbr (lnext x) = s.mesh.nbr (lnext x) := (flip_quad h q true).nbr
  have ne' : ∀ y z : Otri, y.1 = (lnext x).1 → z.1 = (s.mesh.nbr (lnext x)).1 → y ≠ z := by
    rintro y z hy hz rfl
    exact q.ne (hy.symm.trans hz)
  have F1 := fixup_settled (x := lnext x) h' f' q.le cc2 (hset (y := lnext (lnext x)) q.le (lnext_ne _) (ne' _ _ rfl rfl)) false depth
  have F2 := fixup_settled (x := lnext (s.mesh.nbr (lnext x))) h' f' q.lt (by rw [lnext_lnext]; exact cc6)
    (by rw [lnext_lnext]; exact hset (y := lprev (s.mesh.nbr (lnext x))) q.lt (ne' (lnext x) (lprev (s.mesh.nbr (lnext x))) rfl rfl).symm (lprev_ne _)) true depth
  have D : (s.mesh.flip true (lnext x)).Dir L (lnext x) d c := (flip_dir h q true).2 (Or.inl ⟨rfl, rfl, rfl⟩)
  obtain ⟨s', r1, M', B⟩ := insertsubseg_spec M1 D k
  have hsub0 : ((s.mesh.flip true (lnext x)).sub (lnext x)).1 = 0 := by rw [(flip_diag h q g).1]; exact h0
  obtain ⟨n1, n2, n3, n4, n5⟩ := B.new hsub0
  have D' : s'.mesh.Dir L (lnext x) d c := (dir_congr B.corner).2 D
  refine ⟨s', ?_, M', ?_, ?_, ?_, ⟨lnext x, D', n2⟩, n1, n3, ?_, B.vmark⟩
  · have ho : s.mesh.org x = some c := hx.2.2.1
    have ho' : (s.mesh.flip true (lnext x)).org (lnext x) = some d := cc2
    have hop : (s.mesh.flip true (lnext x)).oprev (lnext x) = lnext (s.mesh.nbr (lnext x)) := by
      rw [Heap.oprev, Heap.sym, nq]
    simp only [constrainededge, digLoop, ho, ho', hop, deref, Outcome.bind_ok, Segs.fixup, F1, F2, and_self, true_or, if_true,
      decide_true, Bool.not_true, Bool.false_eq_true, if_false, r1]
  · exact Flat.congr f' B.corner
  · intro y hy
    by_cases hye : y = lnext x
    · subst hye
      exact Or.inl ⟨rfl, B.has⟩
    by_cases hyt : y = s.mesh.nbr (lnext x)
    · subst hyt
      left
      refine ⟨rfl, ?_⟩
      have := M'.segmented.both (lnext x) q.le (by rw [B.nbr]; show L ((s.mesh.flip true (lnext x)).nbr (lnext x)).1; rw [nq]; exact q.lt) B.has
      rw [B.nbr] at this
      rw [show ({ s with mesh := s.mesh.flip true (lnext x) } : Segs).mesh.nbr (lnext x) = s.mesh.nbr (lnext x) from nq] at this
      rw [this]
      exact B.has
    · refine (hset hy hye hyt).congr B.corner B.nbr ?_
      rw [B.other y hy hye (by rw [show ({ s with mesh := s.mesh.flip true (lnext x) } : Segs).mesh.nbr (lnext x) = s.mesh.nbr (lnext x) from nq]; exact hyt)]
      exact id
  · have nd1 : ¬ ∃ z, s.mesh.Dir L z c d ∨ s.mesh.Dir L z d c := q.nodiag
    constructor
    · intro v w
      have e1 : s'.mesh.Adj L v w ↔ (s.mesh.flip true (lnext x)).Adj L v w := by
        constructor
        · rintro ⟨z, hz | hz⟩
          exacts [⟨z, Or.inl ((dir_congr B.corner).1 hz)⟩, ⟨z, Or.inr ((dir_congr B.corner).1 hz)⟩]
        · rintro ⟨z, hz | hz⟩
          exacts [⟨z, Or.inl ((dir_congr B.corner).2 hz)⟩, ⟨z, Or.inr ((dir_congr B.corner).2 hz)⟩]
      rw [e1]
      refine ⟨flip_adj h q, ?_⟩
      rintro (⟨k0, k1, k2⟩ | ⟨rfl, rfl⟩ | ⟨rfl, rfl⟩)
      · exact flip_stays h q true k0 k1 k2
      · exact ⟨_, Or.inr D⟩
      · exact ⟨_, Or.inl D⟩
    · exact ⟨lnext x, Or.inr D', B.has⟩
    · intro z v w hz hs
      obtain ⟨y, hy, e⟩ := flip_keep h q g hz (by rintro rfl; exact hs h0) (by rintro rfl; exact hs ht0)
      refine ⟨y, (dir_congr B.corner).2 hy, ?_⟩
      rw [B.other y hy.1 ?_ ?_]
      · exact e
      · rintro rfl; rw [← e] at hs; exact hs hsub0
      · rintro rfl
        rw [show ({ s with mesh := s.mesh.flip true (lnext x) } : Segs).mesh.nbr (lnext x) = s.mesh.nbr (lnext x) from nq] at e
        rw [(flip_diag h q g).2] at e
        rw [← e] at hs; exact hs ht0
    · intro y v w hy hs
      have hy := (dir_congr B.corner).1 hy
      by_cases hye : y = lnext x
      · subst hye
        have i1 := hy.2.1.symm.trans D.2.1
        have i2 := hy.2.2.symm.trans D.2.2
        cases i1; cases i2
        exact Or.inr (Or.inl ⟨rfl, rfl⟩)
      by_cases hyt : y = s.mesh.nbr (lnext x)
      · subst hyt
        have D2 : (s.mesh.flip true (lnext x)).Dir L (s.mesh.nbr (lnext x)) c d := (flip_dir h q true).2 (Or.inr (Or.inl ⟨rfl, rfl, rfl⟩))
        have i1 := hy.2.1.symm.trans D2.2.1
        have i2 := hy.2.2.symm.trans D2.2.2
        cases i1; cases i2
        exact Or.inl ⟨rfl, rfl⟩
      rw [B.other y hy.1 hye (by rw [show ({ s with mesh := s.mesh.flip true (lnext x) } : Segs).mesh.nbr (lnext x) = s.mesh.nbr (lnext x) from nq]; exact hyt)] at hs ⊢
      obtain ⟨z, hz, e⟩ := back y v w hy hs
      exact Or.inr (Or.inr ⟨z, hz, e.symm⟩)
  · intro n n0 hn'
    exact B.smark n hn' (by rw [hsub0]; omega)

end Delynoi.Tri
