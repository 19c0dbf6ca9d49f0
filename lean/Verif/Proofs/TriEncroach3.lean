import Verif.Proofs.TriEncroach2
/-! # Encroached subsegments: inserting a vertex -/
set_option linter.unusedSectionVars false
namespace Delynoi.Tri
variable {K : Type} [Field K] [LinearOrder K] [IsStrictOrderedRing K] {L : Nat → Prop} {pos : Nat → Pt K}

theorem markVertex_mesh {s s' : Segs} {v : Option Nat} {k : Int} (h : s.markVertex v k = .ok s') :
    s'.mesh = s.mesh ∧ s'.count = s.count := by
  unfold Segs.markVertex at h
  cases v with
  | none => simp at h
  | some v =>
    simp only at h
    split_ifs at h <;> cases h <;> exact ⟨rfl, rfl⟩

theorem insertsubseg_stri {s s' : Segs} {x : Otri} {k : Int} (h0 : (s.mesh.sub x).1 = 0) (hr : s.insertsubseg x k = .ok s') :
    (∀ o : Osub, o.1 ≤ s.count → s'.mesh.stri o = s.mesh.stri o) ∧ s'.mesh.stri (s.count + 1, true) = s.mesh.nbr x := by
  unfold Segs.insertsubseg at hr
  cases h1 : s.markVertex (s.mesh.org x) k with
  | exn => simp [h1] at hr
  | ub => simp [h1] at hr
  | ok s1 =>
    simp only [h1, Outcome.bind_ok] at hr
    cases h2 : s1.markVertex (s.mesh.dest x) k with
    | exn => simp [h2] at hr
    | ub => simp [h2] at hr
    | ok s2 =>
      obtain ⟨e1, e2⟩ := markVertex_mesh h1
      obtain ⟨e3, e4⟩ := markVertex_mesh h2
      have em := e3.trans e1
      have ec := e4.trans e2
      simp only [h2, Outcome.bind_ok] at hr
      have hz : (s2.mesh.tspivot x).1 = 0 := by rw [em]; exact h0
      rw [if_pos hz] at hr
      cases hr
      simp only [Segs.setmark, Segs.tsbond, Segs.setsegdest, Segs.setsegorg, Segs.setsdest, Segs.setsorg, Segs.makesubseg, Heap.tsbond, Heap.sym, ssym, em, ec]
      refine ⟨fun o ho => ?_, ?_⟩
      · have k1 : o ≠ (s.count + 1, false) := by rintro rfl; simp at ho
        have k2 : o ≠ (s.count + 1, true) := by rintro rfl; simp at ho
        simp [Function.update_apply, k1, k2]
      · simp

theorem splitSubseg_mesh {s s' : Segs} {nr nt nv : Nat} {e : Otri} {ss : Osub} (hr : s.splitSubseg nr nt nv e ss = .ok s') :
    ∃ s2, Segs.insertsubseg { s with mesh := s.mesh.splitEdge true nr nt nv e, send := Function.update s.send (ssym ss) (some nv) } (nr, 1)
      (s.smark ss.1) = .ok s2 ∧ s'.mesh = s2.mesh := by
  have hl : lprev (lprev ((nr, 0) : Otri)) = (nr, 1) := Prod.ext rfl (show (0 + 2 + 2 : Fin 3) = 1 by decide)
  unfold Segs.splitSubseg at hr
  simp only [hl] at hr
  cases h1 : Segs.insertsubseg { s with mesh := s.mesh.splitEdge true nr nt nv e, send := Function.update s.send (ssym ss) (some nv) } (nr, 1)
      (s.smark ss.1) with
  | exn =>
    rw [show Segs.insertsubseg (Segs.setsdest { s with mesh := s.mesh.splitEdge true nr nt nv e } ss (some nv)) (nr, 1)
      ((Segs.setsdest { s with mesh := s.mesh.splitEdge true nr nt nv e } ss (some nv)).smark (ssym ss).1) = _ from h1] at hr
    simp at hr
  | ub =>
    rw [show Segs.insertsubseg (Segs.setsdest { s with mesh := s.mesh.splitEdge true nr nt nv e } ss (some nv)) (nr, 1)
      ((Segs.setsdest { s with mesh := s.mesh.splitEdge true nr nt nv e } ss (some nv)).smark (ssym ss).1) = _ from h1] at hr
    simp at hr
  | ok s2 =>
    rw [show Segs.insertsubseg (Segs.setsdest { s with mesh := s.mesh.splitEdge true nr nt nv e } ss (some nv)) (nr, 1)
      ((Segs.setsdest { s with mesh := s.mesh.splitEdge true nr nt nv e } ss (some nv)).smark (ssym ss).1) = _ from h1] at hr
    simp only [Outcome.bind_ok] at hr
    exact ⟨s2, rfl, (markVertex_mesh hr).1⟩

section
variable {s : Segs} {e : Otri} {nr nt nv b r l d : Nat} {tp : Bool} (M : SegMesh s L) (E : EdgeAt s.mesh L e nr nt nv b r l d tp)
  (hs : (s.mesh.sub e).1 ≠ 0)
include M E hs

theorem splitSubseg_bare (B : Bare s.mesh L) {s' : Segs} (hr : s.splitSubseg nr nt nv e (s.mesh.sub e) = .ok s')
    (q2 : s'.mesh.corner = (s.mesh.splitEdge true nr nt nv e).corner) (M' : SegMesh s' (WithE L nr nt tp))
    (P : SubSplit s L s' (WithE L nr nt tp) (s.mesh.sub e) r l nv) : Bare s'.mesh (WithE L nr nt tp) := by
  have h := M.linked
  have g := M.segmented
  have st := splitEdge_starred h E true
  obtain ⟨a1, a2, a3, a4, a5, a6, a7⟩ := splitEdge_sub h E g
  obtain ⟨s2, i1, i2⟩ := splitSubseg_mesh hr
  obtain ⟨j1, j2⟩ := insertsubseg_stri (s := { s with mesh := s.mesh.splitEdge true nr nt nv e, send := Function.update s.send (ssym (s.mesh.sub e)) (some nv) })
    (x := (nr, 1)) (by show ((s.mesh.splitEdge true nr nt nv e).sub (nr, 1)).1 = 0; rw [a4]) i1
  have j1 : ∀ o : Osub, o.1 ≤ s.count → s'.mesh.stri o = (s.mesh.splitEdge true nr nt nv e).stri o := by rw [i2]; exact j1
  have j2 : s'.mesh.stri (s.count + 1, true) = (s.mesh.splitEdge true nr nt nv e).nbr (nr, 1) := by rw [i2]; exact j2
  have D1 : s'.mesh.Dir (WithE L nr nt tp) (nr, 1) r nv :=
    (dir_congr q2).2 ((st.dir _ _ _).2 (Or.inr (Or.inr ⟨rfl, Or.inr (Or.inl ⟨rfl, rfl⟩)⟩)))
  have v1 := E.toSplitAt.nv_ne h
  have fr := E.fresh
  have h1 : Linked (s.mesh.splitEdge true nr nt nv e) (WithE L nr nt tp) := st.linked h
  -- an old edge at the boundary
  have old : ∀ y, L y.1 → (s.mesh.sub y).1 ≠ 0 → s.mesh.nbr y = (0, 0) → (s'.mesh.stri (ssym (s.mesh.sub y))).1 = 0 := by
    intro y hy h0 hn
    rw [j1 (ssym (s.mesh.sub y)) (M.endpointed.made y hy), a7 (ssym (s.mesh.sub y)) h0 (ssym_free h g hy h0 hn)]
    exact B y hy h0 hn
  intro y hy h0 hn
  obtain ⟨u, v, w, T⟩ := M'.linked.tri hy
  have D := (Tri3.dirs T).1
  have hlone := (splitEdge_lone h E true q2 v w).1 ((nbr_lone M'.linked D).1 hn)
  have notold : (v = nv ∨ w = nv) → ¬ Lone s.mesh L v w := by
    rintro hh ⟨⟨z, hz⟩, -⟩
    rcases hh with rfl | rfl
    · exact (fr z w).1 hz
    · exact (fr z v).2 hz
  rcases P.only y v w D h0 with ⟨y0, hy0, he, -⟩ | ⟨hvw, he⟩ | ⟨hvw, he⟩
  · have hv : v ≠ nv ∧ w ≠ nv := ⟨fun hh => (fr y0 w).1 (hh ▸ hy0), fun hh => (fr y0 v).2 (hh ▸ hy0)⟩
    rcases hlone with ⟨k, -⟩ | ⟨-, ⟨k, -⟩ | ⟨-, k⟩⟩
    · rw [← he]
      exact old y0 hy0.1 (by rw [he]; exact h0) ((nbr_lone h hy0).2 k)
    · exact absurd k hv.1
    · exact absurd k hv.2
  · have hv : v = nv ∨ w = nv := hvw.imp (fun k => k.1) (fun k => k.2)
    rcases hlone with ⟨k, -⟩ | ⟨hne, hc⟩
    · exact absurd k (notold hv)
    · have hvw' : v = nv ∧ w = l := by
        rcases hvw with k | ⟨k1, k2⟩
        · exact k
        · rcases hc with k | k
          · exact k
          · exact absurd (k1.symm.trans k.1) (fun h => E.rl h.symm)
      obtain ⟨z, z1, z2⟩ := P.left
      have : y = z := M'.linked.once y z v w D (by rw [hvw'.1, hvw'.2]; exact z1)
      subst this
      rw [z2]
      exact old e E.tri.1 hs hne
  · have hv : v = nv ∨ w = nv := hvw.symm.imp (fun k => k.1) (fun k => k.2)
    rcases hlone with ⟨k, -⟩ | ⟨hne, hc⟩
    · exact absurd k (notold hv)
    · have hvw' : v = r ∧ w = nv := by
        rcases hvw with k | ⟨k1, k2⟩
        · exact k
        · rcases hc with k | k
          · exact absurd (k2.symm.trans k.2) E.rl
          · exact k
      have : y = (nr, 1) := M'.linked.once y _ v w D (by rw [hvw'.1, hvw'.2]; exact D1)
      subst this
      have hz : (s.mesh.splitEdge true nr nt nv e).nbr (nr, 1) = (0, 0) := by
        refine (nbr_lone h1 ((dir_congr q2).1 D1)).2 ?_
        refine ⟨⟨_, (dir_congr q2).1 D1⟩, fun z hz => ?_⟩
        exact ((nbr_lone M'.linked D1).1 hn).2 z ((dir_congr q2).2 hz)
      rw [hz] at j2
      have hb := M'.segmented.back (nr, 1) D1.1 h0
      rcases ho : s'.mesh.sub (nr, 1) with ⟨n, t⟩
      rw [ho] at he hb
      simp only at he
      subst he
      cases t
      · show (s'.mesh.stri (s.count + 1, true)).1 = 0
        rw [j2]
      · rw [j2] at hb
        exact absurd D1.1 (by rw [← hb]; exact M'.linked.dummy)

/-- The insertion on a subsegment, with the pool. -/
theorem insertEnc_spec (f : Flat s.mesh L pos) (hm : Amid (pos r) (pos l) (pos nv)) (B : Bare s.mesh L)
    (hall : ∀ y, L y.1 → Settled true s.mesh L pos y)
    (ts : List Nat) (hts : ∀ t, L t → t ∈ ts) (fuel : Nat) (hf : 2 * ts.length < fuel) (bad : List Enc) :
    ∃ s' x bad', Segs.insertEnc pos nv nr nt fuel s e (s.mesh.sub e) bad = .ok (s', bad') ∧
      Inserted true s.mesh L pos nv s'.mesh (WithE L nr nt tp) x ∧
      SegMesh s' (WithE L nr nt tp) ∧ SubSplit s L s' (WithE L nr nt tp) (s.mesh.sub e) r l nv ∧
      (∀ v w, Lone s'.mesh (WithE L nr nt tp) v w ↔
        (Lone s.mesh L v w ∧ ¬ (v = r ∧ w = l)) ∨ (s.mesh.nbr e = (0, 0) ∧ ((v = nv ∧ w = l) ∨ (v = r ∧ w = nv)))) ∧
      (∀ y, WithE L nr nt tp y.1 → Settled true s'.mesh (WithE L nr nt tp) pos y) ∧ Bare s'.mesh (WithE L nr nt tp) ∧
      (∀ c ∈ bad, c ∈ bad') ∧ (∀ c ∈ bad', c ∈ bad ∨ Actual s'.mesh (WithE L nr nt tp) c) ∧
      ∀ y, WithE L nr nt tp y.1 → s'.mesh.corner y = some nv → Encroached s'.mesh (WithE L nr nt tp) pos y →
        Queued s'.mesh (WithE L nr nt tp) bad' (s'.mesh.sub y).1 := by
  have h := M.linked
  obtain ⟨s', x, i1, i2, i3, i4, -, -, i5⟩ := insertOn_spec M E hs f hm ts hts fuel hf
  have i6 := insertOn_settled M E hs f hm hall i1 i2 i3
  have hp : Proper (s.mesh.splitEdge true nr nt nv e) (WithE L nr nt tp) :=
    (splitEdge_flat h E true f hm).proper ((splitEdge_starred h E true).linked h)
  obtain ⟨s1, q1, q2, q3, M1, P⟩ := splitSubseg_spec M E hs hp
  obtain ⟨c1, c2, c3, -⟩ := splitEdge_corner h E true
  have B1 := splitSubseg_bare M E hs B q1 q2 M1 P
  have k1 : s1.mesh.org (lnext e) = some l := by
    show s1.mesh.corner (lnext (lnext e)) = _; rw [q2, lnext_lnext]; exact c3
  have k2 : s1.mesh.dest (lnext e) = some b := by
    show s1.mesh.corner (lprev (lnext e)) = _; rw [q2, lprev_lnext]; exact c1
  have hr' : ∃ x, legalize true pos nv l fuel s1.mesh (lnext e) l b = .ok (s'.mesh, x) ∧ s' = { s1 with mesh := s'.mesh } := by
    simp only [insertOn, q1, Outcome.bind_ok, legalizeFrom, k1, k2] at i1
    revert i1
    cases legalize true pos nv l fuel s1.mesh (lnext e) l b with
    | ok v =>
      simp only [Outcome.bind_ok, Outcome.ok.injEq, Prod.mk.injEq, and_imp]
      rintro rfl -
      exact ⟨v.2, rfl, rfl⟩
    | exn => simp
    | ub => simp
  obtain ⟨x', hr', hs'⟩ := hr'
  obtain ⟨bad', r1, r2, r3, r4, r5, r6⟩ := legalizeEnc_spec (L := WithE L nr nt tp) s1 l fuel s1.mesh bad (lnext e) l b []
    ((nr, 0) :: if tp = true then [(nt, 0), lprev (s.mesh.nbr e)] else []) M1 ((splitEdge_flat h E true f hm).congr q2) B1
    ((splitEdge_ring h E true).congr q2 q3) (by rw [q2, lnext_lnext]; exact c3) (by rw [q2, lprev_lnext]; exact c1) (by simp) s'.mesh x' hr'
  refine ⟨s', x, bad', ?_, i2, i3, i4, i5, i6, r5, r2, r3, r4⟩
  simp only [Segs.insertEnc, q1, Outcome.bind_ok, k1, k2, r1]
  rw [← hs']

end
end Delynoi.Tri
