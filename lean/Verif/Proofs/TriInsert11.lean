import Verif.Proofs.TriInsert10
/-! # Inserting a vertex on a subsegment -/
set_option linter.unusedSectionVars false
namespace Delynoi.Tri
variable {K : Type} [Field K] [LinearOrder K] [IsStrictOrderedRing K]
variable {L : Nat → Prop} {pos : Nat → Pt K}

section
variable {s : Segs} {e : Otri} {nr nt nv b r l d : Nat} {tp : Bool} (M : SegMesh s L) (E : EdgeAt s.mesh L e nr nt nv b r l d tp)
  (hs : (s.mesh.sub e).1 ≠ 0)
include M E hs

/-- Subsegments at other edges are others. -/
theorem EdgeAt.sub_ne {y : Otri} (hy : L y.1) (hR : ¬ (y = e ∨ y = s.mesh.nbr e)) : (s.mesh.sub y).1 ≠ (s.mesh.sub e).1 :=
  fun h0 => hR (M.segmented.same e y E.tri.1 hy hs h0.symm)

/-- The mesh before `insertsubseg`. -/
theorem splitSubseg_first (p : Proper (s.mesh.splitEdge true nr nt nv e) (WithE L nr nt tp)) :
    SegMesh { s with mesh := s.mesh.splitEdge true nr nt nv e
                     send := Function.update s.send (ssym (s.mesh.sub e)) (some nv) } (WithE L nr nt tp) := by
  have h := M.linked
  have g := M.segmented
  have st := splitEdge_starred h E true
  have st' := splitEdge_segmented h E g
  obtain ⟨a1, a2, a3, a4, a5, a6, -⟩ := splitEdge_sub h E g
  obtain ⟨m1, m2, m3, m4, m5, m6⟩ := edgeMap_eq h E
  obtain ⟨t1, t2, t3⟩ := (Tri3.dirs E.tri).1
  obtain ⟨q1, q2⟩ := M.endpointed.ends e r l ⟨t1, t2, t3⟩ hs
  have hl := st.linked h
  have hne : s.mesh.sub e ≠ ssym (s.mesh.sub e) := by
    intro h0; have := congrArg Prod.snd h0; simp [ssym] at this
  have key : ∀ x v w, (s.mesh.splitEdge true nr nt nv e).Dir (WithE L nr nt tp) x v w →
      ((s.mesh.splitEdge true nr nt nv e).sub x).1 ≤ s.count ∧
      (((s.mesh.splitEdge true nr nt nv e).sub x).1 ≠ 0 →
        Function.update s.send (ssym (s.mesh.sub e)) (some nv) ((s.mesh.splitEdge true nr nt nv e).sub x) = some w ∧
        Function.update s.send (ssym (s.mesh.sub e)) (some nv) (ssym ((s.mesh.splitEdge true nr nt nv e).sub x)) = some v) := by
    intro x v w hx
    have zero : (s.mesh.splitEdge true nr nt nv e).sub x = (0, false) → ((s.mesh.splitEdge true nr nt nv e).sub x).1 ≤ s.count ∧
      (((s.mesh.splitEdge true nr nt nv e).sub x).1 ≠ 0 →
        Function.update s.send (ssym (s.mesh.sub e)) (some nv) ((s.mesh.splitEdge true nr nt nv e).sub x) = some w ∧
        Function.update s.send (ssym (s.mesh.sub e)) (some nv) (ssym ((s.mesh.splitEdge true nr nt nv e).sub x)) = some v) := by
      intro h0; rw [h0]; exact ⟨Nat.zero_le _, fun h1 => absurd rfl h1⟩
    rcases (st.dir _ _ _).1 hx with ⟨y, hR, rfl, hy⟩ | ⟨rfl, ⟨rfl, rfl⟩ | ⟨-, rfl⟩ | ⟨ht, -, rfl⟩ | ⟨ht, -, rfl⟩⟩ |
      ⟨rfl, ⟨-, rfl⟩ | ⟨-, rfl⟩ | ⟨ht, rfl, rfl⟩ | ⟨ht, -, rfl⟩⟩
    · rw [a1 y hy.1]
      refine ⟨M.endpointed.made y hy.1, fun h0 => ?_⟩
      have hn := E.sub_ne M hs hy.1 hR
      obtain ⟨k1, k2⟩ := M.endpointed.ends y v w hy h0
      rw [Function.update_of_ne, Function.update_of_ne]
      · exact ⟨k1, k2⟩
      · intro h1; have h2 := congrArg Prod.fst h1; exact hn h2
      · intro h1; have h2 := congrArg Prod.fst h1; exact hn h2
    · have := a1 x E.tri.1
      rw [m1] at this; rw [this]
      refine ⟨M.endpointed.made x E.tri.1, fun _ => ⟨?_, ?_⟩⟩
      · rw [Function.update_of_ne hne]; exact q1
      · rw [Function.update_self]
    · exact zero a5
    · exact zero (a6 ht).1
    · exact zero (a6 ht).2.2
    · exact zero a3
    · exact zero a4
    · have hL := (E.top ht).2.1.1
      have := a1 _ hL
      rw [(m4 ht).1] at this; rw [this]
      refine ⟨M.endpointed.made _ hL, fun _ => ?_⟩
      rw [g.both e E.tri.1 hL hs]
      refine ⟨?_, ?_⟩
      · exact Function.update_self ..
      · have h2 : ssym ((s.mesh.sub e).1, !(s.mesh.sub e).2) = s.mesh.sub e := by simp [ssym]
        rw [h2, Function.update_of_ne hne]; exact q1
    · exact zero (a6 ht).2.1
  refine ⟨hl, st', p, ⟨fun x hx => ?_, fun x v w hx h0 => (key x v w hx).2 h0⟩⟩
  obtain ⟨v, hv⟩ := hl.corners x.1 hx (x.2 + 1)
  obtain ⟨w, hw⟩ := hl.corners x.1 hx (x.2 + 2)
  exact (key x v w ⟨hx, hv, hw⟩).1

/-- The subsegment is split. -/
theorem splitSubseg_spec (p : Proper (s.mesh.splitEdge true nr nt nv e) (WithE L nr nt tp)) :
    ∃ s', s.splitSubseg nr nt nv e (s.mesh.sub e) = .ok s' ∧ s'.mesh.corner = (s.mesh.splitEdge true nr nt nv e).corner ∧
      s'.mesh.nbr = (s.mesh.splitEdge true nr nt nv e).nbr ∧ SegMesh s' (WithE L nr nt tp) ∧
      SubSplit s L s' (WithE L nr nt tp) (s.mesh.sub e) r l nv := by
  have h := M.linked
  have g := M.segmented
  have st := splitEdge_starred h E true
  have M1 := splitSubseg_first M E hs p
  obtain ⟨a1, a2, a3, a4, a5, a6, -⟩ := splitEdge_sub h E g
  obtain ⟨m1, m2, m3, m4, m5, m6⟩ := edgeMap_eq h E
  set s1 : Segs := { s with mesh := s.mesh.splitEdge true nr nt nv e
                            send := Function.update s.send (ssym (s.mesh.sub e)) (some nv) } with hs1
  have D1 : s1.mesh.Dir (WithE L nr nt tp) (nr, 1) r nv := (st.dir _ _ _).2 (Or.inr (Or.inr ⟨rfl, Or.inr (Or.inl ⟨rfl, rfl⟩)⟩))
  have D0 : s1.mesh.Dir (WithE L nr nt tp) e nv l := (st.dir _ _ _).2 (Or.inr (Or.inl ⟨rfl, Or.inl ⟨rfl, rfl⟩⟩))
  have z1 : (s1.mesh.sub (nr, 1)).1 = 0 := by rw [show s1.mesh.sub (nr, 1) = (0, false) from a4]
  obtain ⟨s2, i1, M2, B⟩ := insertsubseg_spec M1 D1 (s.smark (s.mesh.sub e).1)
  obtain ⟨n1, n2, n3, n4, n5⟩ := B.new z1
  have hc1 : s1.count = s.count := rfl
  rw [hc1] at n1 n2 n3
  have he1 : (s.mesh.sub e).1 ≤ s.count := M.endpointed.made e E.tri.1
  have hsm : ∀ n, 0 < n → n ≤ s.count → s2.smark n = s.smark n := by
    intro n h0 hn
    exact B.smark n hn (by rw [z1]; omega)
  obtain ⟨f, q1, hf⟩ := markVertex_some ((((s2.setsegorg (s2.mesh.sub (nr, 1)) (s.segorg (s.mesh.sub e))).setsegdest (s2.mesh.sub (nr, 1)) (s.segdest (s.mesh.sub e))).sbond (ssym (s.mesh.sub e)) (s2.mesh.sub (nr, 1))).sbond
        (ssym (s2.mesh.sub (nr, 1))) (s.slink (ssym (s.mesh.sub e)))) nv (s2.smark (s.mesh.sub e).1)
  have hne : s2.mesh.sub (nr, 1) ≠ ssym (s2.mesh.sub (nr, 1)) := by
    intro h0; have := congrArg Prod.snd h0; simp [ssym] at this
  have eqn : s.splitSubseg nr nt nv e (s.mesh.sub e) =
      .ok { ((((s2.setsegorg (s2.mesh.sub (nr, 1)) (s.segorg (s.mesh.sub e))).setsegdest (s2.mesh.sub (nr, 1)) (s.segdest (s.mesh.sub e))).sbond (ssym (s.mesh.sub e)) (s2.mesh.sub (nr, 1))).sbond
        (ssym (s2.mesh.sub (nr, 1))) (s.slink (ssym (s.mesh.sub e)))) with vmark := f } := by
    rw [← q1]
    have hl : lprev (lprev ((nr, 0) : Otri)) = (nr, 1) := Prod.ext rfl (show (0 + 2 + 2 : Fin 3) = 1 by decide)
    have i1' : Segs.insertsubseg (Segs.setsdest { s with mesh := s.mesh.splitEdge true nr nt nv e } (s.mesh.sub e) (some nv)) (nr, 1)
      (s.smark (s.mesh.sub e).1) = .ok s2 := i1
    have sm : (Segs.setsdest { s with mesh := s.mesh.splitEdge true nr nt nv e } (s.mesh.sub e) (some nv)).smark = s.smark := rfl
    unfold Segs.splitSubseg
    have e1 : (ssym (s.mesh.sub e)).1 = (s.mesh.sub e).1 := rfl
    simp only [hl, sm, e1]
    rw [i1']
    rfl
  have L1 : ∀ z, WithE L nr nt tp z.1 → z ≠ (nr, 1) → z ≠ s1.mesh.nbr (nr, 1) → s2.mesh.sub z = (s.mesh.splitEdge true nr nt nv e).sub z := B.other
  have hD : ∀ z v w, s2.mesh.Dir (WithE L nr nt tp) z v w ↔ s1.mesh.Dir (WithE L nr nt tp) z v w := fun z v w => dir_congr B.corner
  -- the other side of the new subsegment
  have hop : ∀ z v w, s1.mesh.Dir (WithE L nr nt tp) z v w → z = s1.mesh.nbr (nr, 1) → v = nv ∧ w = r := by
    rintro z v w hz rfl
    have hn : s1.mesh.nbr (nr, 1) ≠ (0, 0) := fun h0 => M1.linked.dummy (by have := hz.1; rw [h0] at this; exact this)
    obtain ⟨-, -, v', w', j1, j2⟩ := M1.linked.across D1.1 hn
    have i1 := j1.2.1.symm.trans D1.2.1
    have i2 := j1.2.2.symm.trans D1.2.2
    have i3 := hz.2.1.symm.trans j2.2.1
    have i4 := hz.2.2.symm.trans j2.2.2
    cases i1; cases i2; cases i3; cases i4; exact ⟨rfl, rfl⟩
  have v1 := E.toSplitAt.nv_ne h
  have same2 : ∀ z v w, s1.mesh.Dir (WithE L nr nt tp) z v w → ¬ (v = r ∧ w = nv) → ¬ (v = nv ∧ w = r) →
      s2.mesh.sub z = (s.mesh.splitEdge true nr nt nv e).sub z := by
    intro z v w hz c1 c2
    refine L1 z hz.1 ?_ (fun h0 => c2 (hop z v w hz h0))
    rintro rfl
    refine c1 ⟨?_, ?_⟩
    · have := hz.2.1.symm.trans D1.2.1; cases this; rfl
    · have := hz.2.2.symm.trans D1.2.2; cases this; rfl
  have fr := E.fresh
  have ends : ∀ {y p q}, s.mesh.Dir L y p q → p ≠ nv ∧ q ≠ nv := by
    rintro y p q hy
    exact ⟨fun h0 => (fr y q).1 (h0 ▸ hy), fun h0 => (fr y p).2 (h0 ▸ hy)⟩
  refine ⟨_, eqn, B.corner, B.nbr, ⟨M2.linked, M2.segmented, M2.proper, M2.endpointed.made, M2.endpointed.ends⟩, ?_⟩
  refine ⟨?_, ⟨e, (hD _ _ _).2 D0, ?_⟩, ⟨(nr, 1), (hD _ _ _).2 D1, n2, ?_, ?_⟩, ?_, n1, n3, hsm, ?_, ?_, ?_⟩
  · intro y v w hy h0 h1
    have hR : ¬ (y = e ∨ y = s.mesh.nbr e) := by
      rintro (rfl | rfl)
      · exact h1 rfl
      · rw [g.both e E.tri.1 hy.1 hs] at h1; exact h1 rfl
    have hd : s1.mesh.Dir (WithE L nr nt tp) (edgeMap s.mesh e nr nt y) v w := (st.dir _ _ _).2 (Or.inl ⟨y, hR, rfl, hy⟩)
    refine ⟨edgeMap s.mesh e nr nt y, (hD _ _ _).2 hd, ?_⟩
    obtain ⟨k1, k2⟩ := ends hy
    exact (same2 _ _ _ hd (fun h => k2 h.2) (fun h => k1 h.1)).trans (a1 y hy.1)
  · have := a1 e E.tri.1
    rw [m1] at this
    refine (same2 e nv l D0 (fun h => ?_) (fun h => ?_)).trans this
    · exact v1.2.1 h.1
    · exact E.rl h.2.symm
  · exact (Function.update_of_ne hne _ _).trans (Function.update_self ..)
  · exact Function.update_self ..
  · intro z v w hz h0
    have hz1 := (hD _ _ _).1 hz
    by_cases c1 : v = r ∧ w = nv
    · right; right
      have : z = (nr, 1) := M1.linked.once z (nr, 1) v w hz1 (by rw [c1.1, c1.2]; exact D1)
      exact ⟨Or.inl c1, by rw [this]; exact n2⟩
    by_cases c2 : v = nv ∧ w = r
    · right; right
      have : s2.mesh.nbr (nr, 1) = z := M2.linked.complete (nr, 1) z r nv ((hD _ _ _).2 D1) (by rw [← c2.1, ← c2.2]; exact hz)
      refine ⟨Or.inr c2, ?_⟩
      have hb := M2.segmented.both (nr, 1) D1.1 (by rw [this]; exact hz.1) (by rw [n2]; omega)
      rw [this] at hb
      show (s2.mesh.sub z).1 = _
      rw [hb]; exact n2
    have hsub : s2.mesh.sub z = _ := same2 z v w hz1 c1 c2
    have h0 : (s2.mesh.sub z).1 ≠ 0 := h0
    rw [hsub] at h0
    have zero : (s.mesh.splitEdge true nr nt nv e).sub z = (0, false) → False := fun h1 => h0 (by rw [h1])
    show (∃ y, s.mesh.Dir L y v w ∧ s.mesh.sub y = s2.mesh.sub z ∧ _) ∨ (_ ∧ (s2.mesh.sub z).1 = _) ∨ _
    rw [hsub]
    rcases (st.dir _ _ _).1 hz1 with ⟨y, hR, rfl, hy⟩ | ⟨rfl, ⟨rfl, rfl⟩ | ⟨-, rfl⟩ | ⟨ht, -, rfl⟩ | ⟨ht, -, rfl⟩⟩ |
      ⟨rfl, ⟨-, rfl⟩ | ⟨-, rfl⟩ | ⟨ht, rfl, rfl⟩ | ⟨ht, -, rfl⟩⟩
    · exact Or.inl ⟨y, hy, (a1 y hy.1).symm, E.sub_ne M hs hy.1 hR⟩
    · have := a1 z E.tri.1
      rw [m1] at this
      exact Or.inr (Or.inl ⟨Or.inl ⟨rfl, rfl⟩, by rw [this]⟩)
    · exact (zero a5).elim
    · exact (zero (a6 ht).1).elim
    · exact (zero (a6 ht).2.2).elim
    · exact (zero a3).elim
    · exact (zero a4).elim
    · have hL := (E.top ht).2.1.1
      have := a1 _ hL
      rw [(m4 ht).1] at this
      exact Or.inr (Or.inl ⟨Or.inr ⟨rfl, rfl⟩, by rw [this, g.both e E.tri.1 hL hs]⟩)
    · exact (zero (a6 ht).2.1).elim
  · intro o ho
    show Function.update (Function.update _ _ _) _ _ _ = _
    have k1 : o ≠ s2.mesh.sub (nr, 1) := by rintro rfl; rw [n2] at ho; omega
    have k2 : o ≠ ssym (s2.mesh.sub (nr, 1)) := by
      rintro rfl
      have : (s2.mesh.sub (nr, 1)).1 ≤ s.count := ho
      rw [n2] at this; omega
    rw [Function.update_of_ne k2, Function.update_of_ne k1]
    exact B.segend o ho
  · intro u
    show f u = _
    rw [hf u, hsm _ (Nat.pos_of_ne_zero hs) he1]
    show (if u = nv ∧ s2.vmark u = 0 then _ else s2.vmark u) = _
    have := B.vmark u
    rw [this]
    show (if u = nv ∧ (if (u = r ∨ u = nv) ∧ s.vmark u = 0 then s.smark (s.mesh.sub e).1 else s.vmark u) = 0 then s.smark (s.mesh.sub e).1
      else if (u = r ∨ u = nv) ∧ s.vmark u = 0 then s.smark (s.mesh.sub e).1 else s.vmark u) = _
    generalize s.smark (s.mesh.sub e).1 = k
    by_cases h1 : (u = r ∨ u = nv) ∧ s.vmark u = 0
    · rw [if_pos h1]; split_ifs <;> rfl
    · rw [if_neg h1, if_neg]
      rintro ⟨h2, h3⟩
      exact h1 ⟨Or.inr h2, h3⟩
  · intro z hz k0 k1
    have hz1 := (hD _ _ _).1 hz
    have hzz : z = (nr, 1) := M1.linked.once z (nr, 1) r nv hz1 D1
    subst hzz
    change (Function.update (Function.update (Function.update (Function.update s2.slink (ssym (s.mesh.sub e)) (s2.mesh.sub (nr, 1)))
      (s2.mesh.sub (nr, 1)) (ssym (s.mesh.sub e))) (ssym (s2.mesh.sub (nr, 1))) (s.slink (ssym (s.mesh.sub e))))
      (s.slink (ssym (s.mesh.sub e))) (ssym (s2.mesh.sub (nr, 1)))) (ssym (s.mesh.sub e)) = s2.mesh.sub (nr, 1) ∧
      (Function.update (Function.update (Function.update (Function.update s2.slink (ssym (s.mesh.sub e)) (s2.mesh.sub (nr, 1)))
      (s2.mesh.sub (nr, 1)) (ssym (s.mesh.sub e))) (ssym (s2.mesh.sub (nr, 1))) (s.slink (ssym (s.mesh.sub e))))
      (s.slink (ssym (s.mesh.sub e))) (ssym (s2.mesh.sub (nr, 1)))) (s2.mesh.sub (nr, 1)) = ssym (s.mesh.sub e) ∧
      (Function.update (Function.update (Function.update (Function.update s2.slink (ssym (s.mesh.sub e)) (s2.mesh.sub (nr, 1)))
      (s2.mesh.sub (nr, 1)) (ssym (s.mesh.sub e))) (ssym (s2.mesh.sub (nr, 1))) (s.slink (ssym (s.mesh.sub e))))
      (s.slink (ssym (s.mesh.sub e))) (ssym (s2.mesh.sub (nr, 1)))) (ssym (s2.mesh.sub (nr, 1))) = s.slink (ssym (s.mesh.sub e)) ∧
      (Function.update (Function.update (Function.update (Function.update s2.slink (ssym (s.mesh.sub e)) (s2.mesh.sub (nr, 1)))
      (s2.mesh.sub (nr, 1)) (ssym (s.mesh.sub e))) (ssym (s2.mesh.sub (nr, 1))) (s.slink (ssym (s.mesh.sub e))))
      (s.slink (ssym (s.mesh.sub e))) (ssym (s2.mesh.sub (nr, 1)))) (s.slink (ssym (s.mesh.sub e))) = ssym (s2.mesh.sub (nr, 1)) ∧
      ∀ o : Osub, o.1 ≤ s.count → o ≠ ssym (s.mesh.sub e) → o ≠ s.slink (ssym (s.mesh.sub e)) →
      (Function.update (Function.update (Function.update (Function.update s2.slink (ssym (s.mesh.sub e)) (s2.mesh.sub (nr, 1)))
      (s2.mesh.sub (nr, 1)) (ssym (s.mesh.sub e))) (ssym (s2.mesh.sub (nr, 1))) (s.slink (ssym (s.mesh.sub e))))
      (s.slink (ssym (s.mesh.sub e))) (ssym (s2.mesh.sub (nr, 1)))) o = s.slink o
    have hS : ∀ o, o.1 ≤ s.count → s2.slink o = s.slink o := B.slink
    have old : ∀ o : Osub, o.1 ≤ s.count → o ≠ s2.mesh.sub (nr, 1) ∧ o ≠ ssym (s2.mesh.sub (nr, 1)) := by
      intro o ho
      refine ⟨fun h0 => ?_, fun h0 => ?_⟩
      · rw [h0, n2] at ho; omega
      · rw [h0] at ho
        have : (s2.mesh.sub (nr, 1)).1 ≤ s.count := ho
        rw [n2] at this; omega
    have hA : (ssym (s.mesh.sub e)).1 ≤ s.count := he1
    generalize ssym (s.mesh.sub e) = A at *
    generalize s2.mesh.sub (nr, 1) = N at *
    generalize s.slink A = R at *
    obtain ⟨r1, r2⟩ := old _ hA
    obtain ⟨r3, r4⟩ := old _ k0
    refine ⟨?_, ?_, ?_, ?_, fun o ho o1 o2 => ?_⟩
    · rw [Function.update_of_ne k1.symm, Function.update_of_ne r2, Function.update_of_ne r1, Function.update_self]
    · rw [Function.update_of_ne r3.symm, Function.update_of_ne hne, Function.update_self]
    · rw [Function.update_of_ne r4.symm, Function.update_self]
    · rw [Function.update_self]
    · obtain ⟨r5, r6⟩ := old _ ho
      rw [Function.update_of_ne o2, Function.update_of_ne r6, Function.update_of_ne r5, Function.update_of_ne o1]
      exact hS o ho

/-- The insertion on a subsegment. -/
theorem insertOn_spec (f : Flat s.mesh L pos) (hm : Amid (pos r) (pos l) (pos nv))
    (ts : List Nat) (hts : ∀ t, L t → t ∈ ts) (fuel : Nat) (hf : 2 * ts.length < fuel) :
    ∃ s' x, insertOn pos nv nr nt fuel s e (s.mesh.sub e) = .ok (s', x) ∧ Inserted true s.mesh L pos nv s'.mesh (WithE L nr nt tp) x ∧
      SegMesh s' (WithE L nr nt tp) ∧ SubSplit s L s' (WithE L nr nt tp) (s.mesh.sub e) r l nv ∧
      s'.mesh.Adj (WithE L nr nt tp) nv b ∧ (tp = true → s'.mesh.Adj (WithE L nr nt tp) nv d) ∧
      ∀ v w, Lone s'.mesh (WithE L nr nt tp) v w ↔
        (Lone s.mesh L v w ∧ ¬ (v = r ∧ w = l)) ∨ (s.mesh.nbr e = (0, 0) ∧ ((v = nv ∧ w = l) ∨ (v = r ∧ w = nv))) := by
  have h := M.linked
  have hp : Proper (s.mesh.splitEdge true nr nt nv e) (WithE L nr nt tp) :=
    (splitEdge_flat h E true f hm).proper ((splitEdge_starred h E true).linked h)
  obtain ⟨s1, q1, q2, q3, M1, P⟩ := splitSubseg_spec M E hs hp
  obtain ⟨m', x, h1, h2⟩ := legalizeEdge_spec h E true true f hm ts hts fuel hf (fun _ => True) (fun _ _ _ _ _ _ _ _ => trivial) q2 q3
    (fun _ => M1.segmented)
  obtain ⟨k1, k2, k3, k4⟩ := splitEdge_star h E true q2
  obtain ⟨g1, g2, g3⟩ := h2.seg rfl
  refine ⟨{ s1 with mesh := m' }, x, ?_, ⟨h2.linked, h2.flat, h2.found, h2.settled, h2.tri, h2.adj, ?_⟩, ⟨h2.linked, g1, h2.flat.proper h2.linked, ?_, ?_⟩,
    ⟨?_, ?_, ?_, ?_, P.count, P.mark, P.smark, P.segend, P.vmark, ?_⟩, h2.star _ k1, fun ht => h2.star _ (k4 ht),
    fun v w => (h2.lone v w).trans (splitEdge_lone h E true q2 v w)⟩
  · simp only [insertOn, q1, Outcome.bind_ok, h1]
  · intro v w hv
    obtain ⟨w', hw'⟩ := splitEdge_verts h E true q2 hv
    exact h2.verts _ _ hw'
  · intro y hy
    show (m'.sub y).1 ≤ s1.count
    by_cases h0 : (m'.sub y).1 = 0
    · omega
    obtain ⟨v, hv⟩ := h2.linked.corners y.1 hy (y.2 + 1)
    obtain ⟨w, hw⟩ := h2.linked.corners y.1 hy (y.2 + 2)
    obtain ⟨z, z1, z2⟩ := g3 y v w ⟨hy, hv, hw⟩ h0
    rw [← z2]; exact M1.endpointed.made z z1.1
  · intro y v w hy h0
    obtain ⟨z, z1, z2⟩ := g3 y v w hy h0
    have := M1.endpointed.ends z v w z1 (by rw [z2]; exact h0)
    rw [z2] at this
    exact this
  · intro y v w hy h0 h3
    obtain ⟨z, z1, z2⟩ := P.kept y v w hy h0 h3
    obtain ⟨z', z3, z4⟩ := g2 z v w z1 (by rw [z2]; exact h0)
    exact ⟨z', z3, z4.trans z2⟩
  · obtain ⟨z, z1, z2⟩ := P.left
    obtain ⟨z', z3, z4⟩ := g2 z _ _ z1 (by rw [z2]; exact hs)
    exact ⟨z', z3, z4.trans z2⟩
  · obtain ⟨z, z1, z2, z5, z6⟩ := P.right
    obtain ⟨z', z3, z4⟩ := g2 z _ _ z1 (by rw [z2]; omega)
    exact ⟨z', z3, by rw [z4]; exact z2, by show s1.segend (m'.sub z') = _; rw [z4]; exact z5, by show s1.segend (ssym (m'.sub z')) = _; rw [z4]; exact z6⟩
  · intro z v w hz h0
    obtain ⟨z', z1, z2⟩ := g3 z v w hz h0
    have := P.only z' v w z1 (by rw [z2]; exact h0)
    rw [z2] at this
    exact this
  · intro z hz
    obtain ⟨z0, i1, i2, -⟩ := P.right
    obtain ⟨z', z3, z4⟩ := g2 z0 _ _ i1 (by rw [i2]; omega)
    have hzz : z = z' := h2.linked.once z z' r nv hz z3
    subst hzz
    have := P.links z0 i1
    rw [← z4] at this
    exact this
end
end Delynoi.Tri
