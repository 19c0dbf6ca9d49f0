import Verif.Proofs.TriCdt
import Verif.Proofs.TriInsert11
/-! # Constrained Delaunay triangulations and insertions on an edge -/
set_option linter.unusedSectionVars false
namespace Delynoi.Tri
variable {K : Type} [Field K] [LinearOrder K] [IsStrictOrderedRing K]
variable {L : Nat → Prop} {pos : Nat → Pt K}

theorem chord_power {r l p : Pt K} (hm : Amid r l p) : ∃ k : K, k ≤ 0 ∧
    ∀ q, sqDist q r = sqDist q l → sqDist q p - sqDist q r = k ∧ sqDist q p - sqDist q l = k := by
  obtain ⟨t, t0, t1, hx, hy⟩ := hm
  refine ⟨-(t * (1 - t)) * sqDist r l, ?_, ?_⟩
  · have := mul_nonneg (mul_nonneg t0.le (sub_nonneg.2 t1.le)) (sqDist_nonneg' r l)
    linarith
  · intro q hq
    have key : sqDist q p - sqDist q r = -(t * (1 - t)) * sqDist r l := by
      simp only [sqDist, hx, hy] at *
      linear_combination -t * hq
    exact ⟨key, by rw [← hq]; exact key⟩

section
variable {m : Heap} {e : Otri} {nr nt nv b r l d : Nat} {tp : Bool} (h : Linked m L) (s : EdgeAt m L e nr nt nv b r l d tp)
include h s

theorem splitEdge_fan (cs cs' : Bool) (f : Flat m L pos) (hm : Amid (pos r) (pos l) (pos nv)) {m1 : Heap}
    (e1 : m1.corner = (m.splitEdge cs' nr nt nv e).corner) (hall : ∀ y, L y.1 → Settled cs m L pos y)
    (hfree : ∀ A B, m1.Adj (WithE L nr nt tp) A B → A ≠ nv → B ≠ nv → Free cs m1 (WithE L nr nt tp) A B → Free cs m L A B)
    (hp : cs = true → (m.sub e).1 ≠ 0 → ¬ Free cs m1 (WithE L nr nt tp) nv l ∧ (tp = true → ¬ Free cs m1 (WithE L nr nt tp) nv r)) :
    Fan cs m1 (WithE L nr nt tp) pos nv := by
  obtain ⟨R1, R2, R3⟩ := s.toSplitAt.rots h
  obtain ⟨v1, v2, v3⟩ := s.toSplitAt.nv_ne h
  have v4 := s.nv_ne_d h
  obtain ⟨i1, i2⟩ := s.inside h f hm
  obtain ⟨k, hk, pw⟩ := chord_power hm
  obtain ⟨c1, o1, o2⟩ := exists_center (ne_of_gt (f.ccw _ _ _ _ R1))
  have i1 := i1 c1 o1 o2
  obtain ⟨cd, hcd⟩ : ∃ cd, tp = true → sqDist cd (pos d) = sqDist cd (pos l) ∧ sqDist cd (pos d) = sqDist cd (pos r) := by
    cases tp with
    | false => exact ⟨c1, by simp⟩
    | true =>
      obtain ⟨q, q1, q2⟩ := exists_center (ne_of_gt (f.ccw _ _ _ _ (s.top rfl).2.1))
      exact ⟨q, fun _ => ⟨q1, q2⟩⟩
  obtain ⟨c2, w1, w2, w3⟩ : ∃ c2, sqDist c2 (pos r) = sqDist c2 (pos l) ∧ (tp = true → sqDist c2 (pos l) ≤ sqDist c2 (pos d)) ∧
      (c2 ≠ c1 → cs = true ∧ (m.sub e).1 ≠ 0 ∧ tp = true) := by
    by_cases ht : tp = true
    · by_cases hc : cs = true ∧ (m.sub e).1 ≠ 0
      · exact ⟨cd, by linarith [hcd ht], fun _ => (hcd ht).1.ge, fun _ => ⟨hc.1, hc.2, ht⟩⟩
      · refine ⟨c1, by linarith, fun _ => ?_, fun h0 => absurd rfl h0⟩
        rcases hall e R1.1 with k0 | k0 | k0
        · exact absurd k0 hc
        · exact absurd k0 (s.top ht).1
        · have := k0 b r l d R1 (s.top ht).2.1 c1 (by linarith) o1.symm
          linarith
    · exact ⟨c1, by linarith, fun h0 => absurd h0 ht, fun h0 => absurd rfl h0⟩
  have P1 := pw c1 (by linarith)
  have P2 := pw c2 w1
  refine Fan.init h ((splitEdge_flat h s cs' f hm).congr e1) hall ?_ ?_ (fun x => if tp = true ∧ x = d then cd else if x = r then c2 else c1)
    (fun x => if tp = true ∧ x = d then cd else if x = l then c2 else c1) ?_ ?_
  · intro y v A B hy n1 n2 n3
    rw [tri3_congr e1] at hy
    rcases splitEdge_tri h s cs' hy with ⟨k, -⟩ | k
    · exact k
    · rcases k with ⟨-, -, k, -⟩ | ⟨-, k, -⟩ | ⟨-, -, -, k⟩ | ⟨-, k, -⟩ | ⟨-, -, -, k⟩ | ⟨-, -, k, -⟩ | ⟨-, ⟨-, -, -, k⟩ | ⟨-, -, k, -⟩ | ⟨-, k, -⟩ |
          ⟨-, k, -⟩ | ⟨-, -, -, k⟩ | ⟨-, -, k, -⟩⟩ <;> contradiction
  · intro y v A B hy n1 n2 hf
    exact hfree A B ⟨_, Or.inl (Tri3.dirs hy).1⟩ n1 n2 hf
  · intro x hx
    by_cases h0 : tp = true ∧ x = d
    · simp only [h0, and_self, if_true]
    · simp only [if_neg h0]
      by_cases h1 : c2 = c1
      · simp only [h1, ite_self]
      · obtain ⟨u1, u2, u3⟩ := w3 h1
        obtain ⟨u4, u5⟩ := hp u1 u2
        rw [if_neg (by rintro rfl; exact u5 u3 hx), if_neg (by rintro rfl; exact u4 hx)]
  · intro y A B hy
    rw [tri3_congr e1] at hy
    have bd : ¬ (tp = true ∧ b = d) := fun hh => (s.top hh.1).2.2.1 hh.2.symm
    have ld : ¬ (tp = true ∧ l = d) := fun hh => (s.top hh.1).2.2.2.1 hh.2.symm
    have rd : ¬ (tp = true ∧ r = d) := fun hh => (s.top hh.1).2.2.2.2 hh.2.symm
    have br := s.br
    have lb := s.lb
    have rl := s.rl
    rcases splitEdge_tri h s cs' hy with ⟨k, -⟩ | k
    · exact absurd (Tri3.dirs k).2.1 (s.fresh _ _).1
    · rcases k with ⟨-, k, -⟩ | ⟨-, -, hA, hB⟩ | ⟨-, k, -⟩ | ⟨-, -, hA, hB⟩ | ⟨-, k, -⟩ | ⟨-, k, -⟩ |
        ⟨ht, ⟨-, k, -⟩ | ⟨-, k, -⟩ | ⟨-, -, hA, hB⟩ | ⟨-, -, hA, hB⟩ | ⟨-, k, -⟩ | ⟨-, k, -⟩⟩
      · exact absurd k v1
      · subst hA hB
        simp only [if_neg ld, if_neg bd, if_neg rl.symm, if_neg lb.symm]
        exact ⟨⟨by linarith, by linarith, by linarith, by linarith⟩, _, _, c1, R2, by linarith, by linarith, le_rfl, le_rfl⟩
      · exact absurd k v3
      · subst hA hB
        simp only [if_neg rd, if_neg bd, if_neg br, if_neg rl]
        exact ⟨⟨by linarith, by linarith, by linarith, by linarith⟩, _, _, c1, R3, by linarith, by linarith, le_rfl, le_rfl⟩
      · exact absurd k v1
      · exact absurd k v2
      · exact absurd k (v4 ht)
      · exact absurd k v3
      · subst hA hB
        obtain ⟨z1, z2⟩ := hcd ht
        obtain ⟨U1, U2⟩ := Tri3.rot (s.top ht).2.1
        have P3 := pw cd (by linarith)
        have := w2 ht
        simp only [if_neg ld, ht, and_self, if_true, true_and]
        rw [if_neg (fun h0 => ld ⟨ht, h0⟩)]
        exact ⟨⟨by linarith, by linarith, by linarith, by linarith⟩, _, _, cd, U2, by linarith, by linarith, le_rfl, by linarith⟩
      · subst hA hB
        obtain ⟨z1, z2⟩ := hcd ht
        obtain ⟨U1, U2⟩ := Tri3.rot (s.top ht).2.1
        have P3 := pw cd (by linarith)
        have := w2 ht
        simp only [if_neg rd, ht, and_self, if_true, true_and]
        rw [if_neg (fun h0 => rd ⟨ht, h0⟩)]
        exact ⟨⟨by linarith, by linarith, by linarith, by linarith⟩, _, _, cd, U1, by linarith, by linarith, by linarith, le_rfl⟩
      · exact absurd k v2
      · exact absurd k (v4 ht)

/-- Insertions on an edge without a subsegment. -/
theorem insertEdge_settled (cs : Bool) (f : Flat m L pos) (g : cs = true → Segmented m L ∧ (m.sub e).1 = 0) (hm : Amid (pos r) (pos l) (pos nv))
    (hall : ∀ y, L y.1 → Settled cs m L pos y) {fuel : Nat} {i : Located} (hi : i = .onEdge ∨ i = .outside) {m' : Heap} {x : Otri}
    (hr : insertAt cs pos nv nr nt fuel m i e = .ok (some (m', x))) (I : Inserted cs m L pos nv m' (WithE L nr nt tp) x)
    (g' : cs = true → Segmented m' (WithE L nr nt tp)) : ∀ y, WithE L nr nt tp y.1 → Settled cs m' (WithE L nr nt tp) pos y := by
  obtain ⟨c1, c2, c3, -⟩ := splitEdge_corner h s cs
  have F := splitEdge_fan h s cs cs f hm rfl hall (fun A B _ _ _ hf => Free.of_keeps (by rintro rfl; exact splitEdge_keeps h s (g rfl).1 (g rfl).2) hf)
    (fun hc h0 => absurd (g hc).2 h0)
  have hc : ¬ (cs = true ∧ (m.tspivot e).1 ≠ 0) := fun hh => hh.2 (g hh.1).2
  have k1 : (m.splitEdge cs nr nt nv e).org (lnext e) = some l := by
    show (m.splitEdge cs nr nt nv e).corner (lnext (lnext e)) = _; rw [lnext_lnext]; exact c3
  have k2 : (m.splitEdge cs nr nt nv e).dest (lnext e) = some b := by
    show (m.splitEdge cs nr nt nv e).corner (lprev (lnext e)) = _; rw [lprev_lnext]; exact c1
  have hr' : legalize cs pos nv l fuel (m.splitEdge cs nr nt nv e) (lnext e) l b = .ok (m', x) := by
    rcases hi with rfl | rfl <;> simp only [insertAt, if_neg hc, legalizeFrom, k1, k2] at hr <;>
    · revert hr
      cases legalize cs pos nv l fuel (m.splitEdge cs nr nt nv e) (lnext e) l b <;> simp
  have F' := legalize_fan cs l fuel (m.splitEdge cs nr nt nv e) (lnext e) l b ((splitEdge_starred h s cs).linked h) (splitEdge_flat h s cs f hm)
    (by rintro rfl; exact splitEdge_segmented h s (g rfl).1) (Or.inl s.tri.1) c2 (by rw [lnext_lnext]; exact c3) (by rw [lprev_lnext]; exact c1)
    F m' x hr'
  exact F'.settled I.linked I.flat g' I.settled

end

/-- Insertions in a triangle. -/
theorem insertIn_settled {m : Heap} {e : Otri} {nl nr nv b r l : Nat} (cs : Bool) (h : Linked m L) (f : Flat m L pos) (g : cs = true → Segmented m L)
    (s : SplitAt m L e nl nr nv b r l) (p1 : 0 < turn (pos r) (pos l) (pos nv)) (p2 : 0 < turn (pos l) (pos b) (pos nv))
    (p3 : 0 < turn (pos b) (pos r) (pos nv)) (hall : ∀ y, L y.1 → Settled cs m L pos y) {fuel : Nat} {m' : Heap} {x : Otri}
    (hr : insertAt cs pos nv nl nr fuel m .inTriangle e = .ok (some (m', x))) (I : Inserted cs m L pos nv m' (With L nl nr) x)
    (g' : cs = true → Segmented m' (With L nl nr)) : ∀ y, With L nl nr y.1 → Settled cs m' (With L nl nr) pos y := by
  obtain ⟨c1, c2, c3, -⟩ := splitTriangle_corner s cs
  have F := insertIn_fan h f g s p1 p2 p3 hall
  have k1 : (m.splitTriangle cs nl nr nv e).org e = some r := c2
  have k2 : (m.splitTriangle cs nl nr nv e).dest e = some l := c3
  have hr' : legalize cs pos nv r fuel (m.splitTriangle cs nl nr nv e) e r l = .ok (m', x) := by
    simp only [insertAt, legalizeFrom, k1, k2] at hr
    revert hr
    cases legalize cs pos nv r fuel (m.splitTriangle cs nl nr nv e) e r l <;> simp
  have F' := legalize_fan cs r fuel _ _ _ _ ((splitTriangle_starred h s cs).linked h) (splitTriangle_flat h s cs f p1 p2 p3)
    (by rintro rfl; exact splitTriangle_segmented h s (g rfl)) (Or.inl s.tri.1) c1 c2 c3 F m' x hr'
  exact F'.settled I.linked I.flat g' I.settled

section
variable {s : Segs} {e : Otri} {nr nt nv b r l d : Nat} {tp : Bool} (M : SegMesh s L) (E : EdgeAt s.mesh L e nr nt nv b r l d tp)
  (hs : (s.mesh.sub e).1 ≠ 0)
include M E hs

/-- Insertions on a subsegment. -/
theorem insertOn_settled (f : Flat s.mesh L pos) (hm : Amid (pos r) (pos l) (pos nv)) (hall : ∀ y, L y.1 → Settled true s.mesh L pos y)
    {fuel : Nat} {s' : Segs} {x : Otri} (hr : insertOn pos nv nr nt fuel s e (s.mesh.sub e) = .ok (s', x))
    (I : Inserted true s.mesh L pos nv s'.mesh (WithE L nr nt tp) x) (M' : SegMesh s' (WithE L nr nt tp)) :
    ∀ y, WithE L nr nt tp y.1 → Settled true s'.mesh (WithE L nr nt tp) pos y := by
  have h := M.linked
  have hpr : Proper (s.mesh.splitEdge true nr nt nv e) (WithE L nr nt tp) :=
    (splitEdge_flat h E true f hm).proper ((splitEdge_starred h E true).linked h)
  obtain ⟨s1, q1, q2, q3, M1, P⟩ := splitSubseg_spec M E hs hpr
  obtain ⟨c1, c2, c3, -⟩ := splitEdge_corner h E true
  have F := splitEdge_fan h E true true f hm q2 hall
    (by
      intro A B hAB n1 n2 hf hc y hy
      by_contra h0
      rw [adj_congr q2] at hAB
      have hne : ¬ (y = e ∨ y = s.mesh.nbr e) := by
        have D := (Tri3.dirs E.tri).1
        rcases splitEdge_adj h E true hAB with ⟨-, -, -, k1, k2⟩ | ⟨k, -⟩ | ⟨k, -⟩
        · rintro (rfl | rfl)
          · refine k1 ⟨?_, ?_⟩
            · have := hy.2.1.symm.trans D.2.1; cases this; rfl
            · have := hy.2.2.symm.trans D.2.2; cases this; rfl
          · have hn : s.mesh.nbr e ≠ (0, 0) := fun h1 => h.dummy (by have := hy.1; rw [h1] at this; exact this)
            obtain ⟨-, -, v, w, z1, z2⟩ := h.across E.tri.1 hn
            refine k2 ⟨?_, ?_⟩
            · have a1 := hy.2.1.symm.trans z2.2.1
              have a2 := z1.2.2.symm.trans D.2.2
              cases a1; cases a2; rfl
            · have a1 := hy.2.2.symm.trans z2.2.2
              have a2 := z1.2.1.symm.trans D.2.1
              cases a1; cases a2; rfl
        exacts [absurd k n1, absurd k n2]
      obtain ⟨z, z1, z2⟩ := P.kept y A B hy h0 (E.sub_ne M hs hy.1 hne)
      exact h0 (by rw [← z2]; exact hf hc z z1))
    (by
      intro _ _
      obtain ⟨z, z1, z2⟩ := P.left
      obtain ⟨y, y1, y2, -⟩ := P.right
      refine ⟨fun hf => hs (by rw [← z2]; exact hf rfl z z1), ?_⟩
      intro ht hf
      obtain ⟨-, -, t3, -⟩ := splitEdge_tris h E true
      have D := (Tri3.dirs (t3 ht).2).2.1
      rw [← dir_congr q2] at D
      have e1 := M1.linked.complete y _ _ _ y1 D
      have := M1.segmented.both y y1.1 (by rw [e1]; exact D.1) (by rw [y2]; omega)
      have h1 := hf rfl _ D
      rw [← e1, this] at h1
      simp only at h1
      omega)
  have k1 : s1.mesh.org (lnext e) = some l := by
    show s1.mesh.corner (lnext (lnext e)) = _; rw [q2, lnext_lnext]; exact c3
  have k2 : s1.mesh.dest (lnext e) = some b := by
    show s1.mesh.corner (lprev (lnext e)) = _; rw [q2, lprev_lnext]; exact c1
  have hr' : ∃ x, legalize true pos nv l fuel s1.mesh (lnext e) l b = .ok (s'.mesh, x) := by
    simp only [insertOn, q1, Outcome.bind_ok, legalizeFrom, k1, k2] at hr
    revert hr
    cases legalize true pos nv l fuel s1.mesh (lnext e) l b with
    | ok v =>
      simp only [Outcome.bind_ok, Outcome.ok.injEq, Prod.mk.injEq, and_imp]
      rintro rfl -
      exact ⟨v.2, rfl⟩
    | exn => simp
    | ub => simp
  obtain ⟨x', hr'⟩ := hr'
  have F' := legalize_fan true l fuel s1.mesh (lnext e) l b (((splitEdge_starred h E true).linked h).congr q2 q3) ((splitEdge_flat h E true f hm).congr q2)
    (fun _ => M1.segmented) (Or.inl E.tri.1) (by rw [q2]; exact c2) (by rw [q2, lnext_lnext]; exact c3) (by rw [q2, lprev_lnext]; exact c1)
    F s'.mesh x' hr'
  exact F'.settled I.linked I.flat (fun _ => M'.segmented) I.settled

end
end Delynoi.Tri
