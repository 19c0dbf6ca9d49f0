import Verif.Proofs.TriEncroach
/-! # Encroached subsegments: the loop around the new vertex -/
set_option linter.unusedSectionVars false
namespace Delynoi.Tri
variable {K : Type} [Field K] [LinearOrder K] [IsStrictOrderedRing K] {m : Heap} {s : Segs} {L : Nat → Prop} {pos : Nat → Pt K}

theorem nbr_lone (h : Linked m L) {y : Otri} {v w : Nat} (hy : m.Dir L y v w) : m.nbr y = (0, 0) ↔ Lone m L v w := by
  constructor
  · intro hn
    refine ⟨⟨y, hy⟩, fun z hz => ?_⟩
    have := h.complete y z v w hy hz
    rw [hn] at this
    exact h.dummy (by have k := hz.1; rw [← this] at k; exact k)
  · rintro ⟨-, hno⟩
    by_contra hn
    obtain ⟨-, -, v', w', j1, j2⟩ := h.across hy.1 hn
    have i1 := j1.2.1.symm.trans hy.2.1
    have i2 := j1.2.2.symm.trans hy.2.2
    cases i1; cases i2
    exact hno _ j2

/-- At the boundary no edge has the other side of the subsegment. -/
theorem ssym_free (h : Linked m L) (g : Segmented m L) {y : Otri} (hy : L y.1) (h0 : (m.sub y).1 ≠ 0) (hn : m.nbr y = (0, 0)) :
    ∀ x, L x.1 → ssym (m.sub y) ≠ m.sub x := by
  intro x hx he
  rcases g.same y x hy hx h0 (by rw [← he]; rfl) with rfl | rfl
  · exact ssym_ne _ he
  · rw [hn] at hx; exact h.dummy hx

theorem Bare.flip (B : Bare m L) (h : Linked m L) (g : Segmented m L) {e top : Otri} {a b c d : Nat} (q : QuadAt m L e top a b c d)
    (z1 : (m.sub e).1 = 0) (z2 : (m.sub top).1 = 0) : Bare (m.flip true e) L := by
  intro y hy h0 hn
  have h' := flip_linked h q true
  obtain ⟨u, v, w, T⟩ := h'.tri hy
  have D := (Tri3.dirs T).1
  obtain ⟨z, hz, he⟩ := flip_keeps_back h q g z1 z2 y v w D h0
  have hl := (flip_lone h q true v w).1 ((nbr_lone h' D).1 hn)
  have hzn := (nbr_lone h hz).2 hl
  have hf := ssym_free h g hz.1 (by rw [he]; exact h0) hzn
  have := B z hz.1 (by rw [he]; exact h0) hzn
  rw [← he, flip_stri_eq m e _ (by show (m.sub z).1 ≠ 0; rw [he]; exact h0), q.nbr, if_neg (hf (lnext top) q.lt), if_neg (hf (lprev e) q.le),
    if_neg (hf (lnext e) q.le), if_neg (hf (lprev top) q.lt)]
  exact this

theorem Actual.keeps {m' : Heap} {L' : Nat → Prop} {c : Enc} (A : Actual m L c) (k : KeepsSubs m L m' L') : Actual m' L' c := by
  obtain ⟨h0, z, hz, he⟩ := A
  obtain ⟨y, hy, he'⟩ := k z _ _ hz (by rw [he]; exact h0)
  exact ⟨h0, y, hy, he'.trans he⟩

theorem legalizeEnc_spec (s : Segs) {nv : Nat} (first : Nat) :
    ∀ (fuel : Nat) (m : Heap) (bad : List Enc) (e : Otri) (right left : Nat) (dn td : List Otri), SegMesh { s with mesh := m } L → Flat m L pos →
      Bare m L → Ring m L nv first (dn ++ e :: td) → m.corner (lnext e) = some right → m.corner (lprev e) = some left →
      (∀ x ∈ dn, Encroached m L pos x → Queued m L bad (m.sub x).1) →
      ∀ m' x, legalize true pos nv first fuel m e right left = .ok (m', x) →
      ∃ bad', s.legalizeEnc pos nv first fuel m bad e right left = .ok (m', x, bad') ∧ (∀ c ∈ bad, c ∈ bad') ∧
        (∀ c ∈ bad', c ∈ bad ∨ Actual m' L c) ∧ (∀ y, L y.1 → m'.corner y = some nv → Encroached m' L pos y → Queued m' L bad' (m'.sub y).1) ∧
        Bare m' L ∧ KeepsSubs m L m' L := by
  intro fuel
  induction fuel with
  | zero => intro m bad e right left dn td _ _ _ _ _ _ _ m' x hr; simp [legalize] at hr
  | succ fuel ih =>
    intro m bad e right left dn td M f B R hr hl hdn m' x hres
    have h : Linked m L := M.linked
    have g : Segmented m L := M.segmented
    have he := (R.mem e).1 (by simp)
    have T : m.Tri3 L e nv right left := tri3_iff.2 ⟨he.1, he.2, hr, hl⟩
    have ct := f.ccw _ _ _ _ T
    -- the edge is left
    have next : ∀ bad, (∀ x ∈ dn, Encroached m L pos x → Queued m L bad (m.sub x).1) → (Encroached m L pos e → Queued m L bad (m.sub e).1) →
        (let horiz := lnext e
         let testtri := m.sym horiz
         if left = first ∨ testtri.1 = 0 then (.ok (m, lnext horiz) : Outcome (Heap × Otri))
         else
          let horiz := lnext testtri
          match m.dest horiz with
          | some l => legalize true pos nv first fuel m horiz left l
          | none => .ub) = .ok (m', x) →
        ∃ bad', (let horiz := lnext e
         let testtri := m.sym horiz
         if left = first ∨ testtri.1 = 0 then (.ok (m, lnext horiz, bad) : Outcome (Heap × Otri × List Enc))
         else
          let horiz := lnext testtri
          match m.dest horiz with
          | some l => s.legalizeEnc pos nv first fuel m bad horiz left l
          | none => .ub) = .ok (m', x, bad') ∧ (∀ c ∈ bad, c ∈ bad') ∧
        (∀ c ∈ bad', c ∈ bad ∨ Actual m' L c) ∧ (∀ y, L y.1 → m'.corner y = some nv → Encroached m' L pos y → Queued m' L bad' (m'.sub y).1) ∧
        Bare m' L ∧ KeepsSubs m L m' L := by
      intro bad hdn hs hres
      cases td with
      | nil =>
        have hstop : left = first ∨ (m.sym (lnext e)).1 = 0 := by
          rcases R.stop e (by simp) with h0 | h0
          · rw [hl] at h0; cases h0; exact Or.inl rfl
          · right; show (m.nbr (lnext e)).1 = 0; rw [h0]
        simp only [if_pos hstop] at hres ⊢
        cases hres
        refine ⟨bad, rfl, fun c hc => hc, fun c hc => Or.inl hc, ?_, B, fun x v w hx _ => ⟨x, hx, rfl⟩⟩
        intro y h1 h2 hE
        have := (R.mem y).2 ⟨h1, h2⟩
        simp only [List.mem_append, List.mem_cons, List.not_mem_nil, or_false] at this
        rcases this with k | rfl
        · exact hdn y k hE
        · exact hs hE
      | cons y td =>
        obtain ⟨s1, s2, s3⟩ := R.step h
        have hy := (R.mem y).1 (by simp)
        have y0 : y.1 ≠ 0 := fun h0 => h.dummy (h0 ▸ hy.1)
        obtain ⟨l', hl'⟩ := h.corners y.1 hy.1 (lprev y).2
        have hl' : m.corner (lprev y) = some l' := hl'
        have hno : ¬ (left = first ∨ (m.sym (lnext e)).1 = 0) := by
          rintro (h0 | h0)
          · exact s3 (by rw [hl, h0])
          · rw [show m.sym (lnext e) = lprev y from s1] at h0; exact y0 h0
        have e1 : lnext (m.sym (lnext e)) = y := by
          rw [show m.sym (lnext e) = lprev y from s1, lnext_lprev]
        have e2 : m.dest y = some l' := hl'
        have ha : (dn ++ [e]) ++ y :: td = dn ++ e :: y :: td := by simp
        simp only [hno, if_false, e1, e2] at hres ⊢
        exact ih m bad y left l' (dn ++ [e]) td M f B (by rw [ha]; exact R) (by rw [← s2]; exact hl) hl'
          (by
            intro z hz
            simp only [List.mem_append, List.mem_cons, List.not_mem_nil, or_false] at hz
            rcases hz with hz | rfl
            exacts [hdn z hz, hs]) m' x hres
    simp only [legalize, true_and] at hres
    simp only [Segs.legalizeEnc]
    by_cases c1 : (m.tspivot e).1 ≠ 0
    · rw [if_pos c1] at hres
      rw [if_pos c1]
      obtain ⟨n, b', q1, q2, q3, q4⟩ := checkEnc_spec (s := { s with mesh := m }) (pos := pos) M B he.1 c1 (o := m.sub e) rfl bad
      have q1' : Segs.checkEnc { s with mesh := m } pos (m.tspivot e) bad = .ok (n, b') := q1
      rw [q1']
      obtain ⟨bad', r1, r2, r3, r4, r5, r6⟩ := next b'
        (fun z hz hE => by
          obtain ⟨c, hc, hA, hn⟩ := hdn z hz hE
          exact ⟨c, q2 c hc, hA, hn⟩)
        (fun hE => q4 e rfl hE) hres
      refine ⟨bad', r1, fun c hc => r2 c (q2 c hc), ?_, r4, r5, r6⟩
      intro c hc
      rcases r3 c hc with k | k
      · rcases q3 c k with k | k
        · exact Or.inl k
        · exact Or.inr (Actual.keeps k.1 r6)
      · exact Or.inr k
    rw [if_neg c1] at hres
    rw [if_neg c1]
    have z1 : (m.sub e).1 = 0 := not_not.1 c1
    have hE0 : Encroached m L pos e → Queued m L bad (m.sub e).1 := fun hE => absurd z1 hE.1
    by_cases c2 : (m.sym e).1 = 0
    · rw [if_pos c2] at hres
      rw [if_pos c2]
      exact next bad hdn hE0 hres
    rw [if_neg c2] at hres
    rw [if_neg c2]
    have hn : m.nbr e ≠ (0, 0) := fun h0 => c2 (by show (m.nbr e).1 = 0; rw [h0])
    obtain ⟨hl', hi, v, w, k1, k2⟩ := h.across he.1 hn
    obtain ⟨rfl, rfl⟩ : v = right ∧ w = left := by
      have e1 := k1.2.1.symm.trans T.2.2.1
      have e2 := k1.2.2.symm.trans T.2.2.2
      cases e1; cases e2; exact ⟨rfl, rfl⟩
    obtain ⟨d, hd⟩ := h.corners (m.nbr e).1 hl' (m.nbr e).2
    have hd : m.corner (m.nbr e) = some d := hd
    have hd' : m.apex (m.sym e) = some d := hd
    simp only [hd'] at hres ⊢
    have T2 : m.Tri3 L (m.nbr e) d w v := ⟨hl', hd, k2.2.1, k2.2.2⟩
    have ct2 := f.ccw _ _ _ _ T2
    have ct' : 0 < turn (pos w) (pos nv) (pos v) := by
      rw [show turn (pos w) (pos nv) (pos v) = turn (pos nv) (pos v) (pos w) by simp only [turn]; ring]; exact ct
    by_cases c3 : 0 < incircleDet (pos w) (pos nv) (pos v) (pos d)
    · rw [if_pos c3] at hres
      rw [if_pos c3]
      obtain ⟨o, o1, o2⟩ := exists_center (ne_of_gt ct')
      rw [incircleDet_eq o1 o2] at c3
      have hin : sqDist o (pos d) < sqDist o (pos v) := by
        have := (mul_pos_iff_of_pos_left ct').1 c3
        linarith
      obtain ⟨v1, v2⟩ := convex_of_inside (o := o) (a := pos v) (b := pos w) (c := pos nv) (d := pos d) o2.symm (by rw [← o2, o1]) ct ct2 hin
      have q := quad_of_convex h f k1 he.2 hn hd v1 v2
      have R' := R.flip h q true
      obtain ⟨cc1, cc2, cc3, cc4, cc5, cc6, cc7⟩ := flip_corner h q true
      have z2 := g.neither e he.1 hl' z1
      have kp : KeepsSubs m L (m.flip true e) L := by
        intro y p r hy hs
        exact flip_keep h q g hy (by rintro rfl; exact hs z1) (by rintro rfl; exact hs z2)
      have kb := flip_keeps_back h q g z1 z2
      have f' := flip_flat h f q true v1 v2
      obtain ⟨bad', r1, r2, r3, r4, r5, r6⟩ := ih (m.flip true e) bad (lprev e) v d dn (lnext (m.nbr e) :: td)
        (SegMesh.of_mesh (s := { s with mesh := m }) M (flip_linked h q true) (flip_segmented h q g) f' kb) f' (B.flip h g q z1 z2) R'
        (by rw [lnext_lprev]; exact cc1) (by rw [lprev_lprev]; exact cc2)
        (by
          intro z hz hE
          have hz' := (R.mem z).1 (by simp [hz])
          have hne : z ≠ e := by
            rintro rfl
            have := R.nodup
            rw [List.nodup_append] at this
            exact this.2.2 z hz z (by simp) rfl
          obtain ⟨-, o1, o2, -⟩ := flip_apart h q true hz'.1 hz'.2 hne (fun v w T => ⟨(f.distinct T).1, (f.distinct T).2.2⟩)
          have j : ∀ y : Otri, (y.1 = e.1 ∨ y.1 = (m.nbr e).1) → z ≠ y := by
            rintro y (h1 | h1) rfl
            · exact o1 h1
            · exact o2 h1
          have hsub : (m.flip true e).sub z = m.sub z := by
            rw [flip_sub h q g]
            unfold cyc
            rw [if_neg (j (lprev (m.nbr e)) (by simp)), if_neg (j (lnext (m.nbr e)) (by simp)), if_neg (j (lprev e) (by simp)),
              if_neg (j (lnext e) (by simp))]
          obtain ⟨e0, v', a', b', ⟨y1, y2, y3, y4⟩, hd⟩ := hE
          rw [cc7 z o1 o2] at y2
          rw [cc7 (z.1, z.2 + 1) o1 o2] at y3
          rw [cc7 (z.1, z.2 + 2) o1 o2] at y4
          rw [hsub] at e0 ⊢
          obtain ⟨c, hc, hA, hn⟩ := hdn z hz ⟨e0, v', a', b', ⟨y1, y2, y3, y4⟩, hd⟩
          exact ⟨c, hc, hA.keeps kp, hn⟩) m' x hres
      exact ⟨bad', r1, r2, r3, r4, r5, kp.trans r6⟩
    · rw [if_neg c3] at hres
      rw [if_neg c3]
      exact next bad hdn hE0 hres

end Delynoi.Tri
