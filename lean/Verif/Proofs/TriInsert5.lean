import Verif.Proofs.TriInsert4
/-! # The loop around the new vertex: what it does -/
set_option linter.unusedSectionVars false
namespace Delynoi.Tri
variable {K : Type} [Field K] [LinearOrder K] [IsStrictOrderedRing K]

theorem flip_settled {m : Heap} {L : Nat → Prop} {e top : Otri} {a b c d : Nat} {pos : Nat → Pt K} (h : Linked m L)
    (f : Flat m L pos) (q : QuadAt m L e top a b c d) (cs : Bool) (g : cs = true → Segmented m L) {x : Otri} (hl : L x.1)
    (hx : m.corner x = some c) (hne : x ≠ e) (hs : Settled cs m L pos x) : Settled cs (m.flip cs e) L pos x := by
  obtain ⟨k1, o1, o2, k3⟩ := flip_apart h q cs hl hx hne (fun v w T => ⟨(f.distinct T).1, (f.distinct T).2.2⟩)
  rcases hs with ⟨rfl, hs⟩ | hs | hs
  · left
    refine ⟨rfl, ?_⟩
    have j : ∀ y : Otri, (y.1 = e.1 ∨ y.1 = top.1) → x ≠ y := by
      rintro y (h1 | h1) rfl
      · exact o1 h1
      · exact o2 h1
    rw [flip_sub h q (g rfl)]
    unfold cyc
    rw [if_neg (j (lprev top) (by simp)), if_neg (j (lnext top) (by simp)), if_neg (j (lprev e) (by simp)), if_neg (j (lnext e) (by simp))]
    exact hs
  · exact Or.inr (Or.inl (by rw [k1]; exact hs))
  · right
    by_cases hn : m.nbr x = (0, 0)
    · exact Or.inl (by rw [k1]; exact hn)
    right
    obtain ⟨k4, k5⟩ := k3 hn
    obtain ⟨-, -, -, -, -, -, c7⟩ := flip_corner h q cs
    have same : ∀ (y : Otri) v A B, y.1 ≠ e.1 → y.1 ≠ top.1 → (m.flip cs e).Tri3 L y v A B → m.Tri3 L y v A B := by
      rintro y v A B h1 h2 ⟨y1, y2, y3, y4⟩
      rw [c7 y h1 h2] at y2
      rw [c7 (y.1, y.2 + 1) h1 h2] at y3
      rw [c7 (y.1, y.2 + 2) h1 h2] at y4
      exact ⟨y1, y2, y3, y4⟩
    intro v A B d' T1 T2
    rw [k1] at T2
    exact hs v A B d' (same _ _ _ _ o1 o2 T1) (same _ _ _ _ k4 k5 T2)

theorem KeepsSubs.trans {m m' m'' : Heap} {L L' L'' : Nat → Prop} (h1 : KeepsSubs m L m' L') (h2 : KeepsSubs m' L' m'' L'') :
    KeepsSubs m L m'' L'' := by
  intro x v w hx hs
  obtain ⟨y, hy, he⟩ := h1 x v w hx hs
  obtain ⟨z, hz, he'⟩ := h2 y v w hy (by rw [he]; exact hs)
  exact ⟨z, hz, he'.trans he⟩

/-- What the loop does. -/
structure Legalized (cs : Bool) (m : Heap) (L : Nat → Prop) (pos : Nat → Pt K) (nv : Nat) (T0 : Nat → Nat → Nat → Prop) (A0 : Nat → Nat → Prop)
    (W : Nat → Prop) (m' : Heap) (x : Otri) : Prop where
  linked : Linked m' L
  flat : Flat m' L pos
  seg : cs = true → Segmented m' L ∧ KeepsSubs m L m' L ∧ KeepsSubs m' L m L
  sub : cs = false → m'.sub = m.sub ∧ m'.stri = m.stri
  found : L x.1 ∧ m'.corner (lnext x) = some nv
  settled : ∀ y, L y.1 → m'.corner y = some nv → Settled cs m' L pos y
  tri : ∀ y v A B, m'.Tri3 L y v A B → v = nv ∨ A = nv ∨ B = nv ∨ T0 v A B
  adj : ∀ v w, m'.Adj L v w → v = nv ∨ w = nv ∨ A0 v w
  spokes : ∀ v, m'.Adj L nv v → W v
  verts : ∀ v w, m.Adj L v w → ∃ w', m'.Adj L v w'
  star : ∀ v, m.Adj L nv v → m'.Adj L nv v
  lone : ∀ v w, Lone m' L v w ↔ Lone m L v w

theorem legalize_spec (cs : Bool) (L : Nat → Prop) (pos : Nat → Pt K) (nv first : Nat) (T0 : Nat → Nat → Nat → Prop) (A0 : Nat → Nat → Prop)
    (W : Nat → Prop) (hW : ∀ a b d, T0 d b a → ∀ o, sqDist o (pos d) = sqDist o (pos b) → sqDist o (pos d) = sqDist o (pos a) →
      sqDist o (pos nv) < sqDist o (pos d) → W d) (ts : List Nat) (hts : ∀ t, L t → t ∈ ts) :
    ∀ (fuel : Nat) (m : Heap) (e : Otri) (right left : Nat) (dn td : List Otri), Linked m L → Flat m L pos → (cs = true → Segmented m L) →
      Ring m L nv first (dn ++ e :: td) → m.corner (lnext e) = some right → m.corner (lprev e) = some left →
      (∀ x ∈ dn, Settled cs m L pos x) → (∀ y v A B, m.Tri3 L y v A B → v = nv ∨ A = nv ∨ B = nv ∨ T0 v A B) →
      (∀ v w, m.Adj L v w → v = nv ∨ w = nv ∨ A0 v w) → (∀ v, m.Adj L nv v → W v) →
      2 * (ts.length - (dn ++ e :: td).length) + td.length < fuel →
      ∃ m' x, legalize cs pos nv first fuel m e right left = .ok (m', x) ∧ Legalized cs m L pos nv T0 A0 W m' x := by
  intro fuel
  induction fuel with
  | zero => intro m e right left dn td _ _ _ _ _ _ _ _ _ _ hf; omega
  | succ fuel ih =>
    intro m e right left dn td h f g R hr hl hdn hT hA hsp hf
    have he := (R.mem e).1 (by simp)
    have T : m.Tri3 L e nv right left := tri3_iff.2 ⟨he.1, he.2, hr, hl⟩
    have ct := f.ccw _ _ _ _ T
    -- the edge is left
    have next : Settled cs m L pos e → ∃ m' x, (
        (let horiz := lnext e
         let testtri := m.sym horiz
         if left = first ∨ testtri.1 = 0 then (.ok (m, lnext horiz) : Outcome (Heap × Otri))
         else
          let horiz := lnext testtri
          match m.dest horiz with
          | some l => legalize cs pos nv first fuel m horiz left l
          | none => .ub) = .ok (m', x)) ∧ Legalized cs m L pos nv T0 A0 W m' x := by
      intro hs
      cases td with
      | nil =>
        have hstop : left = first ∨ (m.sym (lnext e)).1 = 0 := by
          rcases R.stop e (by simp) with h0 | h0
          · rw [hl] at h0; cases h0; exact Or.inl rfl
          · right; show (m.nbr (lnext e)).1 = 0; rw [h0]
        refine ⟨m, lnext (lnext e), if_pos hstop, ⟨h, f, fun hc => ⟨g hc, fun x v w hx _ => ⟨x, hx, rfl⟩, fun x v w hx _ => ⟨x, hx, rfl⟩⟩, fun _ => ⟨rfl, rfl⟩, ?_, ?_, hT, hA, hsp,
          fun v w hv => ⟨w, hv⟩, fun v hv => hv, fun _ _ => Iff.rfl⟩⟩
        · rw [lnext_lnext, lnext_lprev]; exact he
        · intro y h1 h2
          have := (R.mem y).2 ⟨h1, h2⟩
          simp only [List.mem_append, List.mem_cons, List.not_mem_nil, or_false] at this
          rcases this with k | rfl
          · exact hdn y k
          · exact hs
      | cons y td =>
        obtain ⟨s1, s2, s3⟩ := R.step h
        have hy := (R.mem y).1 (by simp)
        have y0 : y.1 ≠ 0 := fun h0 => h.dummy (h0 ▸ hy.1)
        obtain ⟨l', hl'⟩ := h.corners y.1 hy.1 (lprev y).2
        have hl' : m.corner (lprev y) = some l' := hl'
        have hno : ¬ (left = first ∨ (m.sym (lnext e)).1 = 0) := by
          rintro (h0 | h0)
          · exact s3 (by rw [hl, h0])
          · rw [show m.sym (lnext e) = lprev y from s1] at h0; exact y0 h0
        have e1 : lnext (m.sym (lnext e)) = y := by
          rw [show m.sym (lnext e) = lprev y from s1, lnext_lprev]
        have e2 : m.dest y = some l' := hl'
        have ha : (dn ++ [e]) ++ y :: td = dn ++ e :: y :: td := by simp
        obtain ⟨m', x, h1, h2⟩ := ih m y left l' (dn ++ [e]) td h f g (by rw [ha]; exact R) (by rw [← s2]; exact hl) hl'
          (by
            intro z hz
            simp only [List.mem_append, List.mem_cons, List.not_mem_nil, or_false] at hz
            rcases hz with hz | rfl
            exacts [hdn z hz, hs]) hT hA hsp (by rw [ha]; simp only [List.length_cons] at hf ⊢; omega)
        refine ⟨m', x, ?_, h2⟩
        simp only [hno, if_false, e1, e2]
        exact h1
    simp only [legalize]
    by_cases c1 : cs = true ∧ (m.tspivot e).1 ≠ 0
    · rw [if_pos c1]; exact next (Or.inl ⟨c1.1, c1.2⟩)
    rw [if_neg c1]
    by_cases c2 : (m.sym e).1 = 0
    · rw [if_pos c2]
      refine next (Or.inr (Or.inl ?_))
      by_contra hn
      exact h.dummy (by rw [← c2]; exact (h.across he.1 hn).1)
    rw [if_neg c2]
    have hn : m.nbr e ≠ (0, 0) := fun h0 => c2 (by show (m.nbr e).1 = 0; rw [h0])
    obtain ⟨hl', hi, v, w, k1, k2⟩ := h.across he.1 hn
    obtain ⟨rfl, rfl⟩ : v = right ∧ w = left := by
      have e1 := k1.2.1.symm.trans T.2.2.1
      have e2 := k1.2.2.symm.trans T.2.2.2
      cases e1; cases e2; exact ⟨rfl, rfl⟩
    obtain ⟨d, hd⟩ := h.corners (m.nbr e).1 hl' (m.nbr e).2
    have hd : m.corner (m.nbr e) = some d := hd
    have hd' : m.apex (m.sym e) = some d := hd
    simp only [hd']
    have T2 : m.Tri3 L (m.nbr e) d w v := ⟨hl', hd, k2.2.1, k2.2.2⟩
    have ct2 := f.ccw _ _ _ _ T2
    have ct' : 0 < turn (pos w) (pos nv) (pos v) := by
      rw [show turn (pos w) (pos nv) (pos v) = turn (pos nv) (pos v) (pos w) by simp only [turn]; ring]; exact ct
    by_cases c3 : 0 < incircleDet (pos w) (pos nv) (pos v) (pos d)
    · rw [if_pos c3]
      obtain ⟨o, o1, o2⟩ := exists_center (ne_of_gt ct')
      rw [incircleDet_eq o1 o2] at c3
      have hin : sqDist o (pos d) < sqDist o (pos v) := by
        have := (mul_pos_iff_of_pos_left ct').1 c3
        linarith
      obtain ⟨v1, v2⟩ := convex_of_inside (o := o) (a := pos v) (b := pos w) (c := pos nv) (d := pos d) o2.symm (by rw [← o2, o1]) ct ct2 hin
      have q := quad_of_convex h f k1 he.2 hn hd v1 v2
      have R' := R.flip h q cs
      have nts : (dn ++ e :: td).length < ts.length := by
        have := R'.length_le (flip_linked h q cs) (flip_flat h f q cs v1 v2) hts
        simp only [List.length_append, List.length_cons] at this ⊢; omega
      obtain ⟨cc1, cc2, cc3, cc4, cc5, cc6, cc7⟩ := flip_corner h q cs
      -- `nv` is inside the circle of the other triangle
      have hWd : W d := by
        rcases hT _ _ _ _ T2 with h0 | h0 | h0 | h0
        · exact absurd h0.symm q.cd
        · exact absurd h0 q.bc
        · exact absurd h0 q.ac
        · obtain ⟨o', p1, p2⟩ := exists_center (ne_of_gt ct2)
          refine hW _ _ _ h0 o' p1 p2 ?_
          have e1 := power_weights (d := pos nv) p1 p2
          have e2 := power_weights (o := o) (a := pos w) (b := pos nv) (c := pos v) (d := pos d) o1 o2
          have e3 : turn (pos w) (pos v) (pos nv) * sqDist (pos d) (pos nv) + turn (pos v) (pos d) (pos nv) * sqDist (pos w) (pos nv) +
              turn (pos d) (pos w) (pos nv) * sqDist (pos v) (pos nv) =
              turn (pos nv) (pos v) (pos d) * sqDist (pos w) (pos d) + turn (pos v) (pos w) (pos d) * sqDist (pos nv) (pos d) +
              turn (pos w) (pos nv) (pos d) * sqDist (pos v) (pos d) := by
            simp only [turn, sqDist]; ring
          rw [e3, e2] at e1
          rw [e1] at c3
          have := (mul_pos_iff_of_pos_left ct2).1 c3
          linarith
      have hs0 : cs = true → (m.sub e).1 = 0 := by
        intro hc
        by_contra h0
        exact c1 ⟨hc, h0⟩
      obtain ⟨m', x, r1, r2⟩ := ih (m.flip cs e) (lprev e) v d dn (lnext (m.nbr e) :: td) (flip_linked h q cs) (flip_flat h f q cs v1 v2)
        (by rintro rfl; exact flip_segmented h q (g rfl)) R' (by rw [lnext_lprev]; exact cc1) (by rw [lprev_lprev]; exact cc2)
        (by
          intro z hz
          have hz' := (R.mem z).1 (by simp [hz])
          refine flip_settled h f q cs g hz'.1 hz'.2 ?_ (hdn z hz)
          rintro rfl
          have := R.nodup
          rw [List.nodup_append] at this
          exact this.2.2 z hz z (by simp) rfl)
        (by
          intro y p A B hy
          rcases flip_tri h q hy with ⟨k, -, -⟩ | ⟨-, -, k⟩ | ⟨-, k, -⟩ | ⟨k, -, -⟩ | ⟨-, k, -⟩ | ⟨k, -, -⟩ | ⟨-, -, k⟩
          · exact hT _ _ _ _ k
          all_goals simp [k])
        (by
          intro p r hp
          rcases flip_adj h q hp with ⟨k, -, -⟩ | ⟨k, -⟩ | ⟨-, k⟩
          · exact hA _ _ k
          · exact Or.inl k
          · exact Or.inr (Or.inl k))
        (by
          intro p hp
          rcases flip_adj h q hp with ⟨k, -, -⟩ | ⟨-, k⟩ | ⟨k, -⟩
          · exact hsp _ k
          · rw [k]; exact hWd
          · exact absurd k q.cd)
        (by simp only [List.length_append, List.length_cons] at hf nts ⊢; omega)
      refine ⟨m', x, r1, ⟨r2.linked, r2.flat, ?_, ?_, r2.found, r2.settled, r2.tri, r2.adj, r2.spokes, ?_, ?_, fun p r => (r2.lone p r).trans (flip_lone h q cs p r)⟩⟩
      · rintro rfl
        refine ⟨(r2.seg rfl).1, KeepsSubs.trans ?_ (r2.seg rfl).2.1, (r2.seg rfl).2.2.trans (flip_keeps_back h q (g rfl) (hs0 rfl)
          ((g rfl).neither e he.1 hl' (hs0 rfl)))⟩
        intro y p r hy hs
        have z1 := hs0 rfl
        have z2 := (g rfl).neither e he.1 hl' z1
        exact flip_keep h q (g rfl) hy (by rintro rfl; exact hs z1) (by rintro rfl; exact hs z2)
      · intro hc
        subst hc
        exact ⟨(r2.sub rfl).1, (r2.sub rfl).2⟩
      · intro p r hp
        obtain ⟨w', hw'⟩ := flip_verts h q cs hp
        exact r2.verts _ _ hw'
      · intro p hp
        exact r2.star _ (flip_stays h q cs hp (fun hh => q.ac hh.1.symm) (fun hh => q.bc hh.1.symm))
    · rw [if_neg c3]
      refine next (Or.inr (Or.inr ?_))
      intro v' a' b' d' t1 t2 o o1 o2
      have i1 := T.2.1.symm.trans t1.2.1
      have i2 := T.2.2.1.symm.trans t1.2.2.1
      have i3 := T.2.2.2.symm.trans t1.2.2.2
      have i4 := hd.symm.trans t2.2.1
      cases i1; cases i2; cases i3; cases i4
      rw [incircleDet_eq (o := o) (by rw [← o1, o2]) o1.symm] at c3
      by_contra hh
      exact c3 (mul_pos ct' (by linarith))

end Delynoi.Tri
