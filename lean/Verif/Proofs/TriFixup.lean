import Verif.Spec.TriFixup
import Verif.Proofs.TriInsert11
import Verif.Proofs.TriLocate
/-! # `delaunayfixup` -/
set_option linter.unusedSectionVars false
namespace Delynoi.Tri
variable {K : Type} [Field K] [LinearOrder K] [IsStrictOrderedRing K] {m : Heap} {L : Nat → Prop} {pos : Nat → Pt K}

theorem countP_lt {α : Type} {p q : α → Bool} : ∀ {l : List α}, (∀ t ∈ l, q t = true → p t = true) → (∃ t ∈ l, p t = true ∧ q t = false) →
    l.countP q < l.countP p
  | [], _, h => by simp at h
  | t :: l, h1, ⟨t0, m0, p0, q0⟩ => by
    have hle : l.countP q ≤ l.countP p := List.countP_mono_left (fun x hx => h1 x (by simp [hx]))
    simp only [List.countP_cons]
    rcases List.mem_cons.1 m0 with rfl | m0
    · rw [p0, q0]; simp; omega
    · have := countP_lt (l := l) (fun x hx => h1 x (by simp [hx])) ⟨t0, m0, p0, q0⟩
      have h2 := h1 t (by simp)
      cases hq : q t
      · simp; omega
      · rw [h2 hq]; simp; omega

/-- Whether the triangle has not got the vertex. -/
def farOff (m : Heap) (nv : Nat) (t : Nat) : Bool :=
  decide (m.corner (t, 0) ≠ some nv ∧ m.corner (t, 1) ≠ some nv ∧ m.corner (t, 2) ≠ some nv)

theorem farOff_iff {m : Heap} {nv t : Nat} : farOff m nv t = true ↔ ∀ o, m.corner (t, o) ≠ some nv := by
  simp only [farOff, decide_eq_true_eq]
  refine ⟨fun h o => ?_, fun h => ⟨h 0, h 1, h 2⟩⟩
  rcases fin3 0 o with rfl | rfl | rfl
  exacts [h.1, h.2.1, h.2.2]

/-- What `delaunayfixup` sees on the other side of the edge. -/
theorem fixup_view (h : Linked m L) (f : Flat m L pos) {x : Otri} (hx : L x.1) {nv : Nat} (hc : m.corner (lnext x) = some nv)
    (hn : m.nbr (lnext x) ≠ (0, 0)) :
    ∃ a b d, m.Dir L (lnext x) a b ∧ m.Tri3 L (lnext x) nv a b ∧ m.Tri3 L (m.nbr (lnext x)) d b a ∧
      0 < turn (pos nv) (pos a) (pos b) ∧ 0 < turn (pos d) (pos b) (pos a) := by
  obtain ⟨hl, hi, a, b, k1, k2⟩ := h.across (x := lnext x) hx hn
  obtain ⟨d, hd⟩ := h.corners _ hl (m.nbr (lnext x)).2
  have T1 : m.Tri3 L (lnext x) nv a b := ⟨hx, hc, k1.2.1, k1.2.2⟩
  have T2 : m.Tri3 L (m.nbr (lnext x)) d b a := ⟨hl, hd, k2.2.1, k2.2.2⟩
  exact ⟨a, b, d, k1, T1, T2, f.ccw _ _ _ _ T1, f.ccw _ _ _ _ T2⟩

/-- Locally Delaunay, seen from the other side. -/
theorem locally_of_far {x : Otri} {c a b d : Nat} (T1 : m.Tri3 L x c a b) (T2 : m.Tri3 L (m.nbr x) d b a)
    (c1 : 0 < turn (pos c) (pos a) (pos b)) (c2 : 0 < turn (pos d) (pos b) (pos a)) :
    LocallyDelaunay m L pos x ↔ ¬ 0 < incircleDet (pos a) (pos d) (pos b) (pos c) := by
  have c2' : 0 < turn (pos a) (pos d) (pos b) := by
    rw [show turn (pos a) (pos d) (pos b) = turn (pos d) (pos b) (pos a) by simp only [turn]; ring]; exact c2
  obtain ⟨o, o1, o2⟩ := exists_center (ne_of_gt c2')
  rw [incircleDet_eq o1 o2]
  constructor
  · intro hl hp
    have hp' := (mul_pos_iff_of_pos_left c2').1 hp
    obtain ⟨o', p1, p2⟩ := exists_center (ne_of_gt c1)
    have := hl c a b d T1 T2 o' (by rw [← p1, p2]) p1.symm
    have := delaunay_symm (o := o) (o' := o') c2 c1 o2.symm (by rw [← o2, o1]) (by rw [← p1, p2]) p1.symm this
    linarith
  · intro hp v' a' b' d' t1 t2 o' p1 p2
    have i1 := T1.2.1.symm.trans t1.2.1
    have i2 := T1.2.2.1.symm.trans t1.2.2.1
    have i3 := T1.2.2.2.symm.trans t1.2.2.2
    have i4 := T2.2.1.symm.trans t2.2.1
    cases i1; cases i2; cases i3; cases i4
    refine delaunay_symm (o := o') (o' := o) c1 c2 p1 p2 o2.symm (by rw [← o2, o1]) ?_
    by_contra hh
    exact hp (mul_pos c2' (by linarith))

/-- A settled edge is left. -/
theorem fixup_settled (h : Linked m L) (f : Flat m L pos) {x : Otri} (hx : L x.1) {nv : Nat} (hc : m.corner (lnext x) = some nv)
    (hs : Settled true m L pos (lnext x)) (left : Bool) (fuel : Nat) : delaunayfixup pos left (fuel + 1) m x = .ok (m, x) := by
  simp only [delaunayfixup]
  by_cases h0 : (m.sym (lnext x)).1 = 0
  · rw [if_pos h0]
  rw [if_neg h0]
  by_cases h1 : (m.tspivot (lnext x)).1 ≠ 0
  · rw [if_pos h1]
  rw [if_neg h1]
  have hn : m.nbr (lnext x) ≠ (0, 0) := fun hh => h0 (by show (m.nbr (lnext x)).1 = 0; rw [hh])
  obtain ⟨a, b, d, k1, T1, T2, c1, c2⟩ := fixup_view h f hx hc hn
  have hl : LocallyDelaunay m L pos (lnext x) := by
    rcases hs with ⟨-, hs⟩ | hs | hs
    exacts [absurd hs h1, absurd hs hn, hs]
  have hc' : m.apex (lnext x) = some nv := hc
  have ha : m.org (lnext x) = some a := T1.2.2.1
  have hb : m.dest (lnext x) = some b := T1.2.2.2
  have hd : m.apex (m.sym (lnext x)) = some d := T2.2.1
  rw [hc', ha, hb, hd]
  simp only [deref, Outcome.bind_ok, ccwDet_eq]
  have e1 : 0 < turn (pos b) (pos a) (pos d) := by
    rw [show turn (pos b) (pos a) (pos d) = turn (pos d) (pos b) (pos a) by simp only [turn]; ring]; exact c2
  have e2 := (locally_of_far T1 T2 c1 c2).1 hl
  split
  · rfl
  · split
    · rfl
    · rw [if_pos ⟨e1, e2⟩]

/-- Any other edge is flipped. -/
theorem fixup_flip (h : Linked m L) (f : Flat m L pos) {x : Otri} (hx : L x.1) {nv : Nat} (hc : m.corner (lnext x) = some nv)
    (hs : ¬ Settled true m L pos (lnext x)) (left : Bool) (fuel : Nat) :
    (m.sub (lnext x)).1 = 0 ∧ (∃ a b d, QuadAt m L (lnext x) (m.nbr (lnext x)) a b nv d ∧ 0 < turn (pos d) (pos nv) (pos a) ∧
      0 < turn (pos nv) (pos d) (pos b) ∧ turn (pos nv) (pos a) (pos b) > 0 ∧ turn (pos d) (pos b) (pos a) > 0) ∧
    delaunayfixup pos left (fuel + 1) m x = (do
        let r ← delaunayfixup pos left fuel (m.flip true (lnext x)) (lprev x)
        let q ← delaunayfixup pos left fuel r.1 (m.nbr (lnext x))
        .ok (q.1, r.2)) := by
  have hn : m.nbr (lnext x) ≠ (0, 0) := fun hh => hs (Or.inr (Or.inl hh))
  have h1 : (m.sub (lnext x)).1 = 0 := by
    by_contra hh
    exact hs (Or.inl ⟨rfl, hh⟩)
  obtain ⟨a, b, d, k1, T1, T2, c1, c2⟩ := fixup_view h f hx hc hn
  have hin : 0 < incircleDet (pos a) (pos d) (pos b) (pos nv) := by
    by_contra hh
    exact hs (Or.inr (Or.inr ((locally_of_far T1 T2 c1 c2).2 hh)))
  have c2' : 0 < turn (pos a) (pos d) (pos b) := by
    rw [show turn (pos a) (pos d) (pos b) = turn (pos d) (pos b) (pos a) by simp only [turn]; ring]; exact c2
  obtain ⟨o, o1, o2⟩ := exists_center (ne_of_gt c2')
  have hin' := hin
  rw [incircleDet_eq o1 o2] at hin'
  have hlt := (mul_pos_iff_of_pos_left c2').1 hin'
  obtain ⟨v2, v1⟩ := convex_of_inside (o := o) (a := pos b) (b := pos a) (c := pos d) (d := pos nv) o2.symm (by rw [← o2, o1]) c2 c1
    (by rw [← o2]; linarith)
  refine ⟨h1, ⟨a, b, d, quad_of_convex h f k1 hc hn T2.2.1 v1 v2, v1, v2, c1, c2⟩, ?_⟩
  simp only [delaunayfixup]
  have h0 : (m.sym (lnext x)).1 ≠ 0 := fun h0 => h.dummy (h0 ▸ T2.1)
  have h1' : ¬ (m.tspivot (lnext x)).1 ≠ 0 := not_not.2 h1
  have hc' : m.apex (lnext x) = some nv := hc
  have ha : m.org (lnext x) = some a := T1.2.2.1
  have hb : m.dest (lnext x) = some b := T1.2.2.2
  have hd : m.apex (m.sym (lnext x)) = some d := T2.2.1
  rw [if_neg h0, if_neg h1', hc', ha, hb, hd]
  simp only [deref, Outcome.bind_ok, ccwDet_eq]
  have e1 : 0 < turn (pos nv) (pos a) (pos d) := by
    rw [show turn (pos nv) (pos a) (pos d) = turn (pos d) (pos nv) (pos a) by simp only [turn]; ring]; exact v1
  have e2 : 0 < turn (pos d) (pos b) (pos nv) := by
    rw [show turn (pos d) (pos b) (pos nv) = turn (pos nv) (pos d) (pos b) by simp only [turn]; ring]; exact v2
  rw [if_neg (fun hh => hh.2 e1), if_neg (fun hh => hh.2 e2), if_neg (fun hh => hh.2 hin)]
  rfl

theorem FixedUp.refl (h : Linked m L) (f : Flat m L pos) (g : Segmented m L) {nv : Nat} {e : Otri} (hs : Settled true m L pos e) :
    FixedUp m L pos nv e m where
  linked := h
  flat := f
  segmented := g
  kept := fun x v w hx _ => ⟨x, hx, rfl⟩
  back := fun x v w hx _ => ⟨x, hx, rfl⟩
  tri := fun y v a b hy => Or.inr (Or.inr (Or.inr hy))
  adj := fun v w hv => Or.inr (Or.inr hv)
  star := fun v hv => hv
  verts := fun v w hv => ⟨w, hv⟩
  lone := fun _ _ => Iff.rfl
  apart := fun _ _ _ _ _ => rfl
  settled := by
    intro y hy hc
    by_cases k : Settled true m L pos y
    · exact Or.inl k
    · exact Or.inr ⟨fun he => k (he ▸ hs), hc, k⟩

theorem fixup_spec (nv : Nat) (left : Bool) (ts : List Nat) (hts : ∀ t, L t → t ∈ ts) :
    ∀ (fuel : Nat) (m : Heap) (x : Otri), Linked m L → Flat m L pos → Segmented m L → L x.1 → m.corner (lnext x) = some nv →
      ts.countP (farOff m nv) < fuel →
      ∃ m' x', delaunayfixup pos left fuel m x = .ok (m', x') ∧ FixedUp m L pos nv (lnext x) m' ∧ x'.1 = x.1 ∧
        m'.corner (lnext x') = some nv ∧ m'.corner (lprev x') = m.corner (lprev x) ∧ ts.countP (farOff m' nv) ≤ ts.countP (farOff m nv) := by
  intro fuel
  induction fuel with
  | zero => intro m x _ _ _ _ _ hf; omega
  | succ fuel ih =>
    intro m x h f g hx hc hf
    by_cases hs : Settled true m L pos (lnext x)
    · exact ⟨m, x, fixup_settled h f hx hc hs left fuel, FixedUp.refl h f g hs, rfl, hc, rfl, le_refl _⟩
    obtain ⟨h0, ⟨a, b, d, q, v1, v2, c1, c2⟩, hrun⟩ := fixup_flip h f hx hc hs left fuel
    obtain ⟨cc1, cc2, cc3, cc4, cc5, cc6, cc7⟩ := flip_corner h q true
    have cc3' := cc3
    rw [lprev_lnext] at cc3'
    have h' := flip_linked h q true
    have f' := flip_flat h f q true v1 v2
    have g' := flip_segmented h q g
    have ht0 : (m.sub (m.nbr (lnext x))).1 = 0 := g.neither _ hx q.lt h0
    -- triangles at `nv` before
    have hdecr : ts.countP (farOff (m.flip true (lnext x)) nv) < ts.countP (farOff m nv) := by
      refine countP_lt (fun t _ ht => ?_) ⟨(m.nbr (lnext x)).1, hts _ q.lt, farOff_iff.2 ?_, ?_⟩
      · rw [farOff_iff] at ht ⊢
        intro o ho
        by_cases k1 : t = (lnext x).1
        · subst k1
          exact ht _ cc3
        by_cases k2 : t = (m.nbr (lnext x)).1
        · subst k2
          exact ht _ cc5
        exact ht o (by rw [cc7 (t, o) k1 k2]; exact ho)
      · intro o ho
        rcases q.corner_t h (x := ((m.nbr (lnext x)).1, o)) rfl ho with k | k | k
        exacts [q.ac k.symm, q.bc k.symm, q.cd k]
      · rw [Bool.eq_false_iff]
        intro hh
        exact farOff_iff.1 hh _ cc5
    obtain ⟨m2, x2, r1, F1, i1, i2, i3, i4⟩ := ih (m.flip true (lnext x)) (lprev x) h' f' g' hx
      (by rw [lnext_lprev]; exact cc3') (by omega)
    rw [lnext_lprev] at F1
    have ne : (m.nbr (lnext x)).1 ≠ x.1 := q.ne.symm
    have hcn : m2.corner (lnext (m.nbr (lnext x))) = some nv := by
      have := F1.apart (m.nbr (lnext x)).1 q.lt ne ⟨_, cc5⟩ (lnext (m.nbr (lnext x))).2
      exact this.trans cc5
    obtain ⟨m3, x3, r2, F2, j1, j2, j3, j4⟩ := ih m2 (m.nbr (lnext x)) F1.linked F1.flat F1.segmented q.lt hcn (by omega)
    have hx2 : ∀ o, m3.corner (x2.1, o) = m2.corner (x2.1, o) :=
      F2.apart x2.1 (by rw [i1]; exact hx) (by rw [i1]; exact ne.symm) ⟨_, i2⟩
    refine ⟨m3, x2, ?_, ?_, i1, ?_, ?_, by omega⟩
    · rw [hrun, r1, Outcome.bind_ok, r2, Outcome.bind_ok]
    · constructor
      · exact F2.linked
      · exact F2.flat
      · exact F2.segmented
      · refine KeepsSubs.trans ?_ (F1.kept.trans F2.kept)
        intro y p r hy hs
        exact flip_keep h q g hy (by rintro rfl; exact hs h0) (by rintro rfl; exact hs ht0)
      · exact (F2.back.trans F1.back).trans (flip_keeps_back h q g h0 ht0)
      · intro y v A B hy
        rcases F2.tri y v A B hy with k | k | k | hy
        iterate 3 simp [k]
        rcases F1.tri y v A B hy with k | k | k | hy
        iterate 3 simp [k]
        rcases flip_tri h q hy with ⟨k, -, -⟩ | ⟨-, -, k⟩ | ⟨-, k, -⟩ | ⟨k, -, -⟩ | ⟨-, k, -⟩ | ⟨k, -, -⟩ | ⟨-, -, k⟩
        · exact Or.inr (Or.inr (Or.inr k))
        all_goals simp [k]
      · intro v w hv
        rcases F2.adj v w hv with k | k | hv
        iterate 2 simp [k]
        rcases F1.adj v w hv with k | k | hv
        iterate 2 simp [k]
        rcases flip_adj h q hv with ⟨k, -, -⟩ | ⟨k, -⟩ | ⟨-, k⟩
        · exact Or.inr (Or.inr k)
        all_goals simp [k]
      · intro v hv
        exact F2.star _ (F1.star _ (flip_stays h q true hv (fun hh => q.ac hh.1.symm) (fun hh => q.bc hh.1.symm)))
      · intro v w hv
        obtain ⟨w1, k1⟩ := flip_verts h q true hv
        obtain ⟨w2, k2⟩ := F1.verts _ _ k1
        exact F2.verts _ _ k2
      · intro v w
        exact ((F2.lone v w).trans (F1.lone v w)).trans (flip_lone h q true v w)
      · rintro t hl hne ⟨o, ho⟩ o'
        have k2 : t ≠ (m.nbr (lnext x)).1 := by
          rintro rfl
          rcases q.corner_t h (x := ((m.nbr (lnext x)).1, o)) rfl ho with k | k | k
          exacts [q.ac k.symm, q.bc k.symm, q.cd k]
        have e1 : ∀ o, (m.flip true (lnext x)).corner (t, o) = m.corner (t, o) := fun o => cc7 (t, o) hne k2
        have e2 := F1.apart t hl hne ⟨o, by rw [e1]; exact ho⟩
        have e3 := F2.apart t hl k2 ⟨o, by rw [e2, e1]; exact ho⟩
        rw [e3, e2, e1]
      · intro y hy hcy
        rcases F2.settled y hy hcy with k | ⟨k1, k2, k3⟩
        · exact Or.inl k
        rcases F1.settled y hy k2 with k | ⟨l1, l2, l3⟩
        · exact absurd k k3
        right
        have o1 : y.1 ≠ (lnext x).1 := by
          intro hh
          have l2 : (m.flip true (lnext x)).corner y = some nv := l2
          rcases handle_cases (lnext x) y hh with rfl | rfl | rfl
          · rw [cc1] at l2; cases l2; exact q.ac rfl
          · rw [cc2] at l2; cases l2; exact q.cd rfl
          · rw [lprev_lnext] at l1; exact l1 rfl
        have o2 : y.1 ≠ (m.nbr (lnext x)).1 := by
          intro hh
          have l2 : (m.flip true (lnext x)).corner y = some nv := l2
          rcases handle_cases (m.nbr (lnext x)) y hh with rfl | rfl | rfl
          · rw [cc4] at l2; cases l2; exact q.bc rfl
          · exact k1 rfl
          · rw [cc6] at l2; cases l2; exact q.cd rfl
        have hcm : m.corner y = some nv := by rw [← cc7 y o1 o2]; exact l2
        have hne : y ≠ lnext x := by rintro rfl; exact o1 rfl
        exact ⟨hne, hcm, fun hS => l3 (flip_settled h f q true (fun _ => g) hy hcm hne hS)⟩
    · exact (hx2 _).trans i2
    · refine (hx2 _).trans (i3.trans ?_)
      rw [lprev_lprev, cc1]
      have := q.e1
      rw [lnext_lnext] at this
      exact this.symm

end Delynoi.Tri
