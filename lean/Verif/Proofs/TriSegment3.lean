import Verif.Proofs.TriSegment2
import Mathlib.Data.List.Infix
/-! # `scoutsegment` -/
set_option linter.unusedSectionVars false
namespace Delynoi.Tri
variable {K : Type} [Field K] [LinearOrder K] [IsStrictOrderedRing K]
  {m m' : Heap} {L : Nat → Prop} {ts : List Nat} {pos : Nat → Pt K} {p : Pt K}

theorem dir_congr (e : m'.corner = m.corner) {x : Otri} {v w : Nat} : m'.Dir L x v w ↔ m.Dir L x v w := by
  unfold Heap.Dir; rw [e]

theorem tri3_congr (e : m'.corner = m.corner) {x : Otri} {v a b : Nat} : m'.Tri3 L x v a b ↔ m.Tri3 L x v a b := by
  unfold Heap.Tri3; rw [e]

theorem Ccw.congr (e : m'.corner = m.corner) (c : Ccw m L pos) : Ccw m' L pos :=
  fun x v a b t => c x v a b ((tri3_congr e).1 t)

theorem Clear.congr (e : m'.corner = m.corner) (c : Clear m L pos p) : Clear m' L pos p :=
  fun x v a b t => c x v a b ((tri3_congr e).1 t)

theorem Inside.congr (e : m'.corner = m.corner) (e2 : m'.nbr = m.nbr) (c : Inside m L pos p) : Inside m' L pos p :=
  fun x v w d hn => c x v w ((dir_congr e).1 d) (by rw [← e2]; exact hn)

theorem adj_congr (e : m'.corner = m.corner) {v w : Nat} : m'.Adj L v w ↔ m.Adj L v w := by
  unfold Heap.Adj; simp only [dir_congr e]

theorem OnWay.congr (e : m'.corner = m.corner) {a b : Nat} (h : OnWay m' L pos p a b) : OnWay m L pos p a b :=
  ⟨(adj_congr e).1 h.1, h.2⟩

/-- Nothing is taken away. -/
theorem Subbed.kept {s s' : Segs} (M : SegMesh s L) {x : Otri} {v w : Nat} {k : Int} (hx : L x.1) (b : Subbed s s' L x v w k) {y : Otri}
    (hy : L y.1) (hs : (s.mesh.sub y).1 ≠ 0) : s'.mesh.sub y = s.mesh.sub y := by
  by_cases h0 : (s.mesh.sub x).1 = 0
  · refine b.other y hy ?_ ?_
    · rintro rfl; exact hs h0
    · rintro rfl
      exact hs (M.segmented.neither x hx hy h0)
  · rw [(b.old h0).1]

theorem infix_pair {a b u u' : Nat} {l : List Nat} : [a, b] <:+: u :: u' :: l ↔ (a = u ∧ b = u') ∨ [a, b] <:+: u' :: l := by
  rw [List.infix_cons_iff]
  refine or_congr ?_ Iff.rfl
  rw [List.prefix_cons_iff]
  constructor
  · rintro (h | ⟨t, e, h⟩)
    · cases h
    · cases e
      rw [List.prefix_cons_iff] at h
      rcases h with h | ⟨t', e', -⟩
      · cases h
      · cases e'; exact ⟨rfl, rfl⟩
  · rintro ⟨rfl, rfl⟩
    exact Or.inr ⟨[b], rfl, by simp⟩

/-- One edge, then the rest of the path. -/
theorem paved_cons {s s1 s' : Segs} (M : SegMesh s L) {x : Otri} {v w u u' : Nat} {k : Int} {l : List Nat}
    (hd : s.mesh.Dir L x v w) (hu : (v = u ∧ w = u') ∨ (v = u' ∧ w = u)) (b : Subbed s s1 L x v w k) (P : Paved s1 s' L (u' :: l)) :
    Paved s s' L (u :: u' :: l) where
  nbr := P.nbr.trans b.nbr
  corner := P.corner.trans b.corner
  kept := by
    intro y hy hs
    have e := b.kept M hd.1 hy hs
    rw [← e]
    exact P.kept y hy (by rw [e]; exact hs)
  has := by
    intro a c hac
    rcases infix_pair.1 hac with ⟨rfl, rfl⟩ | hac
    · have hx := P.kept x hd.1 b.has
      refine ⟨x, ?_, by rw [hx]; exact b.has⟩
      rw [dir_congr (P.corner.trans b.corner), dir_congr (P.corner.trans b.corner)]
      rcases hu with ⟨rfl, rfl⟩ | ⟨rfl, rfl⟩
      · exact Or.inl hd
      · exact Or.inr hd
    · exact P.has a c hac
  only := by
    intro y a c hy hne
    by_cases h1 : s'.mesh.sub y = s1.mesh.sub y
    · by_cases e1 : y = x
      · subst e1
        obtain ⟨rfl, rfl⟩ := hy.uniq hd
        rcases hu with ⟨rfl, rfl⟩ | ⟨rfl, rfl⟩
        · exact Or.inl (infix_pair.2 (Or.inl ⟨rfl, rfl⟩))
        · exact Or.inr (infix_pair.2 (Or.inl ⟨rfl, rfl⟩))
      · by_cases e2 : y = s.mesh.nbr x
        · have hl : L (s.mesh.nbr x).1 := e2 ▸ hy.1
          have h0' : s.mesh.nbr x ≠ (0, 0) := fun hh => by rw [hh] at hl; exact M.linked.dummy hl
          obtain ⟨-, -, v', w', d1, d2⟩ := M.linked.across hd.1 h0'
          obtain ⟨rfl, rfl⟩ := hd.uniq d1
          rw [← e2] at d2
          obtain ⟨rfl, rfl⟩ := hy.uniq d2
          rcases hu with ⟨rfl, rfl⟩ | ⟨rfl, rfl⟩
          · exact Or.inr (infix_pair.2 (Or.inl ⟨rfl, rfl⟩))
          · exact Or.inl (infix_pair.2 (Or.inl ⟨rfl, rfl⟩))
        · exact absurd (h1.trans (b.other y hy.1 e1 e2)) hne
    · rcases P.only y a c ((dir_congr b.corner).2 hy) h1 with h | h
      · exact Or.inl (infix_pair.2 (Or.inr h))
      · exact Or.inr (infix_pair.2 (Or.inr h))

theorem paved_single (s : Segs) (u : Nat) : Paved s s L [u] where
  nbr := rfl
  corner := rfl
  kept := fun _ _ _ => rfl
  has := by
    intro a b hab
    have := hab.length_le
    simp at this
  only := fun _ _ _ _ h => absurd rfl h

open Classical in
/-- The vertices that are nearer to the point. -/
noncomputable def nearer (m : Heap) (ts : List Nat) (pos : Nat → Pt K) (p : Pt K) (u : Nat) : Finset Nat :=
  (vertsOf m ts).filter fun q => distTo p (pos q) < distTo p (pos u)

theorem dist_line (u p : Pt K) (t : K) : distTo p (lineAt u p t) = (1 - t) ^ 2 * distTo p u := by
  simp only [distTo, lineAt]; ring

theorem dist_pos {u p : Pt K} (h : u ≠ p) : 0 < distTo p u := by
  rw [distTo]
  by_cases hx : p.x = u.x
  · have hy : p.y - u.y ≠ 0 := fun e => h (ptExt hx.symm (by linarith))
    have := mul_self_pos.2 hy
    have := mul_self_nonneg (p.x - u.x)
    linarith
  · have hx' : p.x - u.x ≠ 0 := fun e => hx (by linarith)
    have := mul_self_pos.2 hx'
    have := mul_self_nonneg (p.y - u.y)
    linarith

theorem nearer_lt {u u' : Nat} {t : K} (hu : pos u ≠ p) (h0 : 0 < t) (h1 : t < 1) (e : pos u' = lineAt (pos u) p t)
    (hm : u' ∈ vertsOf m ts) : (nearer m ts pos p u').card < (nearer m ts pos p u).card := by
  have hd : distTo p (pos u') < distTo p (pos u) := by
    rw [e, dist_line]
    have hd := dist_pos hu
    have h2 : (1 - t) ^ 2 < 1 := by nlinarith
    have := mul_lt_mul_of_pos_right h2 hd
    linarith
  refine Finset.card_lt_card ⟨fun q hq => ?_, fun hsub => ?_⟩
  · rw [nearer, Finset.mem_filter] at hq ⊢
    exact ⟨hq.1, hq.2.trans hd⟩
  · have : u' ∈ nearer m ts pos p u := by rw [nearer, Finset.mem_filter]; exact ⟨hm, hd⟩
    have := hsub this
    rw [nearer, Finset.mem_filter] at this
    exact lt_irrefl _ this.2

theorem scout_spec (si : Segs → Otri → Osub → Outcome (Segs × Otri)) (k : Int) {turns : Nat} (ht : 3 * ts.length ≤ turns) :
    ∀ (fuel : Nat) (s : Segs) (x : Otri) (u : Nat), SegMesh s (· ∈ ts) → Ccw s.mesh (· ∈ ts) pos → Inside s.mesh (· ∈ ts) pos p →
    Clear s.mesh (· ∈ ts) pos p → Star s.mesh (· ∈ ts) u x → pos u ≠ p → (nearer s.mesh ts pos p u).card < fuel →
    ∃ path s' w, List.IsChain (OnWay s.mesh (· ∈ ts) pos p) (u :: path) ∧ (u :: path).getLast? = some w ∧ SegMesh s' (· ∈ ts) ∧
      Paved s s' (· ∈ ts) (u :: path) ∧ ScoutEnd si pos p k turns (· ∈ ts) s' w (scoutsegment si pos p k turns fuel s x) := by
  intro fuel
  induction fuel with
  | zero => intro s x u M c hin hcl hx hu hf; omega
  | succ fuel ih =>
    intro s x u M c hin hcl hx hu hf
    rcases finddirection_spec (p := p) M.linked c ht hx (fun e => hu e.symm) with ⟨-, y, a, b, hd, hn, -, hlt⟩ | ⟨r, y, e, hto⟩
    · exact absurd (hin y a b hd hn) (not_le.2 hlt)
    -- the triangle found
    have htri : ∃ l rr, s.mesh.Tri3 (· ∈ ts) y l u rr := by
      cases r <;> exact ⟨hto.choose, hto.choose_spec.choose, hto.choose_spec.choose_spec.1⟩
    obtain ⟨l, rr, t⟩ := htri
    have hap : s.mesh.corner y = some l := t.2.1
    have hde : s.mesh.corner (lprev y) = some rr := t.2.2.2
    have hcc := c _ _ _ _ t
    rw [scoutsegment, e]
    simp only [Outcome.bind_ok, Heap.dest, Heap.apex, hap, hde, deref]
    by_cases hl : (pos l).x = p.x ∧ (pos l).y = p.y
    · have hlp : pos l = p := ptExt hl.1 hl.2
      simp only [hl, and_self, true_or, if_true]
      obtain ⟨s1, e1, M1, b1⟩ := insertsubseg_spec M t.prev.dir k
      rw [e1]
      refine ⟨[l], s1, l, ?_, rfl, M1, paved_cons M t.prev.dir (Or.inr ⟨rfl, rfl⟩) b1 (paved_single s1 l), Or.inl ⟨hlp, _, rfl⟩⟩
      rw [List.isChain_cons_cons]
      refine ⟨⟨⟨_, Or.inr t.prev.dir⟩, 1, one_pos, le_refl 1, ?_⟩, by simp⟩
      rw [hlp]; apply ptExt <;> simp [lineAt]
    by_cases hr : (pos rr).x = p.x ∧ (pos rr).y = p.y
    · have hrp : pos rr = p := ptExt hr.1 hr.2
      simp only [hl, hr, and_self, or_true, if_true, if_false]
      obtain ⟨s1, e1, M1, b1⟩ := insertsubseg_spec M t.dir k
      rw [e1]
      refine ⟨[rr], s1, rr, ?_, rfl, M1, paved_cons M t.dir (Or.inl ⟨rfl, rfl⟩) b1 (paved_single s1 rr), Or.inl ⟨hrp, _, rfl⟩⟩
      rw [List.isChain_cons_cons]
      refine ⟨⟨⟨_, Or.inl t.dir⟩, 1, one_pos, le_refl 1, ?_⟩, by simp⟩
      rw [hrp]; apply ptExt <;> simp [lineAt]
    have hno : ¬ (((pos l).x = p.x ∧ (pos l).y = p.y) ∨ ((pos rr).x = p.x ∧ (pos rr).y = p.y)) := by
      rintro (h | h)
      · exact hl h
      · exact hr h
    rw [if_neg hno]
    have npl : p ≠ pos l := fun e => hl (by rw [← e]; exact ⟨rfl, rfl⟩)
    have npr : p ≠ pos rr := fun e => hr (by rw [← e]; exact ⟨rfl, rfl⟩)
    -- not in this triangle
    have hout : 0 ≤ turn (pos l) (pos u) p → 0 ≤ turn (pos u) (pos rr) p → turn (pos rr) (pos l) p < 0 := by
      intro h1 h2
      by_contra h3
      rcases hcl _ _ _ _ t h1 h2 (not_lt.1 h3) with h | h | h
      · exact npl h
      · exact hu h.symm
      · exact npr h
    have next : ∀ (z : Otri) (v w u' : Nat) (z' : Otri) (tt : K), s.mesh.Dir (· ∈ ts) z v w → (v = u ∧ w = u') ∨ (v = u' ∧ w = u) →
        Star s.mesh (· ∈ ts) u' z' → 0 < tt → tt < 1 → pos u' = lineAt (pos u) p tt →
        ∃ path s' w, List.IsChain (OnWay s.mesh (· ∈ ts) pos p) (u :: path) ∧ (u :: path).getLast? = some w ∧ SegMesh s' (· ∈ ts) ∧
          Paved s s' (· ∈ ts) (u :: path) ∧ ScoutEnd si pos p k turns (· ∈ ts) s' w (do
            let s ← s.insertsubseg z k
            scoutsegment si pos p k turns fuel s z') := by
      intro z v w u' z' tt hz huv hz' h0 h1 he
      obtain ⟨s1, e1, M1, b1⟩ := insertsubseg_spec M hz k
      have hadj : s.mesh.Adj (· ∈ ts) u u' := by
        rcases huv with ⟨rfl, rfl⟩ | ⟨rfl, rfl⟩
        · exact ⟨z, Or.inl hz⟩
        · exact ⟨z, Or.inr hz⟩
      have hne : pos u' ≠ p := by
        intro hh
        have := dist_line (pos u) p tt
        rw [← he, hh] at this
        have h2 : distTo p p = 0 := by simp [distTo]
        rw [h2] at this
        have h3 := dist_pos hu
        have : 0 < (1 - tt) ^ 2 * distTo p (pos u) := mul_pos (pow_pos (by linarith) 2) h3
        linarith
      have hcard : (nearer s1.mesh ts pos p u').card < fuel := by
        have ev : vertsOf s1.mesh ts = vertsOf s.mesh ts := by unfold vertsOf; rw [b1.corner]
        have en : nearer s1.mesh ts pos p u' = nearer s.mesh ts pos p u' := by unfold nearer; rw [ev]
        rw [en]
        have := nearer_lt (m := s.mesh) (ts := ts) hu h0 h1 he (mem_vertsOf (x := lnext z') hz'.1 hz'.2)
        omega
      obtain ⟨path, s', w', c1, c2, c3, c4, c5⟩ := ih s1 z' u' M1 (c.congr b1.corner) (hin.congr b1.corner b1.nbr) (hcl.congr b1.corner)
        ⟨hz'.1, by rw [b1.corner]; exact hz'.2⟩ hne hcard
      refine ⟨u' :: path, s', w', ?_, ?_, c3, paved_cons M hz huv b1 c4, ?_⟩
      · rw [List.isChain_cons_cons]
        refine ⟨⟨hadj, tt, h0, h1.le, he⟩, c1.imp fun a b hab => hab.congr b1.corner⟩
      · rw [List.getLast?_cons_cons]; exact c2
      · rw [e1]; exact c5
    cases r with
    | leftCollinear =>
      obtain ⟨l', r', t', tt, h0, he⟩ := hto
      obtain ⟨rfl, -, rfl⟩ := t.uniq t'
      have h1 : tt < 1 := by
        have e1 : turn (pos u) (pos rr) (pos l) = tt * turn (pos u) (pos rr) p := by rw [he]; simp only [turn, lineAt]; ring
        have e2 : turn (pos u) (pos rr) (pos l) = turn (pos l) (pos u) (pos rr) := by simp only [turn]; ring
        have e3 : turn (pos l) (pos u) p = 0 := by rw [he]; simp only [turn, lineAt]; ring
        have h2 : 0 < turn (pos u) (pos rr) p := by
          have : 0 < tt * turn (pos u) (pos rr) p := by rw [← e1, e2]; exact hcc
          exact (pos_iff_pos_of_mul_pos this).1 h0
        have h3 := hout e3.ge h2.le
        have e4 : turn (pos rr) (pos l) p = (tt - 1) * turn (pos u) (pos rr) p := by rw [he]; simp only [turn, lineAt]; ring
        rw [e4] at h3
        by_contra hn
        have := mul_nonneg (sub_nonneg.2 (not_lt.1 hn)) h2.le
        linarith
      refine next (lprev y) l u l (lprev y) tt t.prev.dir (Or.inr ⟨rfl, rfl⟩) ⟨t.1, by rw [lnext_lprev]; exact hap⟩ h0 h1 he
    | rightCollinear =>
      obtain ⟨l', r', t', tt, h0, he⟩ := hto
      obtain ⟨rfl, -, rfl⟩ := t.uniq t'
      have h1 : tt < 1 := by
        have e1 : turn (pos l) (pos u) (pos rr) = tt * turn (pos l) (pos u) p := by rw [he]; simp only [turn, lineAt]; ring
        have e3 : turn (pos u) (pos rr) p = 0 := by rw [he]; simp only [turn, lineAt]; ring
        have h2 : 0 < turn (pos l) (pos u) p := by
          have : 0 < tt * turn (pos l) (pos u) p := by rw [← e1]; exact hcc
          exact (pos_iff_pos_of_mul_pos this).1 h0
        have h3 := hout h2.le e3.ge
        have e4 : turn (pos rr) (pos l) p = (tt - 1) * turn (pos l) (pos u) p := by rw [he]; simp only [turn, lineAt]; ring
        rw [e4] at h3
        by_contra hn
        have := mul_nonneg (sub_nonneg.2 (not_lt.1 hn)) h2.le
        linarith
      refine next y u rr rr (lnext y) tt t.dir (Or.inl ⟨rfl, rfl⟩) ⟨t.1, by rw [lnext_lnext]; exact hde⟩ h0 h1 he
    | within =>
      obtain ⟨l', r', t', h1, h2⟩ := hto
      obtain ⟨rfl, -, rfl⟩ := t.uniq t'
      have e1 : turn (pos l) (pos u) p = turn (pos u) p (pos l) := by simp only [turn]; ring
      have h3 := hout (by rw [e1]; exact h2.le) h1.le
      refine ⟨[], s, u, by simp, rfl, M, paved_single s u, Or.inr ⟨y, l, rr, t, h1, h2, h3, ?_⟩⟩
      by_cases hs : (s.mesh.sub (lnext y)).1 = 0
      · exact Or.inl ⟨hs, by simp only [Heap.tspivot, hs, if_true]⟩
      · exact Or.inr ⟨hs, fuel, by simp only [Heap.tspivot, hs, if_false]⟩

end Delynoi.Tri
