import Verif.Proofs.TriInsert6
/-! # Splitting an edge: the mesh afterwards -/
set_option linter.unusedSectionVars false
namespace Delynoi.Tri
section
variable {m : Heap} {L : Nat → Prop} {e : Otri} {nr nt nv b r l d : Nat} {tp : Bool} (h : Linked m L)
  (s : EdgeAt m L e nr nt nv b r l d tp)

/-- The edges from the new vertex. -/
def edgeOut (m : Heap) (e : Otri) (nr nt b r l d : Nat) (tp : Bool) (w : Nat) (x : Otri) : Prop :=
  (w = l ∧ x = e) ∨ (w = b ∧ x = (nr, 2)) ∨ (tp = true ∧ w = d ∧ x = lnext (m.nbr e)) ∨ (tp = true ∧ w = r ∧ x = (nt, 2))
/-- The edges to the new vertex. -/
def edgeIn (m : Heap) (e : Otri) (nr nt b r l d : Nat) (tp : Bool) (w : Nat) (x : Otri) : Prop :=
  (w = b ∧ x = lprev e) ∨ (w = r ∧ x = (nr, 1)) ∨ (tp = true ∧ w = l ∧ x = m.nbr e) ∨ (tp = true ∧ w = d ∧ x = (nt, 1))

include h s

theorem EdgeAt.nv_ne_d (ht : tp = true) : nv ≠ d := by
  rintro rfl
  exact (s.fresh _ _).1 (Tri3.dirs (s.top ht).2.1).2.1

theorem splitEdge_tri (cs : Bool) {x : Otri} {v A B : Nat} (hx : (m.splitEdge cs nr nt nv e).Tri3 (WithE L nr nt tp) x v A B) :
    (m.Tri3 L x v A B ∧ x.1 ≠ e.1 ∧ (tp = true → x.1 ≠ (m.nbr e).1)) ∨
    (x = e ∧ v = b ∧ A = nv ∧ B = l) ∨ (x = lnext e ∧ v = nv ∧ A = l ∧ B = b) ∨ (x = lprev e ∧ v = l ∧ A = b ∧ B = nv) ∨
    (x = (nr, 0) ∧ v = nv ∧ A = b ∧ B = r) ∨ (x = (nr, 1) ∧ v = b ∧ A = r ∧ B = nv) ∨ (x = (nr, 2) ∧ v = r ∧ A = nv ∧ B = b) ∨
    (tp = true ∧ ((x = m.nbr e ∧ v = d ∧ A = l ∧ B = nv) ∨ (x = lnext (m.nbr e) ∧ v = l ∧ A = nv ∧ B = d) ∨
      (x = lprev (m.nbr e) ∧ v = nv ∧ A = d ∧ B = l) ∨
      (x = (nt, 0) ∧ v = nv ∧ A = r ∧ B = d) ∨ (x = (nt, 1) ∧ v = r ∧ A = d ∧ B = nv) ∨ (x = (nt, 2) ∧ v = d ∧ A = nv ∧ B = r))) := by
  obtain ⟨c1, c2, c3, c4, c5, c6, c7, c8⟩ := splitEdge_corner h s cs
  obtain ⟨hl, x1, x2, x3⟩ := tri3_iff.1 hx
  by_cases he : x.1 = e.1
  · right
    rcases handle_cases e x he with rfl | rfl | rfl <;>
      simp only [lnext_lnext, lnext_lprev, lprev_lnext, lprev_lprev, c1, c2, c3, Option.some.injEq] at x1 x2 x3 <;>
      subst x1 x2 x3 <;> simp
  by_cases h1 : x.1 = nr
  · right; right; right; right
    obtain ⟨t, o⟩ := x
    simp only at h1; subst h1
    rcases (by decide : ∀ o : Fin 3, o = 0 ∨ o = 1 ∨ o = 2) o with rfl | rfl | rfl <;>
      simp only [lnext, lprev] at x2 x3 <;> simp only [Fin.reduceAdd, c4, c5, c6, Option.some.injEq] at x1 x2 x3 <;>
      subst x1 x2 x3 <;> simp
  by_cases h2 : tp = true ∧ x.1 = (m.nbr e).1
  · obtain ⟨ht, h2⟩ := h2
    obtain ⟨u1, u2, u3, u4, u5, u6⟩ := c7 ht
    right; right; right; right; right; right; right; refine ⟨ht, ?_⟩
    rcases handle_cases (m.nbr e) x h2 with rfl | rfl | rfl <;>
      simp only [lnext_lnext, lnext_lprev, lprev_lnext, lprev_lprev, u1, u2, u3, Option.some.injEq] at x1 x2 x3 <;>
      subst x1 x2 x3 <;> simp
  by_cases h3 : tp = true ∧ x.1 = nt
  · obtain ⟨ht, h3⟩ := h3
    obtain ⟨u1, u2, u3, u4, u5, u6⟩ := c7 ht
    right; right; right; right; right; right; right; refine ⟨ht, ?_⟩
    obtain ⟨t, o⟩ := x
    simp only at h3; subst h3
    rcases (by decide : ∀ o : Fin 3, o = 0 ∨ o = 1 ∨ o = 2) o with rfl | rfl | rfl <;>
      simp only [lnext, lprev] at x2 x3 <;> simp only [Fin.reduceAdd, u4, u5, u6, Option.some.injEq] at x1 x2 x3 <;>
      subst x1 x2 x3 <;> simp
  left
  have hh : tp = true → x.1 ≠ (m.nbr e).1 ∧ x.1 ≠ nt := fun ht => ⟨fun h0 => h2 ⟨ht, h0⟩, fun h0 => h3 ⟨ht, h0⟩⟩
  rw [c8 x he h1 hh] at x1
  rw [c8 (lnext x) he h1 hh] at x2
  rw [c8 (lprev x) he h1 hh] at x3
  have : L x.1 := by rcases hl with hl | hl | hl; exacts [hl, absurd hl h1, absurd hl h3]
  exact ⟨tri3_iff.2 ⟨this, x1, x2, x3⟩, he, fun ht => (hh ht).1⟩

theorem splitEdge_tris (cs : Bool) :
    (m.splitEdge cs nr nt nv e).Tri3 (WithE L nr nt tp) e b nv l ∧
    (m.splitEdge cs nr nt nv e).Tri3 (WithE L nr nt tp) (nr, 0) nv b r ∧
    (tp = true → (m.splitEdge cs nr nt nv e).Tri3 (WithE L nr nt tp) (m.nbr e) d l nv ∧
      (m.splitEdge cs nr nt nv e).Tri3 (WithE L nr nt tp) (nt, 0) nv r d) ∧
    ∀ x v A B, x.1 ≠ e.1 → (tp = true → x.1 ≠ (m.nbr e).1) → m.Tri3 L x v A B →
      (m.splitEdge cs nr nt nv e).Tri3 (WithE L nr nt tp) x v A B := by
  obtain ⟨c1, c2, c3, c4, c5, c6, c7, c8⟩ := splitEdge_corner h s cs
  refine ⟨tri3_iff.2 ⟨Or.inl s.tri.1, c1, c2, c3⟩, ⟨Or.inr (Or.inl rfl), c4, c5, c6⟩, ?_, ?_⟩
  · intro ht
    obtain ⟨u1, u2, u3, u4, u5, u6⟩ := c7 ht
    exact ⟨tri3_iff.2 ⟨Or.inl (s.top ht).2.1.1, u1, u2, u3⟩, ⟨Or.inr (Or.inr ⟨ht, rfl⟩), u4, u5, u6⟩⟩
  rintro x v A B he h3 ⟨x1, x2, x3, x4⟩
  have h1 : x.1 ≠ nr := fun h0 => s.hnl (h0 ▸ x1)
  have h2 : tp = true → x.1 ≠ (m.nbr e).1 ∧ x.1 ≠ nt := fun ht => ⟨h3 ht, fun h0 => s.hnr (h0 ▸ x1)⟩
  exact ⟨Or.inl x1, by rw [c8 x he h1 h2]; exact x2, by rw [c8 (x.1, x.2 + 1) he h1 h2]; exact x3,
    by rw [c8 (x.1, x.2 + 2) he h1 h2]; exact x4⟩

theorem splitEdge_live {x : Otri} (hx : WithE L nr nt tp x.1) (cs : Bool) : ∃ u, (m.splitEdge cs nr nt nv e).corner x = some u := by
  obtain ⟨c1, c2, c3, c4, c5, c6, c7, c8⟩ := splitEdge_corner h s cs
  by_cases he : x.1 = e.1
  · rcases handle_cases e x he with rfl | rfl | rfl
    exacts [⟨_, c1⟩, ⟨_, c2⟩, ⟨_, c3⟩]
  by_cases h1 : x.1 = nr
  · obtain ⟨t, o⟩ := x
    simp only at h1; subst h1
    rcases (by decide : ∀ o : Fin 3, o = 0 ∨ o = 1 ∨ o = 2) o with rfl | rfl | rfl
    exacts [⟨_, c4⟩, ⟨_, c5⟩, ⟨_, c6⟩]
  by_cases h2 : tp = true ∧ x.1 = (m.nbr e).1
  · obtain ⟨ht, h2⟩ := h2
    obtain ⟨u1, u2, u3, u4, u5, u6⟩ := c7 ht
    rcases handle_cases (m.nbr e) x h2 with rfl | rfl | rfl
    exacts [⟨_, u1⟩, ⟨_, u2⟩, ⟨_, u3⟩]
  by_cases h3 : tp = true ∧ x.1 = nt
  · obtain ⟨ht, h3⟩ := h3
    obtain ⟨u1, u2, u3, u4, u5, u6⟩ := c7 ht
    obtain ⟨t, o⟩ := x
    simp only at h3; subst h3
    rcases (by decide : ∀ o : Fin 3, o = 0 ∨ o = 1 ∨ o = 2) o with rfl | rfl | rfl
    exacts [⟨_, u4⟩, ⟨_, u5⟩, ⟨_, u6⟩]
  rw [c8 x he h1 fun ht => ⟨fun h0 => h2 ⟨ht, h0⟩, fun h0 => h3 ⟨ht, h0⟩⟩]
  have : L x.1 := by rcases hx with hl | hl | hl; exacts [hl, absurd hl h1, absurd hl h3]
  exact h.corners x.1 this x.2

/-- `edgeMap` on the edges of the two triangles, and on the others. -/
theorem edgeMap_eq : edgeMap m e nr nt e = e ∧ edgeMap m e nr nt (lnext e) = lnext e ∧ edgeMap m e nr nt (lprev e) = (nr, 0) ∧
    (tp = true → edgeMap m e nr nt (m.nbr e) = m.nbr e ∧ edgeMap m e nr nt (lnext (m.nbr e)) = (nt, 0) ∧
      edgeMap m e nr nt (lprev (m.nbr e)) = lprev (m.nbr e)) ∧
    (∀ y : Otri, L y.1 → y.1 ≠ e.1 → (tp = true → y.1 ≠ (m.nbr e).1) → edgeMap m e nr nt y = y) ∧ edgeMap m e nr nt (0, 0) = (0, 0) := by
  have k4 := s.top_ne h
  have e0 := s.e0 h
  have d1 : ∀ y : Otri, y.1 = e.1 → y ≠ lnext (m.nbr e) := by rintro y h1 rfl; exact k4 h1
  have d2 : ∀ y : Otri, y.1 = (m.nbr e).1 → y ≠ lprev e := by rintro y h1 rfl; exact k4 h1.symm
  have z2 : ((0, 0) : Otri) ≠ lprev e := fun h0 => e0 (congrArg Prod.fst h0).symm
  refine ⟨?_, ?_, ?_, ?_, ?_, ?_⟩
  · simp [edgeMap, (lprev_ne e).symm, d1 e rfl]
  · simp [edgeMap, lnext_ne_lprev e, d1 (lnext e) rfl]
  · simp [edgeMap]
  · intro ht
    refine ⟨?_, ?_, ?_⟩
    · simp [edgeMap, d2 (m.nbr e) rfl, (lnext_ne (m.nbr e)).symm]
    · simp [edgeMap, d2 (lnext (m.nbr e)) rfl]
    · simp [edgeMap, d2 (lprev (m.nbr e)) rfl, (lnext_ne_lprev (m.nbr e)).symm]
  · intro y hy h1 h2
    have k1 : y ≠ lprev e := fun h0 => h1 (by rw [h0]; rfl)
    have k2 : y ≠ lnext (m.nbr e) := by
      rintro rfl
      cases tp with
      | false => rw [s.hull rfl] at hy; exact h.dummy hy
      | true => exact h2 rfl rfl
    simp [edgeMap, k1, k2]
  · by_cases hz : m.nbr e = (0, 0)
    · have : ((0, 0) : Otri) ≠ lnext (0, 0) := by decide
      simp [edgeMap, z2, hz, this]
    · have : ((0, 0) : Otri) ≠ lnext (m.nbr e) := by
        intro h0
        have := (h.across s.tri.1 hz).1
        rw [← show (lnext (m.nbr e)).1 = (m.nbr e).1 from rfl, ← h0] at this
        exact h.dummy this
      simp [edgeMap, z2, this]

theorem splitEdge_starred (cs : Bool) :
    Starred m L (m.splitEdge cs nr nt nv e) (WithE L nr nt tp) (fun y => y = e ∨ y = m.nbr e) (edgeMap m e nr nt) nv
      (edgeOut m e nr nt b r l d tp) (edgeIn m e nr nt b r l d tp) where
  dummy := by
    rintro (h0 | h0 | ⟨-, h0⟩)
    · exact h.dummy h0
    · exact s.zl h0.symm
    · exact s.zr h0.symm
  corners := fun t ht o => splitEdge_live h s (x := (t, o)) ht cs
  fresh := s.fresh
  dir := by
    obtain ⟨T0, T1, T2, T3⟩ := splitEdge_tris h s cs
    obtain ⟨D1, D2, D3⟩ := Tri3.dirs s.tri
    obtain ⟨E1, E2, E3⟩ := Tri3.dirs T0
    obtain ⟨F1, F2, F3⟩ := Tri3.dirs T1
    obtain ⟨m1, m2, m3, m4, m5, -⟩ := edgeMap_eq h s
    have k4 := s.top_ne h
    intro x v w
    constructor
    · intro hx
      obtain ⟨u, hu⟩ := splitEdge_live h s hx.1 cs
      rcases splitEdge_tri h s cs (x := x) (v := u) (A := v) (B := w) ⟨hx.1, hu, hx.2.1, hx.2.2⟩ with ⟨k, he, ht⟩ | ⟨rfl, -, rfl, rfl⟩ |
        ⟨rfl, -, rfl, rfl⟩ | ⟨rfl, -, rfl, rfl⟩ | ⟨rfl, -, rfl, rfl⟩ | ⟨rfl, -, rfl, rfl⟩ | ⟨rfl, -, rfl, rfl⟩ |
        ⟨ht, ⟨rfl, -, rfl, rfl⟩ | ⟨rfl, -, rfl, rfl⟩ | ⟨rfl, -, rfl, rfl⟩ | ⟨rfl, -, rfl, rfl⟩ | ⟨rfl, -, rfl, rfl⟩ | ⟨rfl, -, rfl, rfl⟩⟩
      · left
        refine ⟨x, ?_, (m5 x k.1 he ht).symm, (Tri3.dirs k).1⟩
        rintro (rfl | rfl)
        · exact he rfl
        · cases tp with
          | false => have := k.1; rw [s.hull rfl] at this; exact h.dummy this
          | true => exact ht rfl rfl
      · exact Or.inr (Or.inl ⟨rfl, Or.inl ⟨rfl, rfl⟩⟩)
      · refine Or.inl ⟨lnext e, ?_, m2.symm, D3⟩
        rintro (h0 | h0)
        · exact lnext_ne e h0
        · exact k4 (by rw [← h0]; rfl)
      · exact Or.inr (Or.inr ⟨rfl, Or.inl ⟨rfl, rfl⟩⟩)
      · refine Or.inl ⟨lprev e, ?_, m3.symm, D2⟩
        rintro (h0 | h0)
        · exact lprev_ne e h0
        · exact k4 (by rw [← h0]; rfl)
      · exact Or.inr (Or.inr ⟨rfl, Or.inr (Or.inl ⟨rfl, rfl⟩)⟩)
      · exact Or.inr (Or.inl ⟨rfl, Or.inr (Or.inl ⟨rfl, rfl⟩)⟩)
      · exact Or.inr (Or.inr ⟨rfl, Or.inr (Or.inr (Or.inl ⟨ht, rfl, rfl⟩))⟩)
      · exact Or.inr (Or.inl ⟨rfl, Or.inr (Or.inr (Or.inl ⟨ht, rfl, rfl⟩))⟩)
      · refine Or.inl ⟨lprev (m.nbr e), ?_, (m4 ht).2.2.symm, (Tri3.dirs (s.top ht).2.1).2.1⟩
        rintro (h0 | h0)
        · have h1 := congrArg Prod.fst h0; exact k4 h1
        · exact lprev_ne _ h0
      · refine Or.inl ⟨lnext (m.nbr e), ?_, (m4 ht).2.1.symm, (Tri3.dirs (s.top ht).2.1).2.2⟩
        rintro (h0 | h0)
        · have h1 := congrArg Prod.fst h0; exact k4 h1
        · exact lnext_ne _ h0
      · exact Or.inr (Or.inr ⟨rfl, Or.inr (Or.inr (Or.inr ⟨ht, rfl, rfl⟩))⟩)
      · exact Or.inr (Or.inl ⟨rfl, Or.inr (Or.inr (Or.inr ⟨ht, rfl, rfl⟩))⟩)
    · have same : ∀ {y p q p' q'}, m.Dir L y p q → m.Dir L y p' q' → p = p' ∧ q = q' := by
        intro y p q p' q' i j
        have e1 := i.2.1.symm.trans j.2.1
        have e2 := i.2.2.symm.trans j.2.2
        cases e1; cases e2; exact ⟨rfl, rfl⟩
      rintro (⟨y, hR, rfl, hy⟩ | ⟨rfl, ⟨rfl, rfl⟩ | ⟨rfl, rfl⟩ | ⟨ht, rfl, rfl⟩ | ⟨ht, rfl, rfl⟩⟩ |
        ⟨rfl, ⟨rfl, rfl⟩ | ⟨rfl, rfl⟩ | ⟨ht, rfl, rfl⟩ | ⟨ht, rfl, rfl⟩⟩)
      · by_cases he : y.1 = e.1
        · rcases handle_cases e y he with rfl | rfl | rfl
          · exact absurd (Or.inl rfl) hR
          · obtain ⟨rfl, rfl⟩ := same hy D3
            rw [m2]; exact E3
          · obtain ⟨rfl, rfl⟩ := same hy D2
            rw [m3]; exact F1
        by_cases hT : tp = true ∧ y.1 = (m.nbr e).1
        · obtain ⟨ht, hT⟩ := hT
          obtain ⟨A1, A2, A3⟩ := Tri3.dirs (s.top ht).2.1
          rcases handle_cases (m.nbr e) y hT with rfl | rfl | rfl
          · exact absurd (Or.inr rfl) hR
          · obtain ⟨rfl, rfl⟩ := same hy A3
            rw [(m4 ht).2.1]; exact (Tri3.dirs (T2 ht).2).1
          · obtain ⟨rfl, rfl⟩ := same hy A2
            rw [(m4 ht).2.2]; exact (Tri3.dirs (T2 ht).1).2.1
        · have hT' : tp = true → y.1 ≠ (m.nbr e).1 := fun ht h0 => hT ⟨ht, h0⟩
          obtain ⟨u, hu⟩ := h.corners y.1 hy.1 y.2
          rw [m5 y hy.1 he hT']
          exact (Tri3.dirs (T3 y u v w he hT' ⟨hy.1, hu, hy.2.1, hy.2.2⟩)).1
      · exact E1
      · exact F2
      · exact (Tri3.dirs (T2 ht).1).2.2
      · exact (Tri3.dirs (T2 ht).2).2.1
      · exact E2
      · exact F3
      · exact (Tri3.dirs (T2 ht).1).1
      · exact (Tri3.dirs (T2 ht).2).2.2
  nbr0 := by
    intro y hy _ hn
    rw [(splitEdge_nbr h s cs).2.2.2.2 y hy, hn]
    exact (edgeMap_eq h s).2.2.2.2.2
  nbr := by
    intro y hy hR hn
    refine ⟨?_, (splitEdge_nbr h s cs).2.2.2.2 y hy⟩
    have hi := (h.across hy hn).2.1
    rintro (h0 | h0)
    · rw [h0] at hi; exact hR (Or.inr hi.symm)
    · rw [h0] at hi
      by_cases hz : m.nbr e = (0, 0)
      · rw [h0, hz] at hn; exact hn rfl
      · rw [(h.across s.tri.1 hz).2.1] at hi; exact hR (Or.inl hi.symm)
  outFun := by
    have n1 := s.rl; have n2 := s.lb; have n3 := s.br
    rintro w x x' (⟨h0, rfl⟩ | ⟨h0, rfl⟩ | ⟨ht, h0, rfl⟩ | ⟨ht, h0, rfl⟩) (⟨h1, rfl⟩ | ⟨h1, rfl⟩ | ⟨ht', h1, rfl⟩ | ⟨ht', h1, rfl⟩) <;>
      first | rfl | omega | (obtain ⟨-, -, q1, q2, q3⟩ := s.top ‹tp = true›; omega)
  inFun := by
    have n1 := s.rl; have n2 := s.lb; have n3 := s.br
    rintro w x x' (⟨h0, rfl⟩ | ⟨h0, rfl⟩ | ⟨ht, h0, rfl⟩ | ⟨ht, h0, rfl⟩) (⟨h1, rfl⟩ | ⟨h1, rfl⟩ | ⟨ht', h1, rfl⟩ | ⟨ht', h1, rfl⟩) <;>
      first | rfl | omega | (obtain ⟨-, -, q1, q2, q3⟩ := s.top ‹tp = true›; omega)
  loop := by
    obtain ⟨n1, n2, n3⟩ := s.toSplitAt.nv_ne h
    have n4 := s.nv_ne_d h
    exact fun x => ⟨by rintro (⟨h1, -⟩ | ⟨h1, -⟩ | ⟨ht, h1, -⟩ | ⟨ht, h1, -⟩) <;> first | omega | exact n4 ht h1,
      by rintro (⟨h1, -⟩ | ⟨h1, -⟩ | ⟨ht, h1, -⟩ | ⟨ht, h1, -⟩) <;> first | omega | exact n4 ht h1⟩
  outNbr := by
    obtain ⟨b1, b2, b3, b4, b5⟩ := splitEdge_nbr h s cs
    obtain ⟨m1, m2, m3, m4, m5, m6⟩ := edgeMap_eq h s
    have n1 := s.rl; have n2 := s.lb; have n3 := s.br
    rintro w x (⟨rfl, rfl⟩ | ⟨rfl, rfl⟩ | ⟨ht, rfl, rfl⟩ | ⟨ht, rfl, rfl⟩)
    · have h1 := b5 x s.tri.1
      rw [m1] at h1
      cases tp with
      | false =>
        left
        rw [h1, s.hull rfl]
        refine ⟨m6, ?_⟩
        rintro y (⟨h0, -⟩ | ⟨h0, -⟩ | ⟨h0, -⟩ | ⟨h0, -⟩) <;> first | omega | cases h0
      | true =>
        right
        rw [h1, (m4 rfl).1]
        exact Or.inr (Or.inr (Or.inl ⟨rfl, rfl, rfl⟩))
    · right; rw [b1]; exact Or.inl ⟨rfl, rfl⟩
    · right; rw [(b4 ht).2.1]; exact Or.inr (Or.inr (Or.inr ⟨ht, rfl, rfl⟩))
    · right; rw [(b4 ht).2.2.1]; exact Or.inr (Or.inl ⟨rfl, rfl⟩)
  inNbr := by
    obtain ⟨b1, b2, b3, b4, b5⟩ := splitEdge_nbr h s cs
    obtain ⟨m1, m2, m3, m4, m5, m6⟩ := edgeMap_eq h s
    have n1 := s.rl; have n2 := s.lb; have n3 := s.br
    rintro w x (⟨rfl, rfl⟩ | ⟨rfl, rfl⟩ | ⟨ht, rfl, rfl⟩ | ⟨ht, rfl, rfl⟩)
    · right; rw [b2]; exact Or.inr (Or.inl ⟨rfl, rfl⟩)
    · cases tp with
      | false =>
        left
        rw [b3 rfl]
        refine ⟨rfl, ?_⟩
        rintro y (⟨h0, -⟩ | ⟨h0, -⟩ | ⟨h0, -⟩ | ⟨h0, -⟩) <;> first | omega | cases h0
      | true =>
        right
        rw [(b4 rfl).2.2.2]; exact Or.inr (Or.inr (Or.inr ⟨rfl, rfl, rfl⟩))
    · right
      have h1 := b5 (m.nbr e) (s.top ht).2.1.1
      rw [(m4 ht).1, (h.across s.tri.1 (s.top ht).1).2.1, m1] at h1
      rw [h1]; exact Or.inl ⟨rfl, rfl⟩
    · right; rw [(b4 ht).1]; exact Or.inr (Or.inr (Or.inl ⟨ht, rfl, rfl⟩))

theorem splitEdge_ring (cs : Bool) :
    Ring (m.splitEdge cs nr nt nv e) (WithE L nr nt tp) nv l (lnext e :: (nr, 0) :: if tp = true then [(nt, 0), lprev (m.nbr e)] else []) := by
  obtain ⟨c1, c2, c3, c4, c5, c6, c7, c8⟩ := splitEdge_corner h s cs
  obtain ⟨b1, b2, b3, b4, b5⟩ := splitEdge_nbr h s cs
  obtain ⟨v1, v2, v3⟩ := s.toSplitAt.nv_ne h
  have v4 := s.nv_ne_d h
  have l1 : lnext ((nr, 0) : Otri) = (nr, 1) := rfl
  have l2 : lprev ((nr, 0) : Otri) = (nr, 2) := rfl
  have l3 : lnext ((nt, 0) : Otri) = (nt, 1) := rfl
  have l4 : lprev ((nt, 0) : Otri) = (nt, 2) := rfl
  refine ⟨?_, ?_, ?_, ?_, ?_⟩
  · intro x
    constructor
    · intro hx
      simp only [List.mem_cons] at hx
      rcases hx with rfl | rfl | hx
      · exact ⟨Or.inl s.tri.1, c2⟩
      · exact ⟨Or.inr (Or.inl rfl), c4⟩
      · cases tp with
        | false => simp at hx
        | true =>
          simp at hx
          rcases hx with rfl | rfl
          · exact ⟨Or.inr (Or.inr ⟨rfl, rfl⟩), (c7 rfl).2.2.2.1⟩
          · exact ⟨Or.inl (s.top rfl).2.1.1, (c7 rfl).2.2.1⟩
    · rintro ⟨hl, hx⟩
      by_cases he : x.1 = e.1
      · rcases handle_cases e x he with rfl | rfl | rfl
        · rw [c1] at hx; cases hx; exact absurd rfl v1
        · simp
        · rw [c3] at hx; cases hx; exact absurd rfl v3
      by_cases h1 : x.1 = nr
      · obtain ⟨t, o⟩ := x
        simp only at h1; subst h1
        rcases (by decide : ∀ o : Fin 3, o = 0 ∨ o = 1 ∨ o = 2) o with rfl | rfl | rfl
        · simp
        · rw [c5] at hx; cases hx; exact absurd rfl v1
        · rw [c6] at hx; cases hx; exact absurd rfl v2
      by_cases h2 : tp = true ∧ x.1 = (m.nbr e).1
      · obtain ⟨ht, h2⟩ := h2
        obtain ⟨u1, u2, u3, u4, u5, u6⟩ := c7 ht
        rcases handle_cases (m.nbr e) x h2 with rfl | rfl | rfl
        · rw [u1] at hx; cases hx; exact absurd rfl (v4 ht)
        · rw [u2] at hx; cases hx; exact absurd rfl v3
        · simp [ht]
      by_cases h3 : tp = true ∧ x.1 = nt
      · obtain ⟨ht, h3⟩ := h3
        obtain ⟨u1, u2, u3, u4, u5, u6⟩ := c7 ht
        obtain ⟨t, o⟩ := x
        simp only at h3; subst h3
        rcases (by decide : ∀ o : Fin 3, o = 0 ∨ o = 1 ∨ o = 2) o with rfl | rfl | rfl
        · simp [ht]
        · rw [u5] at hx; cases hx; exact absurd rfl v2
        · rw [u6] at hx; cases hx; exact absurd rfl (v4 ht)
      exfalso
      rw [c8 x he h1 fun ht => ⟨fun h0 => h2 ⟨ht, h0⟩, fun h0 => h3 ⟨ht, h0⟩⟩] at hx
      have hl : L x.1 := by rcases hl with hl | hl | hl; exacts [hl, absurd hl h1, absurd hl h3]
      obtain ⟨w, hw⟩ := h.corners x.1 hl (lprev x).2
      refine (s.fresh (lnext x) w).2 (dir_iff.2 ⟨hl, ?_, ?_⟩)
      · rw [lnext_lnext]; exact hw
      · rw [lprev_lnext]; exact hx
  · have f : ∀ (x : Otri) (p : Nat × Fin 3), x.1 ≠ p.1 → x ≠ p := fun x p hh h0 => hh (by rw [h0])
    have i1 := f (lnext e) (nr, 0) s.el
    have i2 := f (lnext e) (nt, 0) s.er
    have i3 : lnext e ≠ lprev (m.nbr e) := fun h0 => s.top_ne h (by have := congrArg Prod.fst h0; simpa using this.symm)
    have i4 := (f (lprev (m.nbr e)) (nr, 0) (s.topr h)).symm
    have i5 := (f (lprev (m.nbr e)) (nt, 0) (s.topt h)).symm
    cases tp <;> simp [i1, i2, i3, i4, i5, s.lr]
  · cases tp with
    | false => simp [l1, lprev_lnext, c1, c5]
    | true =>
      obtain ⟨u1, u2, u3, u4, u5, u6⟩ := c7 rfl
      simp [l1, l2, l3, l4, lprev_lnext, lnext_lprev, c1, c5, c6, u5, u6, u1]
  · intro x hx; simp at hx; subst hx; rw [lnext_lnext]; exact c3
  · intro x hx
    cases tp with
    | false =>
      simp at hx; subst hx
      right; rw [l1]; exact b3 rfl
    | true =>
      simp at hx; subst hx
      left; rw [lprev_lprev]; exact (c7 rfl).2.1

end
end Delynoi.Tri
