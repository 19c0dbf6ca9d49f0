import Verif.Proofs.TriInsert
/-! # Splitting a triangle: the mesh afterwards -/
set_option linter.unusedSectionVars false
namespace Delynoi.Tri
section
variable {m : Heap} {L : Nat → Prop} {e : Otri} {nl nr nv b r l : Nat} (h : Linked m L) (s : SplitAt m L e nl nr nv b r l)

/-- The edges from the new vertex. -/
def splitOut (e : Otri) (nl nr b r l : Nat) (w : Nat) (x : Otri) : Prop :=
  (w = l ∧ x = (nl, 2)) ∨ (w = b ∧ x = (nr, 2)) ∨ (w = r ∧ x = lprev e)
/-- The edges to the new vertex. -/
def splitIn (e : Otri) (nl nr b r l : Nat) (w : Nat) (x : Otri) : Prop :=
  (w = l ∧ x = lnext e) ∨ (w = b ∧ x = (nl, 1)) ∨ (w = r ∧ x = (nr, 1))

include h s

/-- The new vertex is none of the corners. -/
theorem SplitAt.nv_ne : nv ≠ b ∧ nv ≠ r ∧ nv ≠ l := by
  obtain ⟨t1, t2, t3⟩ := Tri3.dirs s.tri
  refine ⟨?_, ?_, ?_⟩ <;> rintro rfl
  · exact (s.fresh _ _).1 t2
  · exact (s.fresh _ _).1 t1
  · exact (s.fresh _ _).2 t1

theorem splitTriangle_tri (cs : Bool) {x : Otri} {v A B : Nat} (hx : (m.splitTriangle cs nl nr nv e).Tri3 (With L nl nr) x v A B) :
    (m.Tri3 L x v A B ∧ x.1 ≠ e.1) ∨
    (x = e ∧ v = nv ∧ A = r ∧ B = l) ∨ (x = lnext e ∧ v = r ∧ A = l ∧ B = nv) ∨ (x = lprev e ∧ v = l ∧ A = nv ∧ B = r) ∨
    (x = (nl, 0) ∧ v = nv ∧ A = l ∧ B = b) ∨ (x = (nl, 1) ∧ v = l ∧ A = b ∧ B = nv) ∨ (x = (nl, 2) ∧ v = b ∧ A = nv ∧ B = l) ∨
    (x = (nr, 0) ∧ v = nv ∧ A = b ∧ B = r) ∨ (x = (nr, 1) ∧ v = b ∧ A = r ∧ B = nv) ∨ (x = (nr, 2) ∧ v = r ∧ A = nv ∧ B = b) := by
  obtain ⟨c1, c2, c3, c4, c5, c6, c7, c8, c9, c10⟩ := splitTriangle_corner s cs
  obtain ⟨hl, x1, x2, x3⟩ := tri3_iff.1 hx
  by_cases he : x.1 = e.1
  · right
    rcases handle_cases e x he with rfl | rfl | rfl <;>
      simp only [lnext_lnext, lnext_lprev, lprev_lnext, lprev_lprev, c1, c2, c3, Option.some.injEq] at x1 x2 x3 <;>
      subst x1 x2 x3 <;> simp
  by_cases h1 : x.1 = nl
  · right; right; right; right
    obtain ⟨t, o⟩ := x
    simp only at h1; subst h1
    rcases (by decide : ∀ o : Fin 3, o = 0 ∨ o = 1 ∨ o = 2) o with rfl | rfl | rfl <;>
      simp only [lnext, lprev] at x2 x3 <;> simp only [Fin.reduceAdd, c4, c5, c6, Option.some.injEq] at x1 x2 x3 <;>
      subst x1 x2 x3 <;> simp
  by_cases h2 : x.1 = nr
  · right; right; right; right; right; right; right
    obtain ⟨t, o⟩ := x
    simp only at h2; subst h2
    rcases (by decide : ∀ o : Fin 3, o = 0 ∨ o = 1 ∨ o = 2) o with rfl | rfl | rfl <;>
      simp only [lnext, lprev] at x2 x3 <;> simp only [Fin.reduceAdd, c7, c8, c9, Option.some.injEq] at x1 x2 x3 <;>
      subst x1 x2 x3 <;> simp
  left
  rw [c10 x he h1 h2] at x1
  rw [c10 (lnext x) he h1 h2] at x2
  rw [c10 (lprev x) he h1 h2] at x3
  have : L x.1 := by rcases hl with hl | hl | hl; exacts [hl, absurd hl h1, absurd hl h2]
  exact ⟨tri3_iff.2 ⟨this, x1, x2, x3⟩, he⟩

theorem splitTriangle_tris (cs : Bool) :
    (m.splitTriangle cs nl nr nv e).Tri3 (With L nl nr) e nv r l ∧
    (m.splitTriangle cs nl nr nv e).Tri3 (With L nl nr) (nl, 0) nv l b ∧
    (m.splitTriangle cs nl nr nv e).Tri3 (With L nl nr) (nr, 0) nv b r ∧
    ∀ x v A B, x.1 ≠ e.1 → m.Tri3 L x v A B → (m.splitTriangle cs nl nr nv e).Tri3 (With L nl nr) x v A B := by
  obtain ⟨c1, c2, c3, c4, c5, c6, c7, c8, c9, c10⟩ := splitTriangle_corner s cs
  refine ⟨tri3_iff.2 ⟨Or.inl s.tri.1, c1, c2, c3⟩, ⟨Or.inr (Or.inl rfl), c4, c5, c6⟩, ⟨Or.inr (Or.inr rfl), c7, c8, c9⟩, ?_⟩
  rintro x v A B he ⟨x1, x2, x3, x4⟩
  have h1 : x.1 ≠ nl := fun h0 => s.hnl (h0 ▸ x1)
  have h2 : x.1 ≠ nr := fun h0 => s.hnr (h0 ▸ x1)
  exact ⟨Or.inl x1, by rw [c10 x he h1 h2]; exact x2, by rw [c10 (x.1, x.2 + 1) he h1 h2]; exact x3,
    by rw [c10 (x.1, x.2 + 2) he h1 h2]; exact x4⟩

theorem splitTriangle_starred (cs : Bool) :
    Starred m L (m.splitTriangle cs nl nr nv e) (With L nl nr) (fun _ => False) (splitMap e nl nr) nv (splitOut e nl nr b r l)
      (splitIn e nl nr b r l) where
  dummy := by
    rintro (h0 | h0 | h0)
    · exact h.dummy h0
    · exact s.zl h0.symm
    · exact s.zr h0.symm
  corners := by
    obtain ⟨c1, c2, c3, c4, c5, c6, c7, c8, c9, c10⟩ := splitTriangle_corner s cs
    intro t ht o
    by_cases he : t = e.1
    · rcases handle_cases e (t, o) he with hh | hh | hh <;> rw [hh]
      exacts [⟨_, c1⟩, ⟨_, c2⟩, ⟨_, c3⟩]
    by_cases h1 : t = nl
    · subst h1
      rcases (by decide : ∀ o : Fin 3, o = 0 ∨ o = 1 ∨ o = 2) o with rfl | rfl | rfl
      exacts [⟨_, c4⟩, ⟨_, c5⟩, ⟨_, c6⟩]
    by_cases h2 : t = nr
    · subst h2
      rcases (by decide : ∀ o : Fin 3, o = 0 ∨ o = 1 ∨ o = 2) o with rfl | rfl | rfl
      exacts [⟨_, c7⟩, ⟨_, c8⟩, ⟨_, c9⟩]
    rw [c10 (t, o) he h1 h2]
    refine h.corners t ?_ o
    rcases ht with ht | ht | ht; exacts [ht, absurd ht h1, absurd ht h2]
  fresh := s.fresh
  dir := by
    obtain ⟨T0, T1, T2, T3⟩ := splitTriangle_tris h s cs
    obtain ⟨D1, D2, D3⟩ := Tri3.dirs s.tri
    obtain ⟨E1, E2, E3⟩ := Tri3.dirs T0
    obtain ⟨F1, F2, F3⟩ := Tri3.dirs T1
    obtain ⟨G1, G2, G3⟩ := Tri3.dirs T2
    have d1 := lnext_ne_lprev e
    have n1 := lnext_ne e
    have n2 := lprev_ne e
    intro x v w
    constructor
    · intro hx
      obtain ⟨u, hu⟩ : ∃ u, (m.splitTriangle cs nl nr nv e).corner x = some u := by
        by_contra hc
        push Not at hc
        obtain ⟨c1, c2, c3, c4, c5, c6, c7, c8, c9, c10⟩ := splitTriangle_corner s cs
        by_cases he : x.1 = e.1
        · rcases handle_cases e x he with rfl | rfl | rfl
          exacts [hc _ c1, hc _ c2, hc _ c3]
        by_cases h1 : x.1 = nl
        · obtain ⟨t, o⟩ := x
          simp only at h1; subst h1
          rcases (by decide : ∀ o : Fin 3, o = 0 ∨ o = 1 ∨ o = 2) o with rfl | rfl | rfl
          exacts [hc _ c4, hc _ c5, hc _ c6]
        by_cases h2 : x.1 = nr
        · obtain ⟨t, o⟩ := x
          simp only at h2; subst h2
          rcases (by decide : ∀ o : Fin 3, o = 0 ∨ o = 1 ∨ o = 2) o with rfl | rfl | rfl
          exacts [hc _ c7, hc _ c8, hc _ c9]
        have hl : L x.1 := by rcases hx.1 with ht | ht | ht; exacts [ht, absurd ht h1, absurd ht h2]
        obtain ⟨u, hu⟩ := h.corners x.1 hl x.2
        exact hc u (by rw [c10 x he h1 h2]; exact hu)
      rcases splitTriangle_tri h s cs (x := x) (v := u) (A := v) (B := w) ⟨hx.1, hu, hx.2.1, hx.2.2⟩ with ⟨k, he⟩ | ⟨rfl, -, rfl, rfl⟩ |
        ⟨rfl, -, rfl, rfl⟩ | ⟨rfl, -, rfl, rfl⟩ | ⟨rfl, -, rfl, rfl⟩ | ⟨rfl, -, rfl, rfl⟩ | ⟨rfl, -, rfl, rfl⟩ |
        ⟨rfl, -, rfl, rfl⟩ | ⟨rfl, -, rfl, rfl⟩ | ⟨rfl, -, rfl, rfl⟩
      · left
        refine ⟨x, not_false, ?_, (Tri3.dirs k).1⟩
        have k1 : x ≠ lnext e := fun h0 => he (by rw [h0]; rfl)
        have k2 : x ≠ lprev e := fun h0 => he (by rw [h0]; rfl)
        simp [splitMap, k1, k2]
      · exact Or.inl ⟨x, not_false, by simp [splitMap, n1.symm, n2.symm], D1⟩
      · exact Or.inr (Or.inr ⟨rfl, Or.inl ⟨rfl, rfl⟩⟩)
      · exact Or.inr (Or.inl ⟨rfl, Or.inr (Or.inr ⟨rfl, rfl⟩)⟩)
      · exact Or.inl ⟨lnext e, not_false, by simp [splitMap], D3⟩
      · exact Or.inr (Or.inr ⟨rfl, Or.inr (Or.inl ⟨rfl, rfl⟩)⟩)
      · exact Or.inr (Or.inl ⟨rfl, Or.inl ⟨rfl, rfl⟩⟩)
      · exact Or.inl ⟨lprev e, not_false, by simp [splitMap, d1.symm], D2⟩
      · exact Or.inr (Or.inr ⟨rfl, Or.inr (Or.inr ⟨rfl, rfl⟩)⟩)
      · exact Or.inr (Or.inl ⟨rfl, Or.inr (Or.inl ⟨rfl, rfl⟩)⟩)
    · have same : ∀ {y p q p' q'}, m.Dir L y p q → m.Dir L y p' q' → p = p' ∧ q = q' := by
        intro y p q p' q' i j
        have e1 := i.2.1.symm.trans j.2.1
        have e2 := i.2.2.symm.trans j.2.2
        cases e1; cases e2; exact ⟨rfl, rfl⟩
      rintro (⟨y, -, rfl, hy⟩ | ⟨rfl, ⟨rfl, rfl⟩ | ⟨rfl, rfl⟩ | ⟨rfl, rfl⟩⟩ | ⟨rfl, ⟨rfl, rfl⟩ | ⟨rfl, rfl⟩ | ⟨rfl, rfl⟩⟩)
      · by_cases he : y.1 = e.1
        · rcases handle_cases e y he with rfl | rfl | rfl
          · obtain ⟨rfl, rfl⟩ := same hy D1
            simpa [splitMap, n1.symm, n2.symm] using E1
          · obtain ⟨rfl, rfl⟩ := same hy D3
            simpa [splitMap] using F1
          · obtain ⟨rfl, rfl⟩ := same hy D2
            simpa [splitMap, d1.symm] using G1
        · have k1 : y ≠ lnext e := fun h0 => he (by rw [h0]; rfl)
          have k2 : y ≠ lprev e := fun h0 => he (by rw [h0]; rfl)
          obtain ⟨u, hu⟩ := h.corners y.1 hy.1 y.2
          have := (Tri3.dirs (T3 y u v w he ⟨hy.1, hu, hy.2.1, hy.2.2⟩)).1
          simpa [splitMap, k1, k2] using this
      · exact F2
      · exact G2
      · exact E2
      · exact E3
      · exact F3
      · exact G3
  nbr0 := by
    intro y hy _ hn
    rw [(splitTriangle_nbr h s cs).2.2.2.2.2.2 y hy, hn]
    have e0 := s.e0 h
    have : ((0, 0) : Otri) ≠ lnext e := fun h0 => e0 (congrArg Prod.fst h0).symm
    have : ((0, 0) : Otri) ≠ lprev e := fun h0 => e0 (congrArg Prod.fst h0).symm
    simp [splitMap, *]
  nbr := fun y hy _ _ => ⟨not_false, (splitTriangle_nbr h s cs).2.2.2.2.2.2 y hy⟩
  outFun := by
    have n1 := s.rl; have n2 := s.lb; have n3 := s.br
    rintro w x x' (⟨rfl, rfl⟩ | ⟨rfl, rfl⟩ | ⟨rfl, rfl⟩) (⟨h1, rfl⟩ | ⟨h1, rfl⟩ | ⟨h1, rfl⟩) <;> first | rfl | omega
  inFun := by
    have n1 := s.rl; have n2 := s.lb; have n3 := s.br
    rintro w x x' (⟨rfl, rfl⟩ | ⟨rfl, rfl⟩ | ⟨rfl, rfl⟩) (⟨h1, rfl⟩ | ⟨h1, rfl⟩ | ⟨h1, rfl⟩) <;> first | rfl | omega
  loop := by
    obtain ⟨n1, n2, n3⟩ := s.nv_ne h
    exact fun x => ⟨by rintro (⟨h1, -⟩ | ⟨h1, -⟩ | ⟨h1, -⟩) <;> omega, by rintro (⟨h1, -⟩ | ⟨h1, -⟩ | ⟨h1, -⟩) <;> omega⟩
  outNbr := by
    obtain ⟨b1, b2, b3, b4, b5, b6, -⟩ := splitTriangle_nbr h s cs
    rintro w x (⟨rfl, rfl⟩ | ⟨rfl, rfl⟩ | ⟨rfl, rfl⟩) <;> right
    · rw [b3]; exact Or.inl ⟨rfl, rfl⟩
    · rw [b2]; exact Or.inr (Or.inl ⟨rfl, rfl⟩)
    · rw [b6]; exact Or.inr (Or.inr ⟨rfl, rfl⟩)
  inNbr := by
    obtain ⟨b1, b2, b3, b4, b5, b6, -⟩ := splitTriangle_nbr h s cs
    rintro w x (⟨rfl, rfl⟩ | ⟨rfl, rfl⟩ | ⟨rfl, rfl⟩) <;> right
    · rw [b4]; exact Or.inl ⟨rfl, rfl⟩
    · rw [b1]; exact Or.inr (Or.inl ⟨rfl, rfl⟩)
    · rw [b5]; exact Or.inr (Or.inr ⟨rfl, rfl⟩)

end
end Delynoi.Tri
