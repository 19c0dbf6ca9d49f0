import Verif.Proofs.TriMesh5
import Verif.Spec.TriInsert
/-! # Splitting a triangle: links -/
set_option linter.unusedSectionVars false
namespace Delynoi.Tri

/-- A mesh in which a vertex has been put: the old edges `y` (except `R`) are now the edges `ψ y`, the
edges `Out w` run from the new vertex to `w`, the edges `In w` from `w` to it. -/
structure Starred (m : Heap) (L : Nat → Prop) (m' : Heap) (L' : Nat → Prop) (R : Otri → Prop) (ψ : Otri → Otri) (nv : Nat)
    (Out In : Nat → Otri → Prop) : Prop where
  dummy : ¬ L' 0
  corners : ∀ t, L' t → ∀ o, ∃ v, m'.corner (t, o) = some v
  fresh : Fresh m L nv
  dir : ∀ x v w, m'.Dir L' x v w ↔ (∃ y, ¬ R y ∧ x = ψ y ∧ m.Dir L y v w) ∨ (v = nv ∧ Out w x) ∨ (w = nv ∧ In v x)
  nbr0 : ∀ y, L y.1 → ¬ R y → m.nbr y = (0, 0) → m'.nbr (ψ y) = (0, 0)
  nbr : ∀ y, L y.1 → ¬ R y → m.nbr y ≠ (0, 0) → ¬ R (m.nbr y) ∧ m'.nbr (ψ y) = ψ (m.nbr y)
  outFun : ∀ w x x', Out w x → Out w x' → x = x'
  inFun : ∀ w x x', In w x → In w x' → x = x'
  loop : ∀ x, ¬ Out nv x ∧ ¬ In nv x
  outNbr : ∀ w x, Out w x → (m'.nbr x = (0, 0) ∧ ∀ y, ¬ In w y) ∨ In w (m'.nbr x)
  inNbr : ∀ w x, In w x → (m'.nbr x = (0, 0) ∧ ∀ y, ¬ Out w y) ∨ Out w (m'.nbr x)

theorem Starred.linked {m m' : Heap} {L L' : Nat → Prop} {R : Otri → Prop} {ψ : Otri → Otri} {nv : Nat} {Out In : Nat → Otri → Prop}
    (h : Linked m L) (s : Starred m L m' L' R ψ nv Out In) : Linked m' L' where
  dummy := s.dummy
  corners := s.corners
  once := by
    intro x y v w hx hy
    rw [s.dir] at hx hy
    rcases hx with ⟨x', -, rfl, hx⟩ | ⟨rfl, hx⟩ | ⟨rfl, hx⟩ <;> rcases hy with ⟨y', -, rfl, hy⟩ | ⟨hv, hy⟩ | ⟨hw, hy⟩
    · rw [h.once _ _ _ _ hx hy]
    · exact absurd hx (hv ▸ (s.fresh x' w).1)
    · exact absurd hx (hw ▸ (s.fresh x' v).2)
    · exact absurd hy (s.fresh y' w).1
    · exact s.outFun _ _ _ hx hy
    · exact absurd hy (by rw [hw] at *; exact (s.loop _).2)
    · exact absurd hy (s.fresh y' v).2
    · exact absurd hy (by rw [hv] at *; exact (s.loop _).1)
    · exact s.inFun _ _ _ hx hy
  links := by
    intro x hx
    obtain ⟨v, hv⟩ := s.corners x.1 hx (x.2 + 1)
    obtain ⟨w, hw⟩ := s.corners x.1 hx (x.2 + 2)
    have hd : m'.Dir L' x v w := ⟨hx, hv, hw⟩
    have hd' := hd
    rw [s.dir] at hd'
    rcases hd' with ⟨y, hR, rfl, hy⟩ | ⟨rfl, ho⟩ | ⟨rfl, hi⟩
    · by_cases hn : m.nbr y = (0, 0)
      · exact Or.inl (s.nbr0 y hy.1 hR hn)
      · right
        obtain ⟨n1, n2⟩ := s.nbr y hy.1 hR hn
        obtain ⟨-, -, v', w', k1, k2⟩ := h.across hy.1 hn
        have e1 := k1.2.1.symm.trans hy.2.1
        have e2 := k1.2.2.symm.trans hy.2.2
        cases e1; cases e2
        exact ⟨v, w, hd, (s.dir _ _ _).2 (Or.inl ⟨m.nbr y, n1, n2, k2⟩)⟩
    · rcases s.outNbr _ _ ho with h0 | h0
      · exact Or.inl h0.1
      · exact Or.inr ⟨v, w, hd, (s.dir _ _ _).2 (Or.inr (Or.inr ⟨rfl, h0⟩))⟩
    · rcases s.inNbr _ _ hi with h0 | h0
      · exact Or.inl h0.1
      · exact Or.inr ⟨v, w, hd, (s.dir _ _ _).2 (Or.inr (Or.inl ⟨rfl, h0⟩))⟩
  complete := by
    intro x y v w hx hy
    rw [s.dir] at hx hy
    rcases hx with ⟨x', hR, rfl, hx⟩ | ⟨rfl, hx⟩ | ⟨rfl, hx⟩ <;> rcases hy with ⟨y', hR', rfl, hy⟩ | ⟨hv, hy⟩ | ⟨hw, hy⟩
    · have hn := h.complete _ _ _ _ hx hy
      have hne : m.nbr x' ≠ (0, 0) := by
        rw [hn]; intro h0; exact h.dummy (by have := hy.1; rw [h0] at this; exact this)
      rw [(s.nbr x' hx.1 hR hne).2, hn]
    · exact absurd hx (hv ▸ (s.fresh x' v).2)
    · exact absurd hx (hw ▸ (s.fresh x' w).1)
    · exact absurd hy (s.fresh y' w).2
    · exact absurd hx (by rw [hv] at *; exact (s.loop _).1)
    · rcases s.outNbr _ _ hx with h0 | h0
      · exact absurd hy (h0.2 _)
      · exact s.inFun _ _ _ h0 hy
    · exact absurd hy (s.fresh y' v).1
    · rcases s.inNbr _ _ hx with h0 | h0
      · exact absurd hy (h0.2 _)
      · exact s.outFun _ _ _ h0 hy
    · exact absurd hx (by rw [hw] at *; exact (s.loop _).2)

/-- The new vertex is put into a triangle with the corners `b`, `r`, `l`. -/
structure SplitAt (m : Heap) (L : Nat → Prop) (e : Otri) (nl nr nv b r l : Nat) : Prop where
  tri : m.Tri3 L e b r l
  hnl : ¬ L nl
  hnr : ¬ L nr
  zl : nl ≠ 0
  zr : nr ≠ 0
  lr : nl ≠ nr
  fresh : Fresh m L nv
  rl : r ≠ l
  lb : l ≠ b
  br : b ≠ r

/-- The triangles in use with two more. -/
def With (L : Nat → Prop) (nl nr : Nat) : Nat → Prop := fun t => L t ∨ t = nl ∨ t = nr

theorem movesub_corner (m : Heap) (x y : Otri) : (m.movesub x y).corner = m.corner := by
  unfold Heap.movesub; simp only; split_ifs <;> rfl
theorem movesub_nbr (m : Heap) (x y : Otri) : (m.movesub x y).nbr = m.nbr := by
  unfold Heap.movesub; simp only; split_ifs <;> rfl

section
variable {m : Heap} {L : Nat → Prop} {e : Otri} {nl nr nv b r l : Nat}

theorem splitTriangle_corner_eq (cs : Bool) : (m.splitTriangle cs nl nr nv e).corner =
    (let c : Otri → Option Nat := fun x => if x.1 = nr then none else if x.1 = nl then none else m.corner x
     let c1 := Function.update (Function.update (Function.update c (nl, 1) (c (lprev e))) (nl, 2) (c e)) (nl, 0) (some nv)
     let c2 := Function.update (Function.update (Function.update c1 (nr, 1) (c e)) (nr, 2) (c (lnext e))) (nr, 0) (some nv)
     Function.update c2 e (some nv)) := by
  cases cs <;> simp only [Heap.splitTriangle, Heap.bond, movesub_corner, if_true, Bool.false_eq_true, if_false] <;> rfl

theorem splitTriangle_nbr_eq (cs : Bool) : (m.splitTriangle cs nl nr nv e).nbr =
    (let c : Otri → Otri := fun x => if x.1 = nr then dummytri else if x.1 = nl then dummytri else m.nbr x
     let up (f : Otri → Otri) (x y : Otri) := Function.update (Function.update f x y) y x
     up (up (up (up (up c (nl, 0) (m.nbr (lnext e))) (nr, 0) (m.nbr (lprev e))) (nl, 1) (nr, 2)) (lnext e) (nl, 2)) (lprev e) (nr, 1)) := by
  have z1 : lnext ((nl, 0) : Otri) = (nl, 1) := rfl
  have z2 : lprev ((nr, 0) : Otri) = (nr, 2) := rfl
  have z3 : lnext ((nl, 1) : Otri) = (nl, 2) := rfl
  have z4 : lprev ((nr, 2) : Otri) = (nr, 1) := rfl
  cases cs <;> simp only [Heap.splitTriangle, Heap.bond, movesub_nbr, if_true, Bool.false_eq_true, if_false, z1, z2, z3, z4, Heap.setorg,
    Heap.setdest, Heap.setapex, Heap.maketriangle, Heap.sym]

section
variable (h : Linked m L) (s : SplitAt m L e nl nr nv b r l)
include s

theorem SplitAt.el : e.1 ≠ nl := fun h => s.hnl (h ▸ s.tri.1)
theorem SplitAt.er : e.1 ≠ nr := fun h => s.hnr (h ▸ s.tri.1)

theorem splitTriangle_corner (cs : Bool) :
    (m.splitTriangle cs nl nr nv e).corner e = some nv ∧ (m.splitTriangle cs nl nr nv e).corner (lnext e) = some r ∧
    (m.splitTriangle cs nl nr nv e).corner (lprev e) = some l ∧
    (m.splitTriangle cs nl nr nv e).corner (nl, 0) = some nv ∧ (m.splitTriangle cs nl nr nv e).corner (nl, 1) = some l ∧
    (m.splitTriangle cs nl nr nv e).corner (nl, 2) = some b ∧
    (m.splitTriangle cs nl nr nv e).corner (nr, 0) = some nv ∧ (m.splitTriangle cs nl nr nv e).corner (nr, 1) = some b ∧
    (m.splitTriangle cs nl nr nv e).corner (nr, 2) = some r ∧
    ∀ y : Otri, y.1 ≠ e.1 → y.1 ≠ nl → y.1 ≠ nr → (m.splitTriangle cs nl nr nv e).corner y = m.corner y := by
  have k1 := s.el
  have k2 := s.er
  have k3 := s.lr
  obtain ⟨-, t1, t2, t3⟩ := tri3_iff.1 s.tri
  have n1 := lnext_ne e
  have n2 := lprev_ne e
  have f : ∀ (x : Otri) (p : Nat × Fin 3), x.1 ≠ p.1 → x ≠ p := fun x p hh h0 => hh (by rw [h0])
  have f1 : ∀ o : Fin 3, e ≠ (nl, o) := fun o => f _ _ k1
  have f2 : ∀ o : Fin 3, e ≠ (nr, o) := fun o => f _ _ k2
  have f3 : ∀ o : Fin 3, lnext e ≠ (nl, o) := fun o => f _ _ k1
  have f4 : ∀ o : Fin 3, lnext e ≠ (nr, o) := fun o => f _ _ k2
  have f5 : ∀ o : Fin 3, lprev e ≠ (nl, o) := fun o => f _ _ k1
  have f6 : ∀ o : Fin 3, lprev e ≠ (nr, o) := fun o => f _ _ k2
  have f7 : ∀ o : Fin 3, (nl, o) ≠ e := fun o => (f1 o).symm
  have f8 : ∀ o : Fin 3, (nr, o) ≠ e := fun o => (f2 o).symm
  rw [splitTriangle_corner_eq]
  simp only [Function.update_apply]
  refine ⟨?_, ?_, ?_, ?_, ?_, ?_, ?_, ?_, ?_, ?_⟩
  · simp
  · simp [n1, f3, f4, k1, k2, t2]
  · simp [n2, f5, f6, k1, k2, t3]
  · simp [f7, k3]
  · simp [f7, k1, k2, t3, k3]
  · simp [f7, k1, k2, t1, k3]
  · simp [f8]
  · simp [f8, k1, k2, t1]
  · simp [f8, k1, k2, t2]
  · intro y y1 y2 y3
    have j : ∀ p : Nat × Fin 3, y.1 ≠ p.1 → y ≠ p := fun p hh h0 => hh (by rw [h0])
    simp [j e y1, fun o => j (nl, o) y2, fun o => j (nr, o) y3, y2, y3]

/-- The old edges of the triangle belong to different triangles afterwards. -/
def splitMap (e : Otri) (nl nr : Nat) (y : Otri) : Otri := if y = lnext e then (nl, 0) else if y = lprev e then (nr, 0) else y

include h

theorem SplitAt.e0 : e.1 ≠ 0 := fun h0 => h.dummy (h0 ▸ s.tri.1)

/-- The neighbours of the triangle are other triangles. -/
theorem SplitAt.casing {x : Otri} (hx : x.1 = e.1) : (m.nbr x).1 ≠ e.1 := by
  by_cases hn : m.nbr x = (0, 0)
  · rw [hn]; exact fun h0 => s.e0 h h0.symm
  obtain ⟨-, -, v, w, k1, k2⟩ := h.across (x := x) (by rw [hx]; exact s.tri.1) hn
  intro hh
  obtain ⟨-, t1, t2, t3⟩ := tri3_iff.1 s.tri
  have n1 := s.rl
  have n2 := s.lb
  have n3 := s.br
  rw [dir_iff] at k1 k2
  obtain ⟨-, a1, a2⟩ := k1
  obtain ⟨-, b1, b2⟩ := k2
  rcases handle_cases e x hx with rfl | rfl | rfl <;> rcases handle_cases _ _ hh with h0 | h0 | h0 <;> rw [h0] at b1 b2 <;>
    simp only [lnext_lnext, lnext_lprev, lprev_lnext, lprev_lprev, t1, t2, t3, Option.some.injEq] at a1 a2 b1 b2 <;>
    omega

theorem splitTriangle_nbr (cs : Bool) :
    (m.splitTriangle cs nl nr nv e).nbr (nl, 1) = (nr, 2) ∧ (m.splitTriangle cs nl nr nv e).nbr (nr, 2) = (nl, 1) ∧
    (m.splitTriangle cs nl nr nv e).nbr (nl, 2) = lnext e ∧ (m.splitTriangle cs nl nr nv e).nbr (lnext e) = (nl, 2) ∧
    (m.splitTriangle cs nl nr nv e).nbr (nr, 1) = lprev e ∧ (m.splitTriangle cs nl nr nv e).nbr (lprev e) = (nr, 1) ∧
    ∀ y, L y.1 → (m.splitTriangle cs nl nr nv e).nbr (splitMap e nl nr y) = splitMap e nl nr (m.nbr y) := by
  have k1 := s.el
  have k2 := s.er
  have k3 := s.lr
  have f : ∀ (x : Otri) (p : Nat × Fin 3), x.1 ≠ p.1 → x ≠ p := fun x p hh h0 => hh (by rw [h0])
  have f3 : ∀ o : Fin 3, lnext e ≠ (nl, o) := fun o => f _ _ k1
  have f4 : ∀ o : Fin 3, lnext e ≠ (nr, o) := fun o => f _ _ k2
  have f5 : ∀ o : Fin 3, lprev e ≠ (nl, o) := fun o => f _ _ k1
  have f6 : ∀ o : Fin 3, lprev e ≠ (nr, o) := fun o => f _ _ k2
  have g3 : ∀ o : Fin 3, (nl, o) ≠ lnext e := fun o => (f3 o).symm
  have g4 : ∀ o : Fin 3, (nr, o) ≠ lnext e := fun o => (f4 o).symm
  have g5 : ∀ o : Fin 3, (nl, o) ≠ lprev e := fun o => (f5 o).symm
  have g6 : ∀ o : Fin 3, (nr, o) ≠ lprev e := fun o => (f6 o).symm
  have d1 := lnext_ne_lprev e
  have c1 := s.casing h (x := lnext e) rfl
  have c2 := s.casing h (x := lprev e) rfl
  -- the neighbours are old triangles
  have old : ∀ x, L x.1 → (m.nbr x).1 ≠ nl ∧ (m.nbr x).1 ≠ nr := by
    intro x hx
    by_cases hn : m.nbr x = (0, 0)
    · rw [hn]; exact ⟨s.zl.symm, s.zr.symm⟩
    · have := (h.across hx hn).1
      exact ⟨fun h0 => s.hnl (h0 ▸ this), fun h0 => s.hnr (h0 ▸ this)⟩
  have o1 := old (lnext e) s.tri.1
  have o2 := old (lprev e) s.tri.1
  have j1 : ∀ o : Fin 3, (nl, o) ≠ m.nbr (lnext e) := fun o => (f _ _ o1.1).symm
  have j2 : ∀ o : Fin 3, (nl, o) ≠ m.nbr (lprev e) := fun o => (f _ _ o2.1).symm
  have j3 : ∀ o : Fin 3, (nr, o) ≠ m.nbr (lnext e) := fun o => (f _ _ o1.2).symm
  have j4 : ∀ o : Fin 3, (nr, o) ≠ m.nbr (lprev e) := fun o => (f _ _ o2.2).symm
  have j5 : lnext e ≠ m.nbr (lnext e) := (f _ (lnext e) c1).symm
  have j6 : lnext e ≠ m.nbr (lprev e) := (f _ (lnext e) c2).symm
  have j7 : lprev e ≠ m.nbr (lnext e) := (f _ (lprev e) c1).symm
  have j8 : lprev e ≠ m.nbr (lprev e) := (f _ (lprev e) c2).symm
  rw [splitTriangle_nbr_eq]
  simp only [Function.update_apply]
  refine ⟨?_, ?_, ?_, ?_, ?_, ?_, ?_⟩
  · simp [g3, g5, k3]
  · simp [g4, g6, k3.symm]
  · simp [g3, g5, k3]
  · simp [d1, f4]
  · simp [g4, g6, k3.symm]
  · simp
  · intro y hy
    have yl : y.1 ≠ nl := fun h0 => s.hnl (h0 ▸ hy)
    have yr : y.1 ≠ nr := fun h0 => s.hnr (h0 ▸ hy)
    unfold splitMap
    by_cases e1 : y = lnext e
    · subst e1
      have : m.nbr (lnext e) ≠ lnext e := j5.symm
      have : m.nbr (lnext e) ≠ lprev e := j7.symm
      simp [g3, g5, k3, j2 0, *]
    by_cases e2 : y = lprev e
    · subst e2
      simp [g4, g6, k3.symm, d1.symm, j6.symm, j8.symm]
    have iy := h.inv hy
    have i1 := h.inv (x := lnext e) s.tri.1
    have i2 := h.inv (x := lprev e) s.tri.1
    have y0 : y ≠ (0, 0) := by rintro rfl; exact h.dummy hy
    have q : ∀ o : Fin 3, y ≠ (nl, o) := fun o => f _ _ yl
    have q' : ∀ o : Fin 3, y ≠ (nr, o) := fun o => f _ _ yr
    simp only [e1, e2, if_false, q, q', yl, yr]
    by_cases z1 : y = m.nbr (lnext e)
    · have a1 : m.nbr y = lnext e := by
        rcases i1 with i1 | i1
        · exact absurd (z1.trans i1) y0
        · rw [z1]; exact i1
      have a2 : y ≠ m.nbr (lprev e) := by
        intro z2
        rcases i2 with i2 | i2
        · exact y0 (z2.trans i2)
        · rw [← z2, a1] at i2; exact d1 i2
      simp [a1, ← z1, a2]
    by_cases z2 : y = m.nbr (lprev e)
    · have a1 : m.nbr y = lprev e := by
        rcases i2 with i2 | i2
        · exact absurd (z2.trans i2) y0
        · rw [z2]; exact i2
      simp [a1, ← z2, d1.symm]
    have a1 : m.nbr y ≠ lnext e := by
      intro h0
      rcases iy with iy | iy
      · rw [iy] at h0
        exact s.e0 h (by have := congrArg Prod.fst h0; simpa using this.symm)
      · rw [h0] at iy; exact z1 iy.symm
    have a2 : m.nbr y ≠ lprev e := by
      intro h0
      rcases iy with iy | iy
      · rw [iy] at h0
        exact s.e0 h (by have := congrArg Prod.fst h0; simpa using this.symm)
      · rw [h0] at iy; exact z2 iy.symm
    simp [z1, z2, a1, a2]

end
end
end Delynoi.Tri
