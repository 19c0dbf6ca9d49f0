import Verif.Proofs.TriInsert5
/-! # Splitting an edge: links -/
set_option linter.unusedSectionVars false
namespace Delynoi.Tri

/-- The new vertex is put on the edge `e` of the triangle `brl`; if there is a triangle on the other
side (`tp`), its apex is `d`. -/
structure EdgeAt (m : Heap) (L : Nat → Prop) (e : Otri) (nr nt nv b r l d : Nat) (tp : Bool) : Prop extends
    SplitAt m L e nr nt nv b r l where
  hull : tp = false → m.nbr e = (0, 0)
  top : tp = true → m.nbr e ≠ (0, 0) ∧ m.Tri3 L (m.nbr e) d l r ∧ d ≠ b ∧ d ≠ l ∧ d ≠ r

/-- The triangles in use afterwards. -/
def WithE (L : Nat → Prop) (nr nt : Nat) (tp : Bool) : Nat → Prop := fun t => L t ∨ t = nr ∨ (tp = true ∧ t = nt)

/-- Where the edges are afterwards. -/
def edgeMap (m : Heap) (e : Otri) (nr nt : Nat) (y : Otri) : Otri :=
  if y = lprev e then (nr, 0) else if y = lnext (m.nbr e) then (nt, 0) else y

section
variable {m : Heap} {L : Nat → Prop} {e : Otri} {nr nt nv b r l d : Nat} {tp : Bool}

theorem splitEdge_corner_eq (cs : Bool) (ht : (m.nbr e).1 ≠ 0) : (m.splitEdge cs nr nt nv e).corner =
    (let c : Otri → Option Nat := fun x => if x.1 = nr then none else if x.1 = nt then none else m.corner x
     let c1 := Function.update (Function.update (Function.update c (nr, 1) (c e)) (nr, 2) (c (lnext e))) (nr, 0) (some nv)
     let c2 := Function.update c1 (lnext e) (some nv)
     let c3 := Function.update (Function.update (Function.update c2 (nt, 1) (c (lnext e))) (nt, 2) (c2 (m.nbr e))) (nt, 0) (some nv)
     Function.update c3 (lprev (m.nbr e)) (some nv)) := by
  have ht' : (m.sym e).1 ≠ 0 := ht
  cases cs <;> simp only [Heap.splitEdge, ht', ne_eq, not_false_eq_true, Heap.bond, movesub_corner, if_true, Bool.false_eq_true, if_false,
    Heap.setorg, Heap.setdest, Heap.setapex, Heap.maketriangle, Heap.org, Heap.dest, Heap.apex, lnext_lnext, lprev_lnext] <;> rfl

theorem splitEdge_corner_hull (cs : Bool) (ht : (m.nbr e).1 = 0) : (m.splitEdge cs nr nt nv e).corner =
    (let c : Otri → Option Nat := fun x => if x.1 = nr then none else m.corner x
     let c1 := Function.update (Function.update (Function.update c (nr, 1) (c e)) (nr, 2) (c (lnext e))) (nr, 0) (some nv)
     Function.update c1 (lnext e) (some nv)) := by
  have ht' : (m.sym e).1 = 0 := ht
  cases cs <;> simp only [Heap.splitEdge, ht', ne_eq, not_true_eq_false, Heap.bond, movesub_corner, if_true, Bool.false_eq_true, if_false,
    Heap.setorg, Heap.setdest, Heap.setapex, Heap.maketriangle, Heap.org, Heap.dest, Heap.apex, lnext_lnext, lprev_lnext] <;> rfl

theorem splitEdge_nbr_eq (cs : Bool) (ht : (m.nbr e).1 ≠ 0) : (m.splitEdge cs nr nt nv e).nbr =
    (let c : Otri → Otri := fun x => if x.1 = nr then dummytri else if x.1 = nt then dummytri else m.nbr x
     let up (f : Otri → Otri) (x y : Otri) := Function.update (Function.update f x y) y x
     up (up (up (up (up c (nr, 0) (m.nbr (lprev e))) (nr, 2) (lprev e)) (nt, 0) (m.nbr (lnext (m.nbr e)))) (nt, 1) (lnext (m.nbr e)))
       (nt, 2) (nr, 1)) := by
  have ht' : (m.sym e).1 ≠ 0 := ht
  have z1 : lprev ((nr, 0) : Otri) = (nr, 2) := rfl
  have z2 : lprev ((nr, 2) : Otri) = (nr, 1) := rfl
  have z3 : lnext ((nt, 0) : Otri) = (nt, 1) := rfl
  have z4 : lnext ((nt, 1) : Otri) = (nt, 2) := rfl
  cases cs <;> simp only [Heap.splitEdge, ht', ne_eq, not_false_eq_true, Heap.bond, movesub_nbr, if_true, Bool.false_eq_true, if_false,
    Heap.setorg, Heap.setdest, Heap.setapex, Heap.maketriangle, z1, z2, z3, z4] <;> rfl

theorem splitEdge_nbr_hull (cs : Bool) (ht : (m.nbr e).1 = 0) : (m.splitEdge cs nr nt nv e).nbr =
    (let c : Otri → Otri := fun x => if x.1 = nr then dummytri else m.nbr x
     let up (f : Otri → Otri) (x y : Otri) := Function.update (Function.update f x y) y x
     up (up c (nr, 0) (m.nbr (lprev e))) (nr, 2) (lprev e)) := by
  have ht' : (m.sym e).1 = 0 := ht
  have z1 : lprev ((nr, 0) : Otri) = (nr, 2) := rfl
  cases cs <;> simp only [Heap.splitEdge, ht', ne_eq, not_true_eq_false, Heap.bond, movesub_nbr, if_true, Bool.false_eq_true, if_false,
    Heap.setorg, Heap.setdest, Heap.setapex, Heap.maketriangle, z1] <;> rfl

section
variable (h : Linked m L) (s : EdgeAt m L e nr nt nv b r l d tp)
include h s

theorem EdgeAt.top_ne : (m.nbr e).1 ≠ e.1 := s.casing h rfl
theorem EdgeAt.top0 (ht : tp = true) : (m.nbr e).1 ≠ 0 := fun h0 => h.dummy (h0 ▸ (s.top ht).2.1.1)
theorem EdgeAt.topr : (m.nbr e).1 ≠ nr := by
  cases tp with
  | false => rw [s.hull rfl]; exact s.zl.symm
  | true => exact fun h0 => s.hnl (h0 ▸ (s.top rfl).2.1.1)
theorem EdgeAt.topt : (m.nbr e).1 ≠ nt := by
  cases tp with
  | false => rw [s.hull rfl]; exact s.zr.symm
  | true => exact fun h0 => s.hnr (h0 ▸ (s.top rfl).2.1.1)

theorem splitEdge_corner (cs : Bool) :
    (m.splitEdge cs nr nt nv e).corner e = some b ∧ (m.splitEdge cs nr nt nv e).corner (lnext e) = some nv ∧
    (m.splitEdge cs nr nt nv e).corner (lprev e) = some l ∧
    (m.splitEdge cs nr nt nv e).corner (nr, 0) = some nv ∧ (m.splitEdge cs nr nt nv e).corner (nr, 1) = some b ∧
    (m.splitEdge cs nr nt nv e).corner (nr, 2) = some r ∧
    (tp = true → (m.splitEdge cs nr nt nv e).corner (m.nbr e) = some d ∧ (m.splitEdge cs nr nt nv e).corner (lnext (m.nbr e)) = some l ∧
      (m.splitEdge cs nr nt nv e).corner (lprev (m.nbr e)) = some nv ∧ (m.splitEdge cs nr nt nv e).corner (nt, 0) = some nv ∧
      (m.splitEdge cs nr nt nv e).corner (nt, 1) = some r ∧ (m.splitEdge cs nr nt nv e).corner (nt, 2) = some d) ∧
    ∀ y : Otri, y.1 ≠ e.1 → y.1 ≠ nr → (tp = true → y.1 ≠ (m.nbr e).1 ∧ y.1 ≠ nt) → (m.splitEdge cs nr nt nv e).corner y = m.corner y := by
  have k1 := s.el
  have k2 := s.er
  have k3 := s.lr
  have k4 := s.top_ne h
  have k5 := s.topr h
  have k6 := s.topt h
  obtain ⟨-, t1, t2, t3⟩ := tri3_iff.1 s.tri
  have n1 := lnext_ne e
  have n2 := lprev_ne e
  have n3 := lnext_ne_lprev e
  have f : ∀ (x : Otri) (p : Nat × Fin 3), x.1 ≠ p.1 → x ≠ p := fun x p hh h0 => hh (by rw [h0])
  have f1 : ∀ o : Fin 3, e ≠ (nr, o) := fun o => f _ _ k1
  have f2 : ∀ o : Fin 3, e ≠ (nt, o) := fun o => f _ _ k2
  have f3 : ∀ o : Fin 3, lnext e ≠ (nr, o) := fun o => f _ _ k1
  have f4 : ∀ o : Fin 3, lnext e ≠ (nt, o) := fun o => f _ _ k2
  have f5 : ∀ o : Fin 3, lprev e ≠ (nr, o) := fun o => f _ _ k1
  have f6 : ∀ o : Fin 3, lprev e ≠ (nt, o) := fun o => f _ _ k2
  have f7 : ∀ o : Fin 3, (nr, o) ≠ lnext e := fun o => (f3 o).symm
  have f8 : ∀ o : Fin 3, (nt, o) ≠ lnext e := fun o => (f4 o).symm
  cases tp with
  | false =>
    have h0 := s.hull rfl
    rw [splitEdge_corner_hull cs (by rw [h0])]
    simp only [Function.update_apply]
    refine ⟨?_, ?_, ?_, ?_, ?_, ?_, ?_, ?_⟩
    · simp [n1.symm, f1, k1, t1]
    · simp
    · simp [n3.symm, f5, k1, t3]
    · simp [f7]
    · simp [f7, k1, t1]
    · simp [f7, k1, t2]
    · simp
    · intro y y1 y2 _
      have j : ∀ p : Nat × Fin 3, y.1 ≠ p.1 → y ≠ p := fun p hh h0 => hh (by rw [h0])
      simp [j (lnext e) y1, fun o => j (nr, o) y2, y2]
  | true =>
    have h0 := s.top0 h rfl
    obtain ⟨-, u1, u2, u3⟩ := tri3_iff.1 (s.top rfl).2.1
    generalize hT : m.nbr e = top at *
    have n4 := lnext_ne top
    have n5 := lprev_ne top
    have n6 := lnext_ne_lprev top
    have g1 : ∀ o : Fin 3, top ≠ (nr, o) := fun o => f _ _ k5
    have g2 : ∀ o : Fin 3, top ≠ (nt, o) := fun o => f _ _ k6
    have g3 : ∀ o : Fin 3, lnext top ≠ (nr, o) := fun o => f _ _ k5
    have g4 : ∀ o : Fin 3, lnext top ≠ (nt, o) := fun o => f _ _ k6
    have g5 : ∀ o : Fin 3, (nr, o) ≠ lprev top := fun o => (f (lprev top) (nr, o) k5).symm
    have g6 : ∀ o : Fin 3, (nt, o) ≠ lprev top := fun o => (f (lprev top) (nt, o) k6).symm
    have i1 : e ≠ lprev top := fun h0 => k4 (by rw [h0]; rfl)
    have i2 : lnext e ≠ lprev top := fun h0 => k4 (by have := congrArg Prod.fst h0; simpa using this.symm)
    have i3 : lprev e ≠ lprev top := fun h0 => k4 (by have := congrArg Prod.fst h0; simpa using this.symm)
    have i4 : top ≠ lnext e := fun h0 => k4 (by rw [h0]; rfl)
    have i5 : lnext top ≠ lnext e := fun h0 => k4 (by have := congrArg Prod.fst h0; simpa using this)
    rw [splitEdge_corner_eq cs (by rw [hT]; exact h0), hT]
    simp only [Function.update_apply]
    refine ⟨?_, ?_, ?_, ?_, ?_, ?_, fun _ => ⟨?_, ?_, ?_, ?_, ?_, ?_⟩, ?_⟩
    · simp [i1, f2, n1.symm, f1, k1, k2, t1]
    · simp [i2, f4]
    · simp [i3, f6, n3.symm, f5, k1, k2, t3]
    · simp [g5, f7, k3]
    · simp [g5, f7, k1, k2, t1, k3]
    · simp [g5, f7, k1, k2, t2, k3]
    · simp [n5.symm, g2, i4, g1, k5, k6, u1]
    · simp [n6, g4, i5, g3, k5, k6, u2]
    · simp
    · simp [g6]
    · simp [g6, k1, k2, t2]
    · simp [g6, i4, g1, k5, k6, u1]
    · intro y y1 y2 y3
      obtain ⟨y3, y4⟩ := y3 trivial
      have j : ∀ p : Nat × Fin 3, y.1 ≠ p.1 → y ≠ p := fun p hh h0 => hh (by rw [h0])
      simp [j (lnext e) y1, j (lprev top) y3, fun o => j (nr, o) y2, fun o => j (nt, o) y4, y2, y4]

theorem splitEdge_nbr (cs : Bool) :
    (m.splitEdge cs nr nt nv e).nbr (nr, 2) = lprev e ∧ (m.splitEdge cs nr nt nv e).nbr (lprev e) = (nr, 2) ∧
    (tp = false → (m.splitEdge cs nr nt nv e).nbr (nr, 1) = (0, 0)) ∧
    (tp = true → (m.splitEdge cs nr nt nv e).nbr (nt, 1) = lnext (m.nbr e) ∧ (m.splitEdge cs nr nt nv e).nbr (lnext (m.nbr e)) = (nt, 1) ∧
      (m.splitEdge cs nr nt nv e).nbr (nt, 2) = (nr, 1) ∧ (m.splitEdge cs nr nt nv e).nbr (nr, 1) = (nt, 2)) ∧
    ∀ y, L y.1 → (m.splitEdge cs nr nt nv e).nbr (edgeMap m e nr nt y) = edgeMap m e nr nt (m.nbr y) := by
  have k1 := s.el
  have k2 := s.er
  have k3 := s.lr
  have k4 := s.top_ne h
  have k5 := s.topr h
  have k6 := s.topt h
  have e0 := s.e0 h
  have f : ∀ (x : Otri) (p : Nat × Fin 3), x.1 ≠ p.1 → x ≠ p := fun x p hh h0 => hh (by rw [h0])
  have f5 : ∀ o : Fin 3, lprev e ≠ (nr, o) := fun o => f _ _ k1
  have f6 : ∀ o : Fin 3, lprev e ≠ (nt, o) := fun o => f _ _ k2
  have g5 : ∀ o : Fin 3, (nr, o) ≠ lprev e := fun o => (f5 o).symm
  have g6 : ∀ o : Fin 3, (nt, o) ≠ lprev e := fun o => (f6 o).symm
  have old : ∀ x, L x.1 → (m.nbr x).1 ≠ nr ∧ (m.nbr x).1 ≠ nt := by
    intro x hx
    by_cases hn : m.nbr x = (0, 0)
    · rw [hn]; exact ⟨s.zl.symm, s.zr.symm⟩
    · have := (h.across hx hn).1
      exact ⟨fun h0 => s.hnl (h0 ▸ this), fun h0 => s.hnr (h0 ▸ this)⟩
  have o1 := old (lprev e) s.tri.1
  have c1 := s.casing h (x := lprev e) rfl
  have j1 : ∀ o : Fin 3, (nr, o) ≠ m.nbr (lprev e) := fun o => (f _ _ o1.1).symm
  have j2 : ∀ o : Fin 3, (nt, o) ≠ m.nbr (lprev e) := fun o => (f _ _ o1.2).symm
  have j3 : lprev e ≠ m.nbr (lprev e) := (f _ (lprev e) c1).symm
  have i1 := h.inv (x := lprev e) s.tri.1
  cases tp with
  | false =>
    have h0 := s.hull rfl
    rw [splitEdge_nbr_hull cs (by rw [h0])]
    simp only [Function.update_apply]
    refine ⟨?_, ?_, ?_, ?_, ?_⟩
    · simp [g5]
    · simp
    · intro _; simp [g5, j1, dummytri]
    · simp
    · intro y hy
      have yr : y.1 ≠ nr := fun h0 => s.hnl (h0 ▸ hy)
      have y0 : y.1 ≠ 0 := fun h0 => h.dummy (h0 ▸ hy)
      have z1 : y ≠ lnext (m.nbr e) := by rw [h0]; exact fun h1 => y0 (by rw [h1]; rfl)
      have q : ∀ o : Fin 3, y ≠ (nr, o) := fun o => f _ _ yr
      have iy := h.inv hy
      have top1 : ∀ z, L z.1 → m.nbr z ≠ lnext (m.nbr e) := by
        intro z hz h1
        rw [h0] at h1
        by_cases hn : m.nbr z = (0, 0)
        · rw [hn] at h1; exact absurd (congrArg Prod.snd h1) (by decide)
        · exact h.dummy (by have := (h.across hz hn).1; rw [h1] at this; exact this)
      unfold edgeMap
      by_cases e2 : y = lprev e
      · subst e2
        simp [g5, top1 (lprev e) hy, j3.symm]
      simp only [e2, z1, if_false, q, yr]
      by_cases z2 : y = m.nbr (lprev e)
      · have a1 : m.nbr y = lprev e := by
          rcases i1 with i1 | i1
          · rw [i1] at z2; exact absurd (by rw [z2]) y0
          · rw [z2]; exact i1
        simp [a1, ← z2]
      have a2 : m.nbr y ≠ lprev e := by
        intro h1
        rcases iy with iy | iy
        · rw [iy] at h1; exact e0 (congrArg Prod.fst h1).symm
        · rw [h1] at iy; exact z2 iy.symm
      simp [z2, a2, top1 y hy]
  | true =>
    have h0 := s.top0 h rfl
    have hL := (s.top rfl).2.1
    obtain ⟨-, -, db, dl, dr⟩ := s.top rfl
    have hinv : m.nbr (m.nbr e) = e := (h.across s.tri.1 (s.top rfl).1).2.1
    rw [splitEdge_nbr_eq cs h0]
    have o2 := old (lnext (m.nbr e)) hL.1
    have i2 := h.inv (x := lnext (m.nbr e)) hL.1
    have c2 : m.nbr (lnext (m.nbr e)) ≠ lnext (m.nbr e) := by
      intro h1
      obtain ⟨-, -, v, w, p1, p2⟩ := h.across (x := lnext (m.nbr e)) hL.1 (by rw [h1]; exact fun h2 => h0 (congrArg Prod.fst h2))
      rw [h1] at p2
      have D := (Tri3.dirs hL).2.2
      have e1 := D.2.1.symm.trans p1.2.1
      have e2 := D.2.2.symm.trans p1.2.2
      have e3 := D.2.1.symm.trans p2.2.1
      cases e1; cases e2; cases e3; exact dr rfl
    have c3 : m.nbr (lnext (m.nbr e)) ≠ lprev e := by
      intro h1
      obtain ⟨-, -, v, w, p1, p2⟩ := h.across (x := lnext (m.nbr e)) hL.1 (by rw [h1]; exact fun h2 => e0 (congrArg Prod.fst h2))
      rw [h1] at p2
      have D := (Tri3.dirs hL).2.2
      have D' := (Tri3.dirs s.tri).2.1
      have e1 := D.2.1.symm.trans p1.2.1
      have e2 := D.2.2.symm.trans p1.2.2
      have e3 := D'.2.1.symm.trans p2.2.1
      cases e1; cases e2; cases e3; exact db rfl
    have c4 : m.nbr (lprev e) ≠ lnext (m.nbr e) := by
      intro h1
      rcases i1 with i1 | i1
      · rw [i1] at h1; exact h0 (congrArg Prod.fst h1).symm
      · rw [h1] at i1; exact c3 i1
    generalize hT : m.nbr e = top at *
    have f7 : ∀ o : Fin 3, lnext top ≠ (nr, o) := fun o => f _ _ k5
    have f8 : ∀ o : Fin 3, lnext top ≠ (nt, o) := fun o => f _ _ k6
    have g7 : ∀ o : Fin 3, (nr, o) ≠ lnext top := fun o => (f7 o).symm
    have g8 : ∀ o : Fin 3, (nt, o) ≠ lnext top := fun o => (f8 o).symm
    have j5 : ∀ o : Fin 3, (nr, o) ≠ m.nbr (lnext top) := fun o => (f _ _ o2.1).symm
    have j6 : ∀ o : Fin 3, (nt, o) ≠ m.nbr (lnext top) := fun o => (f _ _ o2.2).symm
    have d1 : lprev e ≠ lnext top := fun h0 => k4 (by have := congrArg Prod.fst h0; simpa using this.symm)
    simp only [Function.update_apply]
    refine ⟨?_, ?_, ?_, fun _ => ⟨?_, ?_, ?_, ?_⟩, ?_⟩
    · simp [k3, g7, j5, g5]
    · simp [f5, f6, d1, c3.symm]
    · simp
    · simp [k3.symm, g8]
    · simp [f7, f8]
    · simp [k3.symm]
    · simp
    · intro y hy
      have yr : y.1 ≠ nr := fun h0 => s.hnl (h0 ▸ hy)
      have yt : y.1 ≠ nt := fun h0 => s.hnr (h0 ▸ hy)
      have y0 : y.1 ≠ 0 := fun h0 => h.dummy (h0 ▸ hy)
      have q : ∀ o : Fin 3, y ≠ (nr, o) := fun o => f _ _ yr
      have q' : ∀ o : Fin 3, y ≠ (nt, o) := fun o => f _ _ yt
      have iy := h.inv hy
      unfold edgeMap
      rw [hT]
      by_cases e2 : y = lprev e
      · subst e2
        simp [g5, k3, g7, j5, j3.symm, c4]
      by_cases e3 : y = lnext top
      · subst e3
        simp [d1.symm, k3.symm, g8, c2, c3]
      simp only [e2, e3, if_false, q, q', yr, yt]
      by_cases z2 : y = m.nbr (lprev e)
      · have a1 : m.nbr y = lprev e := by
          rcases i1 with i1 | i1
          · rw [i1] at z2; exact absurd (by rw [z2]) y0
          · rw [z2]; exact i1
        have a2 : y ≠ m.nbr (lnext top) := by
          intro h1
          rcases i2 with i2 | i2
          · rw [i2] at h1; exact y0 (by rw [h1])
          · rw [← h1, a1] at i2; exact d1 i2
        simp [a1, ← z2, a2]
      by_cases z3 : y = m.nbr (lnext top)
      · have a1 : m.nbr y = lnext top := by
          rcases i2 with i2 | i2
          · rw [i2] at z3; exact absurd (by rw [z3]) y0
          · rw [z3]; exact i2
        simp [a1, ← z3, d1.symm]
      have a2 : m.nbr y ≠ lprev e := by
        intro h1
        rcases iy with iy | iy
        · rw [iy] at h1; exact e0 (congrArg Prod.fst h1).symm
        · rw [h1] at iy; exact z2 iy.symm
      have a3 : m.nbr y ≠ lnext top := by
        intro h1
        rcases iy with iy | iy
        · rw [iy] at h1; exact h0 (congrArg Prod.fst h1).symm
        · rw [h1] at iy; exact z3 iy.symm
      simp [z2, z3, a2, a3]

end
end
end Delynoi.Tri
