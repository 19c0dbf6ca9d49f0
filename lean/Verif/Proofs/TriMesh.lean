import Verif.Spec.TriMesh
/-! # Flips: which pointers change -/
set_option linter.unusedSectionVars false
namespace Delynoi.Tri

/-- Rotates four handles: `A` to `D`, `B` to `A`, `C` to `B`, `D` to `C`. -/
def cyc (A B C D x : Otri) : Otri :=
  if x = A then D else if x = B then A else if x = C then B else if x = D then C else x

section
variable {A B C D : Otri} (hAB : A ≠ B) (hAC : A ≠ C) (hAD : A ≠ D) (hBC : B ≠ C) (hBD : B ≠ D) (hCD : C ≠ D)
include hAB hAC hAD hBC hBD hCD

theorem cyc_inv (x : Otri) : cyc D C B A (cyc A B C D x) = x := by
  unfold cyc; grind

theorem cyc_inv' (x : Otri) : cyc A B C D (cyc D C B A x) = x := by
  unfold cyc; grind

theorem cyc_bonds (f : Otri → Otri)
    (oA : f A ≠ A ∧ f A ≠ B ∧ f A ≠ C ∧ f A ≠ D) (oB : f B ≠ A ∧ f B ≠ B ∧ f B ≠ C ∧ f B ≠ D)
    (oC : f C ≠ A ∧ f C ≠ B ∧ f C ≠ C ∧ f C ≠ D) (oD : f D ≠ A ∧ f D ≠ B ∧ f D ≠ C ∧ f D ≠ D)
    (iA : f A = (0, 0) ∨ f (f A) = A) (iB : f B = (0, 0) ∨ f (f B) = B)
    (iC : f C = (0, 0) ∨ f (f C) = C) (iD : f D = (0, 0) ∨ f (f D) = D)
    (nA : A.1 ≠ 0) (nB : B.1 ≠ 0) (nC : C.1 ≠ 0) (nD : D.1 ≠ 0)
    (y : Otri) (hy : y.1 ≠ 0) (iy : f y = (0, 0) ∨ f (f y) = y) :
    Function.update (Function.update (Function.update (Function.update (Function.update (Function.update
      (Function.update (Function.update f D (f A)) (f A) D) A (f B)) (f B) A) B (f C)) (f C) B) C (f D)) (f D) C y =
    cyc A B C D (f (cyc D C B A y)) := by
  have hy' : y ≠ (0, 0) := fun h => hy (by rw [h])
  have nA' : A ≠ (0, 0) := fun h => nA (by rw [h])
  have nB' : B ≠ (0, 0) := fun h => nB (by rw [h])
  have nC' : C ≠ (0, 0) := fun h => nC (by rw [h])
  have nD' : D ≠ (0, 0) := fun h => nD (by rw [h])
  simp only [Function.update_apply]
  obtain ⟨a1, a2, a3, a4⟩ := oA
  obtain ⟨b1, b2, b3, b4⟩ := oB
  obtain ⟨c1, c2, c3, c4⟩ := oC
  obtain ⟨d1, d2, d3, d4⟩ := oD
  unfold cyc
  by_cases yA : y = A
  · subst yA; grind
  by_cases yB : y = B
  · subst yB; grind
  by_cases yC : y = C
  · subst yC; grind
  by_cases yD : y = D
  · subst yD; grind
  simp only [yA, yB, yC, yD, if_false]
  by_cases za : y = f A
  · grind
  by_cases zb : y = f B
  · grind
  by_cases zc : y = f C
  · grind
  by_cases zd : y = f D
  · grind
  simp only [za, zb, zc, zd, if_false]
  grind

theorem cyc_bonds' (f : Otri → Otri)
    (oA : f A ≠ A ∧ f A ≠ B ∧ f A ≠ C ∧ f A ≠ D) (oB : f B ≠ A ∧ f B ≠ B ∧ f B ≠ C ∧ f B ≠ D)
    (oC : f C ≠ A ∧ f C ≠ B ∧ f C ≠ C ∧ f C ≠ D) (oD : f D ≠ A ∧ f D ≠ B ∧ f D ≠ C ∧ f D ≠ D)
    (iA : f A = (0, 0) ∨ f (f A) = A) (iB : f B = (0, 0) ∨ f (f B) = B)
    (iC : f C = (0, 0) ∨ f (f C) = C) (iD : f D = (0, 0) ∨ f (f D) = D)
    (nA : A.1 ≠ 0) (nB : B.1 ≠ 0) (nC : C.1 ≠ 0) (nD : D.1 ≠ 0)
    (y : Otri) (hy : y.1 ≠ 0) (iy : f y = (0, 0) ∨ f (f y) = y) :
    Function.update (Function.update (Function.update (Function.update (Function.update (Function.update
      (Function.update (Function.update f D (f C)) (f C) D) A (f D)) (f D) A) B (f A)) (f A) B) C (f B)) (f B) C y =
    cyc D C B A (f (cyc A B C D y)) := by
  have hy' : y ≠ (0, 0) := fun h => hy (by rw [h])
  have nA' : A ≠ (0, 0) := fun h => nA (by rw [h])
  have nB' : B ≠ (0, 0) := fun h => nB (by rw [h])
  have nC' : C ≠ (0, 0) := fun h => nC (by rw [h])
  have nD' : D ≠ (0, 0) := fun h => nD (by rw [h])
  simp only [Function.update_apply]
  obtain ⟨a1, a2, a3, a4⟩ := oA
  obtain ⟨b1, b2, b3, b4⟩ := oB
  obtain ⟨c1, c2, c3, c4⟩ := oC
  obtain ⟨d1, d2, d3, d4⟩ := oD
  unfold cyc
  by_cases yA : y = A
  · subst yA; grind
  by_cases yB : y = B
  · subst yB; grind
  by_cases yC : y = C
  · subst yC; grind
  by_cases yD : y = D
  · subst yD; grind
  simp only [yA, yB, yC, yD, if_false]
  by_cases za : y = f A
  · grind
  by_cases zb : y = f B
  · grind
  by_cases zc : y = f C
  · grind
  by_cases zd : y = f D
  · grind
  simp only [za, zb, zc, zd, if_false]
  grind
end

/-! ### The fields of the heap -/

namespace Heap
variable (m : Heap) (x y : Otri) (v : Option Nat) (s : Osub)

@[simp] theorem setorg_nbr : (m.setorg x v).nbr = m.nbr := rfl
@[simp] theorem setdest_nbr : (m.setdest x v).nbr = m.nbr := rfl
@[simp] theorem setapex_nbr : (m.setapex x v).nbr = m.nbr := rfl
@[simp] theorem setorg_sub : (m.setorg x v).sub = m.sub := rfl
@[simp] theorem setdest_sub : (m.setdest x v).sub = m.sub := rfl
@[simp] theorem setapex_sub : (m.setapex x v).sub = m.sub := rfl
@[simp] theorem setorg_stri : (m.setorg x v).stri = m.stri := rfl
@[simp] theorem setdest_stri : (m.setdest x v).stri = m.stri := rfl
@[simp] theorem setapex_stri : (m.setapex x v).stri = m.stri := rfl
@[simp] theorem bond_sub : (m.bond x y).sub = m.sub := rfl
@[simp] theorem bond_stri : (m.bond x y).stri = m.stri := rfl
@[simp] theorem bond_corner : (m.bond x y).corner = m.corner := rfl
@[simp] theorem rebond_nbr : (m.rebond x s).nbr = m.nbr := by unfold rebond; split <;> rfl
@[simp] theorem rebond_corner : (m.rebond x s).corner = m.corner := by unfold rebond; split <;> rfl

theorem rebond_sub (hs : s.1 = 0 → s = (0, false)) : (m.rebond x s).sub = Function.update m.sub x s := by
  unfold rebond
  split
  · rename_i h; rw [hs h]; rfl
  · rfl

theorem rebond_stri : (m.rebond x s).stri = if s.1 = 0 then m.stri else Function.update m.stri s x := by
  unfold rebond
  split <;> rfl
end Heap

/-- The heap after `flip`, when the pieces are named. -/
theorem flip_nbr_eq (cs : Bool) (m : Heap) (e : Otri) :
    (m.flip cs e).nbr = Function.update (Function.update (Function.update (Function.update (Function.update (Function.update
      (Function.update (Function.update m.nbr (lprev (m.nbr e)) (m.nbr (lnext e))) (m.nbr (lnext e)) (lprev (m.nbr e)))
      (lnext e) (m.nbr (lprev e))) (m.nbr (lprev e)) (lnext e)) (lprev e) (m.nbr (lnext (m.nbr e))))
      (m.nbr (lnext (m.nbr e))) (lprev e)) (lnext (m.nbr e)) (m.nbr (lprev (m.nbr e)))) (m.nbr (lprev (m.nbr e)))
      (lnext (m.nbr e)) := by
  cases cs <;> simp [Heap.flip, Heap.sym] <;> rfl

theorem unflip_nbr_eq (cs : Bool) (m : Heap) (e : Otri) :
    (m.unflip cs e).nbr = Function.update (Function.update (Function.update (Function.update (Function.update (Function.update
      (Function.update (Function.update m.nbr (lprev (m.nbr e)) (m.nbr (lnext (m.nbr e)))) (m.nbr (lnext (m.nbr e))) (lprev (m.nbr e)))
      (lnext e) (m.nbr (lprev (m.nbr e)))) (m.nbr (lprev (m.nbr e))) (lnext e)) (lprev e) (m.nbr (lnext e)))
      (m.nbr (lnext e)) (lprev e)) (lnext (m.nbr e)) (m.nbr (lprev e))) (m.nbr (lprev e))
      (lnext (m.nbr e)) := by
  cases cs <;> simp [Heap.unflip, Heap.sym] <;> rfl

theorem flip_corner_eq (cs : Bool) (m : Heap) (e : Otri) :
    (m.flip cs e).corner = Function.update (Function.update (Function.update (Function.update (Function.update
      (Function.update m.corner (lnext e) (m.corner (m.nbr e))) (lprev e) (m.corner e)) e (m.corner (lnext e)))
      (lnext (m.nbr e)) (m.corner e)) (lprev (m.nbr e)) (m.corner (m.nbr e))) (m.nbr e) (m.corner (lprev e)) := by
  cases cs <;> simp [Heap.flip, Heap.sym, Heap.org, Heap.dest, Heap.apex, Heap.setorg, Heap.setdest, Heap.setapex]

theorem unflip_corner_eq (cs : Bool) (m : Heap) (e : Otri) :
    (m.unflip cs e).corner = Function.update (Function.update (Function.update (Function.update (Function.update
      (Function.update m.corner (lnext e) (m.corner e)) (lprev e) (m.corner (m.nbr e))) e (m.corner (lprev e)))
      (lnext (m.nbr e)) (m.corner (m.nbr e))) (lprev (m.nbr e)) (m.corner e)) (m.nbr e) (m.corner (lnext e)) := by
  cases cs <;> simp [Heap.unflip, Heap.sym, Heap.org, Heap.dest, Heap.apex, Heap.setorg, Heap.setdest, Heap.setapex]

/-- Subsegments without address are `dummysub`. -/
def SubNorm (m : Heap) (x : Otri) : Prop := (m.sub x).1 = 0 → m.sub x = (0, false)

theorem flip_sub_eq (m : Heap) (e : Otri) (h1 : SubNorm m (lprev (m.nbr e))) (h2 : SubNorm m (lnext e))
    (h3 : SubNorm m (lprev e)) (h4 : SubNorm m (lnext (m.nbr e))) :
    (m.flip true e).sub = Function.update (Function.update (Function.update (Function.update m.sub
      (lnext (m.nbr e)) (m.sub (lprev (m.nbr e)))) (lprev (m.nbr e)) (m.sub (lnext e)))
      (lnext e) (m.sub (lprev e))) (lprev e) (m.sub (lnext (m.nbr e))) := by
  simp only [Heap.flip, Heap.sym, if_true, Heap.tspivot, Heap.bond_sub, Heap.setorg_sub, Heap.setdest_sub, Heap.setapex_sub]
  rw [Heap.rebond_sub _ _ _ h4, Heap.rebond_sub _ _ _ h3, Heap.rebond_sub _ _ _ h2, Heap.rebond_sub _ _ _ h1]
  rfl

theorem unflip_sub_eq (m : Heap) (e : Otri) (h1 : SubNorm m (lprev (m.nbr e))) (h2 : SubNorm m (lnext e))
    (h3 : SubNorm m (lprev e)) (h4 : SubNorm m (lnext (m.nbr e))) :
    (m.unflip true e).sub = Function.update (Function.update (Function.update (Function.update m.sub
      (lnext e) (m.sub (lprev (m.nbr e)))) (lprev e) (m.sub (lnext e)))
      (lnext (m.nbr e)) (m.sub (lprev e))) (lprev (m.nbr e)) (m.sub (lnext (m.nbr e))) := by
  simp only [Heap.unflip, Heap.sym, if_true, Heap.tspivot, Heap.bond_sub, Heap.setorg_sub, Heap.setdest_sub, Heap.setapex_sub]
  rw [Heap.rebond_sub _ _ _ h4, Heap.rebond_sub _ _ _ h3, Heap.rebond_sub _ _ _ h2, Heap.rebond_sub _ _ _ h1]
  rfl

theorem flip_stri_eq (m : Heap) (e : Otri) (s : Osub) (hs : s.1 ≠ 0) :
    (m.flip true e).stri s = if s = m.sub (lnext (m.nbr e)) then lprev e else
      if s = m.sub (lprev e) then lnext e else if s = m.sub (lnext e) then lprev (m.nbr e) else
      if s = m.sub (lprev (m.nbr e)) then lnext (m.nbr e) else m.stri s := by
  simp only [Heap.flip, Heap.sym, if_true, Heap.tspivot, Heap.bond_sub, Heap.setorg_stri, Heap.setdest_stri, Heap.setapex_stri,
    Heap.rebond_stri, Heap.bond_stri]
  have key : ∀ (g : Osub → Otri) (r : Osub) (x : Otri), (if r.1 = 0 then g else Function.update g r x) s =
      if s = r then x else g s := by
    intro g r x
    by_cases h : s = r
    · subst h; simp [hs]
    · by_cases h' : r.1 = 0 <;> simp [h, h']
  rw [key, key, key, key]

theorem unflip_stri_eq (m : Heap) (e : Otri) (s : Osub) (hs : s.1 ≠ 0) :
    (m.unflip true e).stri s = if s = m.sub (lnext (m.nbr e)) then lprev (m.nbr e) else
      if s = m.sub (lprev e) then lnext (m.nbr e) else if s = m.sub (lnext e) then lprev e else
      if s = m.sub (lprev (m.nbr e)) then lnext e else m.stri s := by
  simp only [Heap.unflip, Heap.sym, if_true, Heap.tspivot, Heap.bond_sub, Heap.setorg_stri, Heap.setdest_stri, Heap.setapex_stri,
    Heap.rebond_stri, Heap.bond_stri]
  have key : ∀ (g : Osub → Otri) (r : Osub) (x : Otri), (if r.1 = 0 then g else Function.update g r x) s =
      if s = r then x else g s := by
    intro g r x
    by_cases h : s = r
    · subst h; simp [hs]
    · by_cases h' : r.1 = 0 <;> simp [h, h']
  rw [key, key, key, key]

end Delynoi.Tri
