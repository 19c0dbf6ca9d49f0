import Verif.Model.Generator
import Mathlib.Algebra.BigOperators.Group.List.Basic
/-!
# Helper lemmas on the generator loops
-/
set_option linter.unusedSectionVars false
namespace Delynoi

theorem flatMap_getElem? {α β : Type} (f : α → List β) (m : Nat) (hf : ∀ a, (f a).length = m)
    (l : List α) : ∀ (i j : Nat), j < m →
    (l.flatMap f)[i * m + j]? = (l[i]?).bind (fun a => (f a)[j]?) := by
  induction l with
  | nil => intro i j _; simp
  | cons a l ih =>
    intro i j hj
    rw [List.flatMap_cons]
    match i with
    | 0 => rw [Nat.zero_mul, Nat.zero_add, List.getElem?_append_left (by rw [hf]; exact hj)]; simp
    | i + 1 =>
      rw [List.getElem?_append_right (by rw [hf, Nat.add_mul]; omega), hf]
      have : (i + 1) * m + j - m = i * m + j := by rw [Nat.add_mul]; omega
      rw [this, ih i j hj]; simp

theorem gridPairs_length (nX nY : Int) : (Gen.gridPairs nX nY).length = nY.toNat * nX.toNat := by
  unfold Gen.gridPairs
  rw [List.length_flatMap]
  simp

theorem gridPairs_getElem? (nX nY : Int) (i j : Nat) (hi : i < nY.toNat) (hj : j < nX.toNat) :
    (Gen.gridPairs nX nY)[i * nX.toNat + j]? = some (i, j) := by
  unfold Gen.gridPairs
  rw [flatMap_getElem? _ nX.toNat (by intro a; simp) _ i j hj]
  simp [hi, hj]

theorem gridPairs_mem (nX nY : Int) (e : Nat × Nat) (h : e ∈ Gen.gridPairs nX nY) :
    e.1 < nY.toNat ∧ e.2 < nX.toNat := by
  unfold Gen.gridPairs at h
  obtain ⟨i, hi, hj⟩ := List.mem_flatMap.1 h
  obtain ⟨j, hj2, rfl⟩ := List.mem_map.1 hj
  exact ⟨List.mem_range.1 hi, List.mem_range.1 hj2⟩

variable {K : Type} [Field K] [LinearOrder K] {σ τ : Type}

theorem genLoop_length (xf : Bool) (g : Gen σ K) (box : BBox K) (nX nY : Int)
    (l : List (Nat × Nat)) : ∀ (s s' : σ) (r : List (Pt (Option K))),
    Gen.genLoop xf g box nX nY s l = .ok (r, s') → r.length = l.length := by
  induction l with
  | nil => intro s s' r h; rw [← (Prod.mk.inj (Outcome.ok.inj h)).1]; rfl
  | cons e l ih =>
    intro s s' r h
    obtain ⟨i, j⟩ := e
    unfold Gen.genLoop at h
    cases h1 : Gen.result xf g s (Gen.gridCoord box.xMin box.width nX j) (Gen.gridCoord box.yMin box.height nY i) with
    | exn => rw [h1] at h; cases h
    | ub => rw [h1] at h; cases h
    | ok a =>
      rw [h1] at h
      simp only [Outcome.bind_ok] at h
      cases h2 : Gen.genLoop xf g box nX nY a.2 l with
      | exn => rw [h2] at h; cases h
      | ub => rw [h2] at h; cases h
      | ok b =>
        rw [h2] at h
        simp only [Outcome.bind_ok, Outcome.pure_eq] at h
        rw [← (Prod.mk.inj (Outcome.ok.inj h)).1, List.length_cons, List.length_cons,
          ih a.2 b.2 b.1 h2]

theorem run_cons_ok {f : Fn σ K} {s s' : σ} {x : Option K} {xs ys : List (Option K)}
    (h : Fn.run f s (x :: xs) = .ok (ys, s')) :
    ∃ y ys' s1, f s x = .ok (y, s1) ∧ Fn.run f s1 xs = .ok (ys', s') ∧ ys = y :: ys' := by
  unfold Fn.run at h
  cases h1 : f s x with
  | exn => rw [h1] at h; cases h
  | ub => rw [h1] at h; cases h
  | ok a =>
    rw [h1] at h
    simp only [Outcome.bind_ok] at h
    cases h2 : Fn.run f a.2 xs with
    | exn => rw [h2] at h; cases h
    | ub => rw [h2] at h; cases h
    | ok b =>
      rw [h2] at h
      simp only [Outcome.bind_ok, Outcome.pure_eq] at h
      have h := Prod.mk.inj (Outcome.ok.inj h)
      exact ⟨a.1, b.1, a.2, rfl, by rw [h2, ← h.2], h.1.symm⟩

theorem run_length {f : Fn σ K} (xs : List (Option K)) : ∀ {s s' : σ} {ys : List (Option K)},
    Fn.run f s xs = .ok (ys, s') → ys.length = xs.length := by
  induction xs with
  | nil => intro s s' ys h; rw [← (Prod.mk.inj (Outcome.ok.inj h)).1]
  | cons x xs ih =>
    intro s s' ys h
    obtain ⟨y, ys', s1, _, h2, rfl⟩ := run_cons_ok h
    simp [ih h2]

/-- Two functors with states of their own: the points are the pairs of their results. -/
theorem genLoop_both (xf : Bool) (f : Fn σ K) (g : Fn τ K) (box : BBox K) (nX nY : Int)
    (l : List (Nat × Nat)) : ∀ (s s' : σ) (t t' : τ) (xs ys : List (Option K)),
    Fn.run f s (l.map (fun e => Gen.gridCoord box.xMin box.width nX e.2)) = .ok (xs, s') →
    Fn.run g t (l.map (fun e => Gen.gridCoord box.yMin box.height nY e.1)) = .ok (ys, t') →
    Gen.genLoop xf (Gen.ofTwo f.onFst g.onSnd) box nX nY (s, t) l =
      .ok (List.zipWith Pt.mk xs ys, (s', t')) := by
  induction l with
  | nil =>
    intro s s' t t' xs ys h1 h2
    have h1 := Prod.mk.inj (Outcome.ok.inj h1)
    have h2 := Prod.mk.inj (Outcome.ok.inj h2)
    rw [← h1.1, ← h2.1, ← h1.2, ← h2.2]; rfl
  | cons e l ih =>
    intro s s' t t' xs ys h1 h2
    obtain ⟨i, j⟩ := e
    obtain ⟨y, ys', s1, a1, a2, rfl⟩ := run_cons_ok h1
    obtain ⟨z, zs', t1, b1, b2, rfl⟩ := run_cons_ok h2
    have h3 := ih s1 s' t1 t' ys' zs' a2 b2
    have hr : Gen.result xf (Gen.ofTwo f.onFst g.onSnd) (s, t) (Gen.gridCoord box.xMin box.width nX j)
        (Gen.gridCoord box.yMin box.height nY i) = .ok (⟨y, z⟩, (s1, t1)) := by
      unfold Gen.result Gen.ofTwo Gen.call
      dsimp only at a1 b1 ⊢
      cases xf with
      | true =>
        unfold Fn.onFst Fn.onSnd
        simp only [if_true, a1, Outcome.bind_ok, Outcome.pure_eq, b1]
      | false =>
        unfold Fn.onFst Fn.onSnd
        simp only [Bool.false_eq_true, if_false, a1, Outcome.bind_ok, Outcome.pure_eq, b1]
    unfold Gen.genLoop
    rw [hr]
    simp only [Outcome.bind_ok]
    rw [h3]; rfl

theorem genLoop_x (xf : Bool) (f : Fn σ K) (gX : Option (Fn σ K)) (box : BBox K) (nX nY : Int)
    (l : List (Nat × Nat)) : ∀ (s s' : σ) (rs : List (Option K)),
    Fn.run f s (l.map (fun e => Gen.gridCoord box.xMin box.width nX e.2)) = .ok (rs, s') →
    Gen.genLoop xf ⟨gX, some f, .x⟩ box nX nY s l =
      .ok (List.zipWith (fun e r => (⟨Gen.gridCoord box.xMin box.width nX e.2,
        Gen.addNum (Gen.gridCoord box.yMin box.height nY e.1) r⟩ : Pt (Option K))) l rs, s') := by
  induction l with
  | nil =>
    intro s s' rs h
    have h := Prod.mk.inj (Outcome.ok.inj h)
    rw [← h.2]; rfl
  | cons e l ih =>
    intro s s' rs h
    obtain ⟨i, j⟩ := e
    obtain ⟨y, ys', s1, a1, a2, rfl⟩ := run_cons_ok h
    have h3 := ih s1 s' ys' a2
    unfold Gen.genLoop Gen.result Gen.call
    dsimp only at a1 ⊢
    rw [a1]
    simp only [Outcome.bind_ok, Outcome.pure_eq]
    rw [h3]; rfl

theorem genLoop_y (xf : Bool) (f : Fn σ K) (gY : Option (Fn σ K)) (box : BBox K) (nX nY : Int)
    (l : List (Nat × Nat)) : ∀ (s s' : σ) (rs : List (Option K)),
    Fn.run f s (l.map (fun e => Gen.gridCoord box.yMin box.height nY e.1)) = .ok (rs, s') →
    Gen.genLoop xf ⟨some f, gY, .y⟩ box nX nY s l =
      .ok (List.zipWith (fun e r => (⟨Gen.addNum (Gen.gridCoord box.xMin box.width nX e.2) r,
        Gen.gridCoord box.yMin box.height nY e.1⟩ : Pt (Option K))) l rs, s') := by
  induction l with
  | nil =>
    intro s s' rs h
    have h := Prod.mk.inj (Outcome.ok.inj h)
    rw [← h.2]; rfl
  | cons e l ih =>
    intro s s' rs h
    obtain ⟨i, j⟩ := e
    obtain ⟨y, ys', s1, a1, a2, rfl⟩ := run_cons_ok h
    have h3 := ih s1 s' ys' a2
    unfold Gen.genLoop Gen.result Gen.call
    dsimp only at a1 ⊢
    rw [a1]
    simp only [Outcome.bind_ok, Outcome.pure_eq]
    rw [h3]; rfl

end Delynoi
