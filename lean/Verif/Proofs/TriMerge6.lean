import Verif.Proofs.TriMerge5
/-!
# Knitting two triangulations together: the tangent
-/
set_option linter.unusedSectionVars false
namespace Delynoi.Tri
variable {K : Type} [Field K] [LinearOrder K] [IsStrictOrderedRing K] {pos : Nat → Pt K}
variable {m m' : Heap} {A B : Nat → Prop} {x y : Otri}

theorem Sewn.some_of (S : Sewn m A) (hx : A x.1) (h : m.corner x = none) (hy : y.1 = x.1) (hne : y ≠ x) : ∃ v, m.corner y = some v := by
  cases e : m.corner y with
  | some v => exact ⟨v, rfl⟩
  | none => exact absurd (by rw [e, h]) (S.proper.ne hx hy hne)

/-- An edge that starts at NULL has two other vertices. -/
theorem Sewn.of_org (S : Sewn m A) (hx : A x.1) (h : m.org x = none) : ∃ u v, m.dest x = some u ∧ m.apex x = some v := by
  obtain ⟨u, hu⟩ := S.some_of (x := lnext x) (y := lprev x) hx h rfl prev_ne_next
  obtain ⟨v, hv⟩ := S.some_of (x := lnext x) (y := x) hx h rfl (Ne.symm next_ne)
  exact ⟨u, v, hu, hv⟩

theorem Sewn.of_dest (S : Sewn m A) (hx : A x.1) (h : m.dest x = none) : ∃ u v, m.org x = some u ∧ m.apex x = some v := by
  obtain ⟨u, hu⟩ := S.some_of (x := lprev x) (y := lnext x) hx h rfl (Ne.symm prev_ne_next)
  obtain ⟨v, hv⟩ := S.some_of (x := lprev x) (y := x) hx h rfl (Ne.symm prev_ne)
  exact ⟨u, v, hu, hv⟩

theorem Sewn.sym_org (S : Sewn m A) (hx : A x.1) : m.org (m.nbr x) = m.dest x := (S.fits x hx).next
theorem Sewn.sym_dest (S : Sewn m A) (hx : A x.1) : m.dest (m.nbr x) = m.org x := (S.fits x hx).prev

/-- Backwards along the boundary. -/
theorem Sewn.back_org (S : Sewn m A) (hx : A x.1) (h : m.org x = none) : A (m.nbr (lprev x)).1 ∧ m.org (m.nbr (lprev x)) = none ∧ m.dest (m.nbr (lprev x)) = m.apex x := by
  refine ⟨S.inside (lprev x) hx, ?_, ?_⟩
  · rw [S.sym_org (x := lprev x) hx]
    show m.corner (lprev (lprev x)) = none
    rw [pp]; exact h
  · rw [S.sym_dest (x := lprev x) hx]
    show m.corner (lnext (lprev x)) = m.corner x
    rw [np]

theorem Sewn.next_dest (S : Sewn m A) (hx : A x.1) (h : m.dest x = none) : A (m.nbr (lnext x)).1 ∧ m.dest (m.nbr (lnext x)) = none ∧ m.org (m.nbr (lnext x)) = m.apex x := by
  refine ⟨S.inside (lnext x) hx, ?_, ?_⟩
  · rw [S.sym_dest (x := lnext x) hx]
    show m.corner (lnext (lnext x)) = none
    rw [nn]; exact h
  · rw [S.sym_org (x := lnext x) hx]
    show m.corner (lprev (lnext x)) = m.corner x
    rw [pn]

theorem tangent_spec (S : Sewn m A) (T : Sewn m B) : ∀ (fuel : Nat) (il ir : Otri), A il.1 → m.org il = none → B ir.1 → m.dest ir = none →
    ∃ r, tangent m pos fuel il ir = .ok r ∧ ∀ il' ir', r = some (il', ir') → A il'.1 ∧ m.org il' = none ∧ B ir'.1 ∧ m.dest ir' = none ∧
      ∃ u p v q, m.dest il' = some u ∧ m.apex il' = some p ∧ m.org ir' = some v ∧ m.apex ir' = some q ∧
        turn (pos u) (pos p) (pos v) ≤ 0 ∧ turn (pos q) (pos v) (pos u) ≤ 0 := by
  intro fuel
  induction fuel with
  | zero => intro il ir _ _ _ _; exact ⟨none, rfl, fun _ _ h => by cases h⟩
  | succ fuel ih =>
    intro il ir ha ho hb hd
    obtain ⟨u, p, hu, hp⟩ := S.of_org ha ho
    obtain ⟨v, q, hv, hq⟩ := T.of_dest hb hd
    unfold tangent
    rw [hu, hp, hv, hq, ccwV_some]
    simp only [Outcome.bind_ok]
    by_cases c1 : 0 < turn (pos u) (pos p) (pos v)
    · simp only [c1, true_or, if_true]
      obtain ⟨a1, a2, a3⟩ := S.back_org ha ho
      have e : m.dest (m.sym (lprev il)) = some p := by rw [← hp]; exact a3
      rw [e, ccwV_some]
      simp only [Outcome.bind_ok]
      split_ifs
      · obtain ⟨b1, b2, -⟩ := T.next_dest hb hd
        exact ih _ _ a1 a2 b1 b2
      · exact ih _ _ a1 a2 hb hd
    · simp only [c1, if_false, hu, ccwV_some, Outcome.bind_ok, false_or]
      by_cases c2 : 0 < turn (pos q) (pos v) (pos u)
      · simp only [if_pos c2]
        obtain ⟨b1, b2, -⟩ := T.next_dest hb hd
        exact ih _ _ ha ho b1 b2
      · simp only [if_neg c2]
        refine ⟨_, rfl, fun il' ir' h => ?_⟩
        cases h
        exact ⟨ha, ho, hb, hd, u, p, v, q, hu, hp, hv, hq, not_lt.mp c1, not_lt.mp c2⟩

theorem Sewn.union (S : Sewn m A) (T : Sewn m B) : Sewn m (fun t => A t ∨ B t) where
  dummy h := h.elim S.dummy T.dummy
  proper t ht := ht.elim (S.proper t) (T.proper t)
  inside x hx := hx.imp (S.inside x) (T.inside x)
  back x hx := hx.elim (S.back x) (T.back x)
  fits x hx := hx.elim (S.fits x) (T.fits x)

theorem Upright.union (S : Upright pos m A) (T : Upright pos m B) : Upright pos m (fun t => A t ∨ B t) :=
  fun x hx => hx.elim (S x) (T x)

theorem shiftDown_spec (S : Sewn m A) : ∀ (fuel : Nat) (x : Otri), A x.1 → m.dest x = none →
    ∃ r, shiftDown m pos fuel x = .ok r ∧ ∀ x', r = some x' → A x'.1 ∧ m.dest x' = none ∧
      ∃ u p, m.org x' = some u ∧ m.apex x' = some p ∧ (pos u).y ≤ (pos p).y := by
  intro fuel
  induction fuel with
  | zero => intro x _ _; exact ⟨none, rfl, fun _ h => by cases h⟩
  | succ fuel ih =>
    intro x hx h
    obtain ⟨u, p, hu, hp⟩ := S.of_dest hx h
    unfold shiftDown
    simp only [hu, hp, deref, Outcome.bind_ok]
    split_ifs with c
    · obtain ⟨b1, b2, -⟩ := S.next_dest hx h
      exact ih _ b1 b2
    · refine ⟨_, rfl, fun x' e => ?_⟩
      cases e
      exact ⟨hx, h, u, p, hu, hp, not_lt.mp c⟩

theorem shiftUp_spec (S : Sewn m A) : ∀ (fuel : Nat) (x : Otri), A x.1 → m.org x = none →
    ∃ r, shiftUp m pos fuel x = .ok r ∧ ∀ x', r = some x' → A x'.1 ∧ m.org x' = none ∧
      ∃ u p, m.dest x' = some u ∧ m.apex (m.sym x') = some p ∧ (pos p).y ≤ (pos u).y := by
  intro fuel
  induction fuel with
  | zero => intro x _ _; exact ⟨none, rfl, fun _ h => by cases h⟩
  | succ fuel ih =>
    intro x hx h
    obtain ⟨u, -, hu, -⟩ := S.of_org hx h
    have hc : A (m.nbr x).1 := S.inside x hx
    have hd : m.dest (m.nbr x) = none := by rw [S.sym_dest hx]; exact h
    obtain ⟨-, p, -, hp⟩ := S.of_dest hc hd
    have hp' : m.apex (m.sym x) = some p := hp
    unfold shiftUp
    simp only [hu, hp', deref, Outcome.bind_ok]
    split_ifs with c
    · exact ih (lnext (m.nbr x)) hc (by show m.corner (lnext (lnext (m.nbr x))) = none; rw [nn]; exact hd)
    · refine ⟨_, rfl, fun x' e => ?_⟩
      cases e
      exact ⟨hx, h, u, p, hu, hp', not_lt.mp c⟩

end Delynoi.Tri
