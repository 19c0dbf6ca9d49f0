import Verif.Spec.TriSegment
import Verif.Proofs.TriLocate2
import Verif.Proofs.TriCarve2
/-! # `finddirection` -/
set_option linter.unusedSectionVars false
namespace Delynoi.Tri
variable {K : Type} [Field K] [LinearOrder K] [IsStrictOrderedRing K]
  {m : Heap} {ts : List Nat} {pos : Nat → Pt K} {p : Pt K}

theorem flatMap_three {β : Type} (f : Nat → List β) (hf : ∀ t, (f t).length ≤ 3) : ∀ ts : List Nat,
    (ts.flatMap f).length ≤ 3 * ts.length
  | [] => by simp
  | t :: ts => by
    have := hf t
    have := flatMap_three f hf ts
    rw [List.flatMap_cons, List.length_append, List.length_cons]
    omega

theorem vertsOf_card : (vertsOf m ts).card ≤ 3 * ts.length := by
  refine (List.toFinset_card_le _).trans (flatMap_three _ (fun t => ?_) ts)
  have : ∀ o : Option Nat, o.toList.length ≤ 1 := by rintro (_ | _) <;> simp
  have h0 := this (m.corner (t, 0))
  have h1 := this (m.corner (t, 1))
  have h2 := this (m.corner (t, 2))
  simp only [List.length_append]
  omega

open Classical in
/-- The vertices to come when turning left. -/
noncomputable def comingL (m : Heap) (ts : List Nat) (pos : Nat → Pt K) (p : Pt K) (v l : Nat) : Finset Nat :=
  (vertsOf m ts).filter fun q => 0 < turn (pos v) (pos q) p ∧ 0 < turn (pos v) (pos l) (pos q)

open Classical in
/-- The vertices to come when turning right. -/
noncomputable def comingR (m : Heap) (ts : List Nat) (pos : Nat → Pt K) (p : Pt K) (v r : Nat) : Finset Nat :=
  (vertsOf m ts).filter fun q => 0 < turn (pos v) p (pos q) ∧ 0 < turn (pos v) (pos q) (pos r)

theorem fan_order' {o d a q p : Pt K} (hd : 0 < turn o p d) (ha : 0 < turn o p a) (hq : 0 < turn o p q)
    (h1 : 0 < turn o a d) (h2 : 0 < turn o q a) : 0 < turn o q d := by
  have e : turn o p a * turn o q d = turn o p q * turn o a d + turn o p d * turn o q a := by
    simp only [turn]; ring
  have : 0 < turn o p a * turn o q d := by
    rw [e]; exact add_pos (mul_pos hq h1) (mul_pos hd h2)
  exact (pos_iff_pos_of_mul_pos this).1 ha

theorem turn_self (a b : Pt K) : turn a b b = 0 := by simp only [turn]; ring

/-- The boundary is in the way. -/
def Blocked (m : Heap) (L : Nat → Prop) (pos : Nat → Pt K) (v : Nat) (p : Pt K) : Prop :=
  ∃ y a b, m.Dir L y a b ∧ m.nbr y = (0, 0) ∧ (a = v ∨ b = v) ∧ turn (pos a) (pos b) p < 0

theorem findLeft_spec (h : Linked m (· ∈ ts)) (c : Ccw m (· ∈ ts) pos) {v : Nat} : ∀ (fuel : Nat) (x : Otri) (l r : Nat) (rc : K),
    m.Tri3 (· ∈ ts) x l v r → (comingL m ts pos p v l).card < fuel → 0 < turn (pos v) (pos l) p →
    (findLeft m pos p (pos v) fuel x (Carve.ccwDet p (pos v) (pos l)) rc = .exn ∧ Blocked m (· ∈ ts) pos v p) ∨
    ∃ y l' r', m.Tri3 (· ∈ ts) y l' v r' ∧ 0 < turn (pos v) (pos r') p ∧ turn (pos v) (pos l') p ≤ 0 ∧
      findLeft m pos p (pos v) fuel x (Carve.ccwDet p (pos v) (pos l)) rc = .ok (y, turn (pos v) (pos l') p, turn (pos v) (pos r') p) := by
  have ed : ∀ q : Pt K, ∀ u : Pt K, Carve.ccwDet p u q = turn u q p := by
    intro q u; rw [ccwDet_eq]; simp only [turn]; ring
  intro fuel
  induction fuel with
  | zero => intro x l r rc t hf; omega
  | succ fuel ih =>
    intro x l r rc t hf hl
    rw [findLeft, ed, if_pos hl]
    by_cases h0 : (m.onext x).1 = 0
    · rw [if_pos h0]
      refine Or.inl ⟨rfl, lprev x, l, v, t.prev.dir, (nbr_zero h t.prev.1).1 h0, Or.inr rfl, ?_⟩
      have : turn (pos l) (pos v) p = - turn (pos v) (pos l) p := by simp only [turn]; ring
      linarith
    rw [if_neg h0]
    have h0' : m.nbr (lprev x) ≠ (0, 0) := fun e => h0 (by rw [Heap.onext, Heap.sym, e])
    simp only [Heap.onext, Heap.sym]
    obtain ⟨w, hw⟩ := h.cross t.prev h0'
    simp only [Heap.apex, hw.2.1, deref, Outcome.bind_ok]
    by_cases hp : 0 < turn (pos v) (pos w) p
    · have hturn : 0 < turn (pos v) (pos l) (pos w) := by
        have := c _ _ _ _ hw
        have e : turn (pos v) (pos l) (pos w) = turn (pos w) (pos v) (pos l) := by simp only [turn]; ring
        rw [e]; exact this
      refine ih _ w l (turn (pos v) (pos l) p) hw ?_ hp
      refine lt_of_lt_of_le (Finset.card_lt_card ⟨fun q hq => ?_, fun hsub => ?_⟩) (Nat.lt_succ_iff.1 hf)
      · rw [comingL, Finset.mem_filter] at hq ⊢
        exact ⟨hq.1, hq.2.1, fan_order hl hp hq.2.1 hturn hq.2.2⟩
      · have hwm : w ∈ comingL m ts pos p v l := by
          rw [comingL, Finset.mem_filter]
          exact ⟨mem_vertsOf hw.1 hw.2.1, hp, hturn⟩
        have := hsub hwm
        rw [comingL, Finset.mem_filter, turn_self] at this
        exact lt_irrefl _ this.2.2
    · refine Or.inr ⟨_, w, l, hw, hl, not_lt.1 hp, ?_⟩
      rw [ed]
      unfold findLeft
      rw [if_neg hp]

theorem findRight_spec (h : Linked m (· ∈ ts)) (c : Ccw m (· ∈ ts) pos) {v : Nat} : ∀ (fuel : Nat) (x : Otri) (l r : Nat) (lc : K),
    m.Tri3 (· ∈ ts) x l v r → (comingR m ts pos p v r).card < fuel → 0 < turn (pos v) p (pos r) →
    (findRight m pos p (pos v) fuel x lc (Carve.ccwDet (pos v) p (pos r)) = .exn ∧ Blocked m (· ∈ ts) pos v p) ∨
    ∃ y l' r', m.Tri3 (· ∈ ts) y l' v r' ∧ 0 < turn (pos v) p (pos l') ∧ turn (pos v) p (pos r') ≤ 0 ∧
      findRight m pos p (pos v) fuel x lc (Carve.ccwDet (pos v) p (pos r)) = .ok (y, turn (pos v) p (pos l'), turn (pos v) p (pos r')) := by
  intro fuel
  induction fuel with
  | zero => intro x l r rc t hf; omega
  | succ fuel ih =>
    intro x l r rc t hf hl
    rw [findRight, ccwDet_eq, if_pos hl]
    by_cases h0 : (m.oprev x).1 = 0
    · rw [if_pos h0]
      refine Or.inl ⟨rfl, x, v, r, t.dir, (nbr_zero h t.1).1 h0, Or.inl rfl, ?_⟩
      have : turn (pos v) (pos r) p = - turn (pos v) p (pos r) := by simp only [turn]; ring
      linarith
    rw [if_neg h0]
    have h0' : m.nbr x ≠ (0, 0) := fun e => h0 (by rw [Heap.oprev, Heap.sym, e]; rfl)
    simp only [Heap.oprev, Heap.sym]
    obtain ⟨w, hw'⟩ := h.cross t h0'
    have hw := hw'.next
    have hd : m.corner (lprev (lnext (m.nbr x))) = some w := hw.2.2.2
    simp only [Heap.dest, hd, deref, Outcome.bind_ok]
    by_cases hp : 0 < turn (pos v) p (pos w)
    · have hturn : 0 < turn (pos v) (pos w) (pos r) := by
        have := c _ _ _ _ hw
        have e : turn (pos v) (pos w) (pos r) = turn (pos r) (pos v) (pos w) := by simp only [turn]; ring
        rw [e]; exact this
      refine ih _ r w (turn (pos v) p (pos r)) hw ?_ hp
      refine lt_of_lt_of_le (Finset.card_lt_card ⟨fun q hq => ?_, fun hsub => ?_⟩) (Nat.lt_succ_iff.1 hf)
      · rw [comingR, Finset.mem_filter] at hq ⊢
        exact ⟨hq.1, hq.2.1, fan_order' hl hp hq.2.1 hturn hq.2.2⟩
      · have hwm : w ∈ comingR m ts pos p v r := by
          rw [comingR, Finset.mem_filter]
          exact ⟨mem_vertsOf (x := lprev (lnext (m.nbr x))) hw.1 hd, hp, hturn⟩
        have := hsub hwm
        rw [comingR, Finset.mem_filter, turn_self] at this
        exact lt_irrefl _ this.2.2
    · refine Or.inr ⟨_, r, w, hw, hl, not_lt.1 hp, ?_⟩
      rw [ccwDet_eq]
      unfold findRight
      rw [if_neg hp]

/-- A point on the line of `v` and `l`, to the left of `v → r`, is on the ray to `l`. -/
theorem ray_of {v l r p : Pt K} (hc : 0 < turn v r l) (h0 : turn v l p = 0) (hr : 0 ≤ turn v r p) (hp : p ≠ v) :
    ∃ t, 0 < t ∧ l = lineAt v p t := by
  have hlv : v ≠ l := by
    rintro rfl
    simp [turn] at hc
  have hvp : v ≠ p := fun e => hp e.symm
  obtain ⟨t, ht⟩ := lineAt_of_turn (a := v) (b := p) (p := l) hvp (by rw [← neg_eq_zero, ← h0]; simp only [turn]; ring)
  refine ⟨t, ?_, ht⟩
  have e : turn v r l = t * turn v r p := by rw [ht]; simp only [turn, lineAt]; ring
  rw [e] at hc
  by_contra hn
  have : t * turn v r p ≤ 0 := mul_nonpos_of_nonpos_of_nonneg (not_lt.1 hn) hr
  linarith

theorem finddirection_spec (h : Linked m (· ∈ ts)) (c : Ccw m (· ∈ ts) pos) {v : Nat} {x : Otri} {fuel : Nat}
    (hf : 3 * ts.length ≤ fuel) (hx : Star m (· ∈ ts) v x) (hp : p ≠ pos v) :
    (finddirection m pos p fuel x = .exn ∧ Blocked m (· ∈ ts) pos v p) ∨
    ∃ r y, finddirection m pos p fuel x = .ok (r, y) ∧ Toward m (· ∈ ts) pos v p r y := by
  obtain ⟨l, hl⟩ := h.corners x.1 hx.1 x.2
  obtain ⟨r, hr⟩ := h.corners x.1 hx.1 (lprev x).2
  have t : m.Tri3 (· ∈ ts) x l v r := ⟨hx.1, hl, hx.2, hr⟩
  have hl' : m.corner x = some l := hl
  have hr' : m.corner (lprev x) = some r := hr
  have cardL : (comingL m ts pos p v l).card < fuel ∨ ¬ 0 < turn (pos v) (pos l) p := by
    left
    refine lt_of_lt_of_le (Finset.card_lt_card ⟨Finset.filter_subset _ _, fun hsub => ?_⟩) (vertsOf_card.trans hf)
    have := hsub (mem_vertsOf t.1 t.2.1)
    rw [comingL, Finset.mem_filter, turn_self] at this
    exact lt_irrefl _ this.2.2
  have cardR : (comingR m ts pos p v r).card < fuel := by
    refine lt_of_lt_of_le (Finset.card_lt_card ⟨Finset.filter_subset _ _, fun hsub => ?_⟩) (vertsOf_card.trans hf)
    have := hsub (mem_vertsOf (x := lprev x) t.1 hr')
    rw [comingR, Finset.mem_filter, turn_self] at this
    exact lt_irrefl _ this.2.2
  have ed : ∀ q u : Pt K, Carve.ccwDet p u q = turn u q p := by
    intro q u; rw [ccwDet_eq]; simp only [turn]; ring
  have sw : ∀ q u : Pt K, turn u q p = - turn u p q := by
    intro q u; simp only [turn]; ring
  have tri : ∀ y l' r', m.Tri3 (· ∈ ts) y l' v r' → 0 < turn (pos v) (pos r') (pos l') := by
    intro y l' r' ty
    have := c _ _ _ _ ty
    have e : turn (pos v) (pos r') (pos l') = turn (pos l') (pos v) (pos r') := by simp only [turn]; ring
    rw [e]; exact this
  -- what follows from the result of the loops
  have fin : ∀ (y : Otri) (l' r' : Nat) (a b : K), m.Tri3 (· ∈ ts) y l' v r' → turn (pos v) (pos l') p ≤ 0 → 0 ≤ turn (pos v) (pos r') p →
      (a = 0 ↔ turn (pos v) (pos l') p = 0) → (b = 0 ↔ turn (pos v) (pos r') p = 0) →
      ∃ r z, (if a = 0 then Outcome.ok (Found.leftCollinear, y) else if b = 0 then .ok (.rightCollinear, y) else .ok (.within, y)) = .ok (r, z) ∧
        Toward m (· ∈ ts) pos v p r z := by
    intro y l' r' a b ty h1 h2 ha hb
    by_cases e1 : a = 0
    · rw [if_pos e1]
      exact ⟨_, _, rfl, l', r', ty, ray_of (tri _ _ _ ty) (ha.1 e1) h2 hp⟩
    rw [if_neg e1]
    by_cases e2 : b = 0
    · rw [if_pos e2]
      refine ⟨_, _, rfl, l', r', ty, ?_⟩
      have e3 := hb.1 e2
      have hvp : pos v ≠ p := fun e => hp e.symm
      obtain ⟨s, hs⟩ := lineAt_of_turn (a := pos v) (b := p) (p := pos r') hvp (by rw [← neg_eq_zero, ← e3]; simp only [turn]; ring)
      refine ⟨s, ?_, hs⟩
      have hc := tri _ _ _ ty
      have e : turn (pos v) (pos r') (pos l') = - s * turn (pos v) (pos l') p := by rw [hs]; simp only [turn, lineAt]; ring
      rw [e] at hc
      by_contra hn
      have := mul_nonpos_of_nonneg_of_nonpos (neg_nonneg.2 (not_lt.1 hn)) h1
      linarith
    rw [if_neg e2]
    refine ⟨_, _, rfl, l', r', ty, lt_of_le_of_ne h2 (fun e => e2 (hb.2 e.symm)), ?_⟩
    have := lt_of_le_of_ne h1 (fun e => e1 (ha.2 e))
    have := sw (pos l') (pos v)
    linarith
  have left : 0 < turn (pos v) (pos l) p → (findLeft m pos p (pos v) fuel x (Carve.ccwDet p (pos v) (pos l)) (Carve.ccwDet (pos v) p (pos r)) = .exn ∧ Blocked m (· ∈ ts) pos v p) ∨
      ∃ q r' z, findLeft m pos p (pos v) fuel x (Carve.ccwDet p (pos v) (pos l)) (Carve.ccwDet (pos v) p (pos r)) = .ok q ∧
        (if q.2.1 = 0 then Outcome.ok (Found.leftCollinear, q.1) else if q.2.2 = 0 then .ok (.rightCollinear, q.1) else .ok (.within, q.1)) = .ok (r', z) ∧
        Toward m (· ∈ ts) pos v p r' z := by
    intro hpos
    rcases findLeft_spec (p := p) h c fuel x l r (Carve.ccwDet (pos v) p (pos r)) t (cardL.resolve_right (not_not.2 hpos)) hpos with hh | ⟨y, l', r', ty, h1, h2, e⟩
    · exact Or.inl hh
    · obtain ⟨r2, z, e2, ht⟩ := fin y l' r' _ _ ty h2 h1.le Iff.rfl Iff.rfl
      exact Or.inr ⟨_, r2, z, e, e2, ht⟩
  have right : 0 < turn (pos v) p (pos r) → (findRight m pos p (pos v) fuel x (Carve.ccwDet p (pos v) (pos l)) (Carve.ccwDet (pos v) p (pos r)) = .exn ∧ Blocked m (· ∈ ts) pos v p) ∨
      ∃ q r' z, findRight m pos p (pos v) fuel x (Carve.ccwDet p (pos v) (pos l)) (Carve.ccwDet (pos v) p (pos r)) = .ok q ∧
        (if q.2.1 = 0 then Outcome.ok (Found.leftCollinear, q.1) else if q.2.2 = 0 then .ok (.rightCollinear, q.1) else .ok (.within, q.1)) = .ok (r', z) ∧
        Toward m (· ∈ ts) pos v p r' z := by
    intro hpos
    rcases findRight_spec (p := p) h c fuel x l r (Carve.ccwDet p (pos v) (pos l)) t cardR hpos with hh | ⟨y, l', r', ty, h1, h2, e⟩
    · exact Or.inl hh
    · have s1 := sw (pos l') (pos v)
      have s2 := sw (pos r') (pos v)
      obtain ⟨r2, z, e2, ht⟩ := fin y l' r' (turn (pos v) p (pos l')) (turn (pos v) p (pos r')) ty (by linarith) (by linarith)
        (by rw [s1, neg_eq_zero]) (by rw [s2, neg_eq_zero])
      exact Or.inr ⟨_, r2, z, e, e2, ht⟩
  rw [finddirection]
  have hx2 : m.corner (lnext x) = some v := hx.2
  simp only [Heap.org, Heap.dest, Heap.apex, hl', hr', hx2, deref, Outcome.bind_ok]
  by_cases h1 : 0 < turn (pos v) (pos l) p
  · have left := left h1
    by_cases h2 : 0 < turn (pos v) p (pos r)
    · have hh : 0 < Carve.ccwDet p (pos v) (pos l) ∧ 0 < Carve.ccwDet (pos v) p (pos r) := by
        rw [ed, ccwDet_eq]; exact ⟨h1, h2⟩
      rw [if_pos hh]
      split_ifs with hn
      · rcases right h2 with ⟨e, hb⟩ | ⟨q, r', z, e, e2, ht⟩
        · rw [e]; exact Or.inl ⟨rfl, hb⟩
        · rw [e]; exact Or.inr ⟨r', z, e2, ht⟩
      · rcases left with ⟨e, hb⟩ | ⟨q, r', z, e, e2, ht⟩
        · rw [e]; exact Or.inl ⟨rfl, hb⟩
        · rw [e]; exact Or.inr ⟨r', z, e2, ht⟩
    · have hh : ¬ (0 < Carve.ccwDet p (pos v) (pos l) ∧ 0 < Carve.ccwDet (pos v) p (pos r)) := by
        rw [ed, ccwDet_eq]; exact fun hh => h2 hh.2
      have hh1 : 0 < Carve.ccwDet p (pos v) (pos l) := by rw [ed]; exact h1
      rw [if_neg hh, if_pos hh1]
      rcases left with ⟨e, hb⟩ | ⟨q, r', z, e, e2, ht⟩
      · rw [e]; exact Or.inl ⟨rfl, hb⟩
      · rw [e]; exact Or.inr ⟨r', z, e2, ht⟩
  · have hh : ¬ (0 < Carve.ccwDet p (pos v) (pos l) ∧ 0 < Carve.ccwDet (pos v) p (pos r)) := by
      rw [ed, ccwDet_eq]; exact fun hh => h1 hh.1
    have hh1 : ¬ 0 < Carve.ccwDet p (pos v) (pos l) := by rw [ed]; exact h1
    rw [if_neg hh, if_neg hh1]
    by_cases h2 : 0 < turn (pos v) p (pos r)
    · rcases right h2 with ⟨e, hb⟩ | ⟨q, r', z, e, e2, ht⟩
      · rw [e]; exact Or.inl ⟨rfl, hb⟩
      · rw [e]; exact Or.inr ⟨r', z, e2, ht⟩
    · have hh2 : ¬ 0 < Carve.ccwDet (pos v) p (pos r) := by rw [ccwDet_eq]; exact h2
      right
      unfold findRight
      rw [if_neg hh2]
      have s2 := sw (pos r) (pos v)
      exact fin x l r (Carve.ccwDet p (pos v) (pos l)) (Carve.ccwDet (pos v) p (pos r)) t (not_lt.1 h1) (by linarith [not_lt.1 h2]) (by rw [ed]) (by rw [ccwDet_eq]; constructor <;> intro e <;> linarith)

end Delynoi.Tri
