import Verif.Model.Hole
import Verif.Props.Contain
import Verif.Props.Area
import Mathlib.Tactic.NormNum
/-!
# Properties C30, C32-C36: hole containment, edges, convexity test, equality, self-intersection
-/
set_option linter.unusedSectionVars false
namespace Delynoi

section
variable {K : Type} [Field K] [LinearOrder K] [IsStrictOrderedRing K]

/-! ### C30 -/

private theorem trivial_nonneg (n : Nat) : ∀ i ∈ trivialIndex n, 0 ≤ i ∧ i < n := by
  intro i hi
  obtain ⟨k, hk, rfl⟩ := List.mem_map.1 hi
  have := List.mem_range.1 hk
  constructor
  · exact Int.natCast_nonneg k
  · exact Int.ofNat_lt.2 this

private theorem add_zero_map (l : List ISeg) (h : ∀ s ∈ l, s.hash = pairHash s.p1 s.p2) :
    l.map (fun s => s.add 0) = l := by
  have : ∀ s ∈ l, s.add 0 = s := by
    intro s hs
    have := h s hs
    cases s with
    | mk a b c =>
      simp only at this
      unfold ISeg.add ISeg.mk'
      rw [this]; simp
  exact (List.map_congr_left this).trans (List.map_id l)

private theorem lastContaining_spec (tol : K) (p : List (Pt K)) (q : Pt K) :
    ∀ (es : List (Int × Int)) (c : ISeg), (∀ e ∈ es, (0 ≤ e.1 ∧ e.1 < p.length) ∧ 0 ≤ e.2 ∧ e.2 < p.length) →
    ∃ r, Hole.lastContaining tol p q c (es.map (fun e => ISeg.mk' e.1 e.2)) = .ok r ∧
      ((r = c ∧ ∀ e ∈ es, ISeg.contains tol p q (ISeg.mk' e.1 e.2) = .ok false) ∨
       (∃ e ∈ es, ISeg.contains tol p q (ISeg.mk' e.1 e.2) = .ok true ∧ r = ISeg.mk' e.1 e.2)) := by
  intro es
  induction es with
  | nil => intro c _; exact ⟨c, rfl, Or.inl ⟨rfl, by simp⟩⟩
  | cons e es ih =>
    intro c h
    obtain ⟨⟨h1, h2⟩, h3, h4⟩ := h e (by simp)
    have hc : ∃ b, ISeg.contains tol p q (ISeg.mk' e.1 e.2) = .ok b := by
      have g1 : vecGet p e.1 = .ok (p[e.1.toNat]'(by omega)) :=
        vecGet_ok_iff.2 ⟨h1, List.getElem?_eq_getElem (by omega)⟩
      have g2 : vecGet p e.2 = .ok (p[e.2.toNat]'(by omega)) :=
        vecGet_ok_iff.2 ⟨h3, List.getElem?_eq_getElem (by omega)⟩
      refine ⟨Seg.contains tol q (p[e.1.toNat]'(by omega)) (p[e.2.toNat]'(by omega)), ?_⟩
      unfold ISeg.contains
      have e1 : (ISeg.mk' e.1 e.2).p1 = e.1 := rfl
      have e2 : (ISeg.mk' e.1 e.2).p2 = e.2 := rfl
      rw [e1, e2, g1, g2]; rfl
    obtain ⟨b, hb⟩ := hc
    obtain ⟨r, hr, hr'⟩ := ih (if b then ISeg.mk' e.1 e.2 else c) (fun x hx => h x (by simp [hx]))
    refine ⟨r, ?_, ?_⟩
    · simp only [List.map_cons, Hole.lastContaining, hb, Outcome.bind_ok]; exact hr
    · rcases hr' with ⟨h5, h6⟩ | ⟨x, hx, h5, h6⟩
      · cases b with
        | false =>
          left; refine ⟨by simpa using h5, ?_⟩
          intro x hx
          rcases List.mem_cons.1 hx with rfl | hx
          · exact hb
          · exact h6 x hx
        | true => right; exact ⟨e, by simp, hb, by simpa using h5⟩
      · right; exact ⟨x, by simp [hx], h5, h6⟩

/-- C30: a hole built from a boundary (polygonal and circular holes are) answers `containsPoint`
like the polygon with the same vertices; no call is undefined. -/
theorem C30_hole_containsPoint (tol : K) (pts : List (Pt K)) (center q : Pt K) :
    (Hole.ofBoundary pts center).containsPoint tol q = .ok (containsPoint tol pts q) := by
  unfold Hole.containsPoint
  have hseg : (Hole.ofBoundary pts center).getSegments 0 = getSegments (trivialIndex pts.length) := by
    unfold Hole.getSegments
    apply add_zero_map
    intro s hs
    obtain ⟨e, _, rfl⟩ := List.mem_map.1 hs
    rfl
  have hp : (Hole.ofBoundary pts center).points = pts := rfl
  simp only [hp, hseg]
  have hin := C31_inEdges_eq tol pts _ pts q (resolve_trivial pts)
  obtain ⟨r, hr, hr'⟩ := lastContaining_spec tol pts q (cycPairs (trivialIndex pts.length))
    (ISeg.mk' (-1) (-1)) (fun e he => ⟨trivial_nonneg _ _ (cycPairs_mem he).1,
      trivial_nonneg _ _ (cycPairs_mem he).2⟩)
  have hr2 : Hole.lastContaining tol pts q (ISeg.mk' (-1) (-1)) (getSegments (trivialIndex pts.length)) =
    .ok r := hr
  have hlast : (decide (r.p1 ≠ -1) && decide (r.p2 ≠ -1)) = inEdgesPts tol pts q := by
    obtain ⟨l, hl, h⟩ := C31_containerEdge tol pts (trivialIndex pts.length) q (trivial_nonneg _)
    rw [resolve_trivial] at hl
    have := Outcome.ok.inj hl
    subst this
    have fc : ∀ (k : Fin pts.length) , ∀ e, (cycPairs (trivialIndex pts.length))[k.val]? = some e →
        ISeg.contains tol pts q (ISeg.mk' e.1 e.2) = .ok (Seg.contains tol q pts[k] (nextV pts k)) := by
      intro k e he
      have hlen : (trivialIndex pts.length).length = pts.length := by simp [trivialIndex]
      have hk : k.val < (trivialIndex pts.length).length := by rw [hlen]; exact k.isLt
      rw [cycPairs_getElem? _ _ hk] at he
      have he := Option.some.inj he
      have hkk : ∀ j : Nat, (hj : j < pts.length) → ∀ i : Int, i = j → vecGet pts i = .ok pts[j] := by
        intro j hj i hi
        refine vecGet_ok_iff.2 ⟨by omega, ?_⟩
        have : i.toNat = j := by omega
        rw [this]; exact List.getElem?_eq_getElem hj
      have e1 : e.1 = (k.val : Int) := by rw [← he]; simp [trivialIndex]
      have e2 : e.2 = (((k.val + 1) % pts.length : Nat) : Int) := by
        rw [← he]; simp [trivialIndex]
      have hm : (k.val + 1) % pts.length < pts.length := Nat.mod_lt _ (by have := k.isLt; omega)
      unfold ISeg.contains
      have g1 : (ISeg.mk' e.1 e.2).p1 = e.1 := rfl
      have g2 : (ISeg.mk' e.1 e.2).p2 = e.2 := rfl
      rw [g1, g2, hkk k.val k.isLt _ e1, hkk _ hm _ e2]; rfl
    have hany : inEdgesPts tol pts q = true ↔ ∃ k : Fin pts.length, Seg.contains tol q pts[k] (nextV pts k) = true := by
      unfold inEdgesPts
      rw [cycPairs_eq_finRange, List.any_map, List.any_eq_true]
      simp [Function.comp]
    rcases hr' with ⟨h5, h6⟩ | ⟨e, he, h5, h6⟩
    · have g1 : r.p1 = -1 := by rw [h5]; rfl
      rw [g1]
      simp only [ne_eq, not_true_eq_false, decide_false, Bool.false_and]
      symm
      rw [← Bool.not_eq_true, hany]
      rintro ⟨k, hk⟩
      have hkl : k.val < (cycPairs (trivialIndex pts.length)).length := by
        rw [cycPairs_length]; simp [trivialIndex]
      have := fc k _ (List.getElem?_eq_getElem hkl)
      rw [h6 _ (List.getElem_mem hkl), hk] at this
      cases this
    · have g1 : r.p1 = e.1 := by rw [h6]; rfl
      have g2 : r.p2 = e.2 := by rw [h6]; rfl
      have n1 := trivial_nonneg _ _ (cycPairs_mem he).1
      have n2 := trivial_nonneg _ _ (cycPairs_mem he).2
      rw [g1, g2]
      have : (decide (e.1 ≠ -1) && decide (e.2 ≠ -1)) = true := by
        simp only [Bool.and_eq_true, decide_eq_true_eq]; omega
      rw [this]; symm
      rw [hany]
      obtain ⟨k, hk, hke⟩ := List.getElem_of_mem he
      have hk' : k < pts.length := by rw [cycPairs_length] at hk; simpa [trivialIndex] using hk
      have := fc ⟨k, hk'⟩ e (by rw [← hke]; exact List.getElem?_eq_getElem hk)
      rw [h5] at this
      exact ⟨⟨k, hk'⟩, (Outcome.ok.inj this).symm⟩
  unfold containsPoint
  cases pts.getLast? with
  | none =>
    simp only [Bool.false_eq_true, if_false]
    rw [hr2]
    simp only [Outcome.bind_ok, Outcome.pure_eq, hlast]
  | some z =>
    simp only
    by_cases ho : oddLoop tol q z false pts = true
    · rw [if_pos ho, if_pos ho]
    · rw [if_neg ho, if_neg ho, hr2]
      simp only [Outcome.bind_ok, Outcome.pure_eq, hlast]

/-- C30 for the two hole classes as constructed. -/
theorem C30_hole_classes (tol : K) (pts : List (Pt K)) (c q : Pt K) :
    (∃ h, Hole.polygonal tol pts = .ok h ∧ h.points = pts ∧
      h.containsPoint tol q = .ok (containsPoint tol pts q)) ∧
    (∃ h, Hole.circular tol c pts = .ok h ∧ h.points = pts ∧ h.center = c ∧
      h.containsPoint tol q = .ok (containsPoint tol pts q)) := by
  constructor
  · exact ⟨Hole.ofBoundary pts ⟨0, 0⟩, rfl, rfl, C30_hole_containsPoint _ _ _ _⟩
  · exact ⟨Hole.ofBoundary pts c, by simp [Hole.circular, Poly.ofIndices, isSelfIntersecting, cycPairs],
      rfl, rfl, C30_hole_containsPoint _ _ _ _⟩

/-! ### C32 -/

/-- `ab` is, in some orientation, an edge of the cyclic index list. -/
def IsEdge (idx : List Int) (a b : Int) : Prop :=
  ∃ i : Fin idx.length, (idx[i] = a ∧ nextV idx i = b) ∨ (idx[i] = b ∧ nextV idx i = a)

private theorem indexOfInt_neg {l : List Int} {x : Int} (h : x ∉ l) : indexOfInt l x = -1 := by
  unfold indexOfInt
  have : l.findIdx (fun e => e == x) = l.length := by
    rw [List.findIdx_eq_length]
    intro y hy
    simp only [beq_eq_false_iff_ne]
    rintro rfl; exact h hy
  simp [this]

private theorem indexOfInt_get {l : List Int} (hn : l.Nodup) (k : Nat) (hk : k < l.length) :
    indexOfInt l l[k] = k := by
  unfold indexOfInt
  have : l.findIdx (fun e => e == l[k]) = k := by
    rw [List.findIdx_eq hk]
    refine ⟨by simp, ?_⟩
    intro j hj
    simp only [beq_eq_false_iff_ne]
    intro h
    have := (List.Nodup.getElem_inj_iff hn).1 h
    omega
  simp [this, hk]

/-- C32: on distinct vertices `containsEdge` recognises exactly the polygon's edges. -/
theorem C32_containsEdge_iff (idx : List Int) (hn : idx.Nodup) (s : ISeg) :
    containsEdge idx s = true ↔ IsEdge idx s.p1 s.p2 := by
  unfold containsEdge IsEdge
  simp only [Bool.and_eq_true, Bool.or_eq_true, decide_eq_true_eq]
  by_cases h1 : s.p1 ∈ idx
  swap
  · rw [indexOfInt_neg h1]
    constructor
    · rintro ⟨⟨h, _⟩, _⟩; exact absurd rfl h
    · rintro ⟨i, ⟨h, _⟩ | ⟨_, h⟩⟩
      · exact absurd (h ▸ List.getElem_mem _) h1
      · exact absurd (h ▸ List.getElem_mem _) h1
  by_cases h2 : s.p2 ∈ idx
  swap
  · rw [indexOfInt_neg h2]
    constructor
    · rintro ⟨⟨_, h⟩, _⟩; exact absurd rfl h
    · rintro ⟨i, ⟨_, h⟩ | ⟨h, _⟩⟩
      · exact absurd (h ▸ List.getElem_mem _) h2
      · exact absurd (h ▸ List.getElem_mem _) h2
  obtain ⟨i, hi, hi'⟩ := List.getElem_of_mem h1
  obtain ⟨j, hj, hj'⟩ := List.getElem_of_mem h2
  rw [← hi', ← hj', indexOfInt_get hn i hi, indexOfInt_get hn j hj]
  have hm : ∀ k, (k + 1) % idx.length < idx.length := fun k => Nat.mod_lt _ (by omega)
  have key : (∃ k : Fin idx.length, (idx[k] = idx[i] ∧ nextV idx k = idx[j]) ∨
      (idx[k] = idx[j] ∧ nextV idx k = idx[i])) ↔
      ((i + 1) % idx.length = j ∨ (j + 1) % idx.length = i) := by
    unfold nextV
    constructor
    · rintro ⟨k, ⟨h, h'⟩ | ⟨h, h'⟩⟩
      · left
        have a1 := (List.Nodup.getElem_inj_iff hn).1 h
        have a2 := (List.Nodup.getElem_inj_iff hn).1 h'
        rw [show i = k.val from a1.symm, a2]
      · right
        have a1 := (List.Nodup.getElem_inj_iff hn).1 h
        have a2 := (List.Nodup.getElem_inj_iff hn).1 h'
        rw [show j = k.val from a1.symm, a2]
    · rintro (h | h)
      · exact ⟨⟨i, hi⟩, Or.inl ⟨rfl, by simp only [h]⟩⟩
      · exact ⟨⟨j, hj⟩, Or.inr ⟨rfl, by simp only [h]⟩⟩
  rw [key]
  have mod1 : ∀ k, k < idx.length → (k + 1) % idx.length = if k + 1 = idx.length then 0 else k + 1 := by
    intro k hk
    split
    · rename_i h; rw [h, Nat.mod_self]
    · exact Nat.mod_eq_of_lt (by omega)
  rw [mod1 i hi, mod1 j hj]
  have ea : |(i : Int) - j| = 1 ↔ (i : Int) - j = 1 ∨ (i : Int) - j = -1 := by
    rw [abs_eq (by norm_num)]
  have eb : |(i : Int) - j| = idx.length - 1 ↔ (i : Int) - j = idx.length - 1 ∨ (i : Int) - j = -(idx.length - 1) := by
    rw [abs_eq (by omega)]
  rw [ea, eb]
  split <;> split <;> omega

/-- The edges are those listed by `getSegments`, compared with the unordered `==`. -/
theorem C32_getSegments_iff (idx : List Int) (s : ISeg) :
    (∃ e ∈ getSegments idx, e.eq s = true) ↔ IsEdge idx s.p1 s.p2 := by
  unfold getSegments IsEdge
  rw [cycPairs_eq_finRange]
  simp only [List.map_map, List.mem_map, List.mem_finRange, true_and]
  constructor
  · rintro ⟨e, ⟨i, rfl⟩, h⟩
    refine ⟨i, ?_⟩
    have e1 : (ISeg.mk' idx[i] (nextV idx i)).p1 = idx[i] := rfl
    have e2 : (ISeg.mk' idx[i] (nextV idx i)).p2 = nextV idx i := rfl
    simp only [Function.comp, ISeg.eq, Bool.or_eq_true, Bool.and_eq_true, beq_iff_eq] at h
    rw [e1, e2] at h
    exact h
  · rintro ⟨i, h⟩
    refine ⟨_, ⟨i, rfl⟩, ?_⟩
    have e1 : (ISeg.mk' idx[i] (nextV idx i)).p1 = idx[i] := rfl
    have e2 : (ISeg.mk' idx[i] (nextV idx i)).p2 = nextV idx i := rfl
    simp only [Function.comp, ISeg.eq, Bool.or_eq_true, Bool.and_eq_true, beq_iff_eq]
    rw [e1, e2]
    exact h

/-- Distinctness is needed: with a repeated vertex an edge may be missed. -/
theorem C32_repeated_vertex_misses_edge :
    ∃ (idx : List Int) (s : ISeg), s ∈ getSegments idx ∧ containsEdge idx s = false :=
  ⟨[1, 2, 3, 1, 4], ISeg.mk' 3 1, by decide +kernel, by decide +kernel⟩

example : [3, 7, 5, 9].Nodup ∧ containsEdge [3, 7, 5, 9] (ISeg.mk' 9 3) = true ∧
    containsEdge [3, 7, 5, 9] (ISeg.mk' 3 5) = false := by decide +kernel

/-! ### C33 -/

/-- Turn at the `i`-th edge: from `v_i v_{i+1}` towards `v_{i+2}`. -/
def turnAt (l : List (Pt K)) (i : Fin l.length) : K :=
  turn l[i] (nextV l i) (l[(i.val + 2) % l.length]'(Nat.mod_lt _ (by have := i.isLt; omega)))

theorem cycTriples_getElem {l : List (Pt K)} (h3 : 3 ≤ l.length) (i : Nat) (h : i < l.length) :
    (cycTriples l)[i]? = some (l[i], l[(i + 1) % l.length]'(Nat.mod_lt _ (by omega)),
      l[(i + 2) % l.length]'(Nat.mod_lt _ (by omega))) := by
  have h2 : (l.drop 2 ++ l.take 2)[i]? = some (l[(i + 2) % l.length]'(Nat.mod_lt _ (by omega))) := by
    by_cases hi : i + 2 < l.length
    · rw [List.getElem?_append_left (by simp only [List.length_drop]; omega)]
      rw [List.getElem?_drop, List.getElem?_eq_getElem (by omega)]
      simp only [Nat.mod_eq_of_lt hi]; simp only [Nat.add_comm]
    · rw [List.getElem?_append_right (by simp only [List.length_drop]; omega)]
      rw [List.length_drop, List.getElem?_take_of_lt (by omega), List.getElem?_eq_getElem (by omega)]
      have : (i + 2) % l.length = i - (l.length - 2) := by
        rw [Nat.mod_eq_sub_mod (by omega), Nat.mod_eq_of_lt (by omega)]; omega
      simp only [this]
  unfold cycTriples
  rw [List.getElem?_zip_eq_some]
  refine ⟨List.getElem?_eq_getElem h, ?_⟩
  rw [List.getElem?_zip_eq_some]
  exact ⟨next_getElem? l i h, h2⟩

theorem cycTriples_length {l : List (Pt K)} : (cycTriples l).length = l.length := by
  unfold cycTriples
  simp only [List.length_zip, List.length_append, List.length_drop, List.length_take]
  omega

/-- C33, exact meaning of the test: no turn has the sign opposite to the first one. -/
theorem C33_isConvex_iff (l : List (Pt K)) (h3 : 3 ≤ l.length) :
    ∃ b, isConvex l = .ok b ∧ (b = true ↔ ∀ i, 0 ≤ turnAt l ⟨0, by omega⟩ * turnAt l i) := by
  match l, h3 with
  | a :: b :: c :: l, h3 =>
    refine ⟨_, rfl, ?_⟩
    have h0 : turnAt (a :: b :: c :: l) ⟨0, by omega⟩ = orientation a b c := by
      unfold turnAt nextV
      simp only [List.length_cons]
      have e1 : (0 + 1) % (l.length + 1 + 1 + 1) = 1 := Nat.mod_eq_of_lt (by omega)
      have e2 : (0 + 2) % (l.length + 1 + 1 + 1) = 2 := Nat.mod_eq_of_lt (by omega)
      simp only [e1, e2]
      rfl
    rw [h0, List.all_eq_true]
    have hlen := cycTriples_length (l := a :: b :: c :: l)
    constructor
    · intro h i
      rcases Nat.eq_zero_or_pos i.val with hi | hi
      · have : i = ⟨0, by omega⟩ := Fin.ext hi
        rw [this, h0]; exact mul_self_nonneg _
      · have hg := cycTriples_getElem (l := a :: b :: c :: l) h3 i.val i.isLt
        have : (cycTriples (a :: b :: c :: l)).tail[i.val - 1]? =
            (cycTriples (a :: b :: c :: l))[i.val]? := by
          rw [List.getElem?_tail, Nat.sub_add_cancel hi]
        have := h _ (List.mem_of_getElem? (this.trans hg))
        rw [decide_eq_true_iff, not_lt] at this
        exact this
    · intro h t ht
      obtain ⟨k, hk, rfl⟩ := List.getElem_of_mem ht
      rw [List.length_tail, hlen] at hk
      have hk1 : k + 1 < (a :: b :: c :: l).length := by omega
      have hg := cycTriples_getElem (l := a :: b :: c :: l) h3 (k + 1) hk1
      have hgg : (cycTriples (a :: b :: c :: l)).tail[k] = _ :=
        Option.some.inj ((List.getElem?_eq_getElem (by rw [List.length_tail, hlen]; exact hk)).symm.trans
          (List.getElem?_tail.trans hg))
      rw [hgg, decide_eq_true_iff, not_lt]
      exact h ⟨k + 1, hk1⟩

/-- C33, acceptance: polygons turning only one way (collinear vertices allowed) are accepted. -/
theorem C33_accepts (l : List (Pt K)) (h3 : 3 ≤ l.length)
    (h : (∀ i, 0 ≤ turnAt l i) ∨ (∀ i, turnAt l i ≤ 0)) : isConvex l = .ok true := by
  obtain ⟨b, hb, hb'⟩ := C33_isConvex_iff l h3
  rw [hb, hb'.2]
  rcases h with h | h
  · intro i; exact mul_nonneg (h _) (h _)
  · intro i; exact mul_nonneg_of_nonpos_of_nonpos (h _) (h _)

/-- C33: strictly convex counter-clockwise polygons, and their reversals, are accepted. -/
theorem C33_accepts_convex (l : List (Pt K)) (h : StrictlyConvexCCW l) :
    isConvex l = .ok true := by
  apply C33_accepts l h.1
  left; intro i
  have h3 := h.1
  have hlt : i.val < l.length := i.isLt
  refine (h.2 i ⟨(i.val + 2) % l.length, Nat.mod_lt _ (by omega)⟩ ?_ ?_).le
  · intro hc
    have : (i.val + 2) % l.length = i.val := congrArg Fin.val hc
    by_cases h2 : i.val + 2 < l.length
    · rw [Nat.mod_eq_of_lt h2] at this; omega
    · rw [Nat.mod_eq_sub_mod (by omega), Nat.mod_eq_of_lt (by omega)] at this; omega
  · intro (hc : (i.val + 2) % l.length = (i.val + 1) % l.length)
    by_cases h1 : i.val + 1 < l.length
    · rw [Nat.mod_eq_of_lt h1] at hc
      by_cases h2 : i.val + 2 < l.length
      · rw [Nat.mod_eq_of_lt h2] at hc; omega
      · rw [Nat.mod_eq_sub_mod (by omega), Nat.mod_eq_of_lt (by omega)] at hc; omega
    · rw [Nat.mod_eq_sub_mod (by omega), Nat.mod_eq_of_lt (by omega)] at hc
      rw [Nat.mod_eq_sub_mod (show l.length ≤ i.val + 1 by omega), Nat.mod_eq_of_lt (by omega)] at hc
      omega

/-- C33, rejection: with a non-zero first turn, two turns of opposite sign are rejected.
Missing for the full claim: a zero first turn (see `C33_rejects_refuted`). -/
theorem C33_rejects_partial (l : List (Pt K)) (h3 : 3 ≤ l.length) (h0 : turnAt l ⟨0, by omega⟩ ≠ 0)
    (i j : Fin l.length) (hi : 0 < turnAt l i) (hj : turnAt l j < 0) : isConvex l = .ok false := by
  obtain ⟨b, hb, hb'⟩ := C33_isConvex_iff l h3
  rw [hb]
  cases b with
  | false => rfl
  | true =>
    exfalso
    have := hb'.1 rfl
    rcases lt_or_gt_of_ne h0 with h | h
    · have := this i; have := mul_neg_of_neg_of_pos h hi; linarith
    · have := this j; have := mul_neg_of_pos_of_neg h hj; linarith

end

/-- C33 is false in general: a concave hexagon whose first three vertices are collinear is
accepted. -/
theorem C33_rejects_refuted : ∃ (l : List (Pt ℚ)) (i j : Fin l.length), isConvex l = .ok true ∧
    0 < turnAt l i ∧ turnAt l j < 0 := by
  let l : List (Pt ℚ) := [⟨0, 0⟩, ⟨2, 0⟩, ⟨4, 0⟩, ⟨4, 4⟩, ⟨2, 1⟩, ⟨0, 4⟩]
  exact ⟨l, (1 : Fin 6), (3 : Fin 6), by decide +kernel, by decide +kernel, by decide +kernel⟩

/-- C33: a self-intersecting pentagram turns only one way and is accepted too. -/
theorem C33_star_accepted : ∃ l : List (Pt ℚ), isConvex l = .ok true ∧
    isSelfIntersecting (1/100000) l = true :=
  ⟨[⟨0, 10⟩, ⟨-6, -8⟩, ⟨9, 3⟩, ⟨-9, 3⟩, ⟨6, -8⟩], by decide +kernel, by decide +kernel⟩

example : StrictlyConvexCCW [(⟨0, 0⟩ : Pt ℚ), ⟨4, 0⟩, ⟨5, 3⟩, ⟨0, 2⟩] := by
  unfold StrictlyConvexCCW; decide +kernel

/-! ### C34 -/

/-- C34: the same vertices in any order give equal polygons. -/
theorem C34_perm_equal_partial {K : Type} [Field K] [LinearOrder K] (a b : List Int) (h : a.Perm b) :
    (Poly.fresh a : Poly K).eq (Poly.fresh b) = true := by
  have : polyHash a = polyHash b := by
    unfold polyHash
    apply List.Perm.foldl_eq' h
    intro x _ y _ z
    rw [BitVec.add_assoc, BitVec.add_assoc, BitVec.add_comm (BitVec.signExtend 64 (hashInt x))]
  simp [Poly.eq, Poly.fresh, this]

/-- C34 is false in the other direction: `hash32(61) = 0`, so vertex 61 is invisible, even
between polygons with different numbers of sides. -/
theorem C34_refuted : ∃ a b : List Int, a.Nodup ∧ b.Nodup ∧ ¬ a.Perm b ∧
    (Poly.fresh a : Poly ℚ).eq (Poly.fresh b) = true :=
  ⟨[1, 2, 3], [1, 2, 3, 61], by decide, by decide, by decide, by decide +kernel⟩

/-! ### C35, C36 -/

section
variable {K : Type} [Field K] [LinearOrder K] [IsStrictOrderedRing K]

/-- Two edges that are not equal or cyclically adjacent cross (up to the tolerance on the
parameters; parallel edges never count). -/
def EdgesCross (tol : K) (l : List (Pt K)) : Prop :=
  ∃ i j : Fin l.length, i ≠ j ∧ j.val ≠ (i.val + 1) % l.length ∧ i.val ≠ (j.val + 1) % l.length ∧
    ¬ Parallel l[i] (nextV l i) l[j] (nextV l j) ∧
    ∃ s t : K, -tol ≤ s ∧ s ≤ 1 + tol ∧ -tol ≤ t ∧ t ≤ 1 + tol ∧
      lineAt l[i] (nextV l i) s = lineAt l[j] (nextV l j) t

private theorem prev_iff {n i j : Nat} (hi : i < n) (hj : j < n) :
    j = (i + n - 1) % n ↔ i = (j + 1) % n := by
  rcases Nat.eq_zero_or_pos i with h | h
  · subst h
    rw [Nat.mod_eq_of_lt (by omega)]
    by_cases hjn : j + 1 = n
    · rw [hjn, Nat.mod_self]; omega
    · rw [Nat.mod_eq_of_lt (by omega)]; omega
  · have : (i + n - 1) % n = i - 1 := by
      rw [Nat.mod_eq_sub_mod (by omega), Nat.mod_eq_of_lt (by omega)]; omega
    rw [this]
    by_cases hjn : j + 1 = n
    · rw [hjn, Nat.mod_self]; omega
    · rw [Nat.mod_eq_of_lt (by omega)]; omega

/-- What `isSelfIntersecting` decides. -/
theorem C35_isSelfIntersecting_iff (tol : K) (l : List (Pt K)) :
    isSelfIntersecting tol l = true ↔ EdgesCross tol l := by
  have hm : ∀ e : (Pt K × Pt K) × Nat, e ∈ (cycPairs l).zipIdx ↔
      ∃ i : Fin l.length, e = ((l[i], nextV l i), i.val) := by
    intro e
    rw [List.mem_zipIdx_iff_getElem?]
    constructor
    · intro h
      have hlt : e.2 < l.length := by
        have := (List.getElem?_eq_some_iff.1 h).1; rwa [cycPairs_length] at this
      rw [cycPairs_getElem? l _ hlt] at h
      refine ⟨⟨e.2, hlt⟩, ?_⟩
      exact Prod.ext (Option.some.inj h).symm rfl
    · rintro ⟨i, rfl⟩
      exact cycPairs_getElem? l _ i.isLt
  unfold isSelfIntersecting EdgesCross
  simp only [List.any_eq_true, hm]
  constructor
  · rintro ⟨_, ⟨i, rfl⟩, _, ⟨j, rfl⟩, h⟩
    simp only at h
    split at h
    · cases h
    · rename_i hc
      push Not at hc
      obtain ⟨c1, c2, c3⟩ := hc
      obtain ⟨q, hq⟩ := Option.isSome_iff_exists.1 h
      obtain ⟨hp, t, s, h1, h2, h3, h4, h5, h6⟩ := (C12_intersects_iff tol _ _ _ _ q).1 hq
      refine ⟨i, j, fun h => c1 (congrArg Fin.val h), c3, ?_, hp, t, s, h1, h2, h3, h4, ?_⟩
      · intro h; exact c2 ((prev_iff i.isLt j.isLt).2 h)
      · rw [← h5, ← h6]
  · rintro ⟨i, j, c1, c2, c3, hp, t, s, h1, h2, h3, h4, h5⟩
    refine ⟨_, ⟨i, rfl⟩, _, ⟨j, rfl⟩, ?_⟩
    simp only
    rw [if_neg]
    · rw [(C12_intersects_iff tol _ _ _ _ (lineAt l[i] (nextV l i) t)).2
        ⟨hp, t, s, h1, h2, h3, h4, rfl, h5⟩]
      rfl
    · push Not
      exact ⟨fun h => c1 (Fin.ext h), fun h => c3 ((prev_iff i.isLt j.isLt).1 h), c2⟩

/-- C35, the part that holds: `mutate` throws exactly on vertex lists with crossing edges. -/
theorem C35_mutate_partial (tol : K) (g : Poly K) (p : List (Pt K)) :
    (g.mutate tol p).2 = true ↔ EdgesCross tol p := by
  rw [← C35_isSelfIntersecting_iff]
  unfold Poly.mutate
  split <;> simp [*]

/-- C35, what the constructors do: they accept every vertex list. -/
theorem C35_constructors_accept_all (tol : K) (idx : List Int) (p : List (Pt K)) :
    Poly.ofIndices tol idx p = .ok (Poly.fresh idx) ∧
    Poly.ofPoints tol p = .ok (Poly.fresh (trivialIndex p.length)) :=
  ⟨by simp [Poly.ofIndices, isSelfIntersecting, cycPairs], rfl⟩

/-- C36, the part that holds: a successful `mutate` gives the same polygon as a fresh
construction from the new points, whatever was there before. -/
theorem C36_mutate_ok_partial (tol : K) (g : Poly K) (p : List (Pt K))
    (h : ¬ EdgesCross tol p) : g.mutate tol p = (Poly.fresh (trivialIndex p.length), false) := by
  rw [← C35_isSelfIntersecting_iff] at h
  unfold Poly.mutate
  rw [if_neg h]

end

/-- C35 is false for the constructors: a bow-tie is accepted. -/
theorem C35_constructor_refuted : ∃ (p : List (Pt ℚ)), EdgesCross (1/100000) p ∧
    (∃ g, Poly.ofPoints (1/100000) p = .ok g) ∧
    (∃ g, Poly.ofIndices (1/100000) (trivialIndex p.length) p = .ok g) := by
  refine ⟨[⟨0, 0⟩, ⟨2, 2⟩, ⟨2, 0⟩, ⟨0, 2⟩], (C35_isSelfIntersecting_iff _ _).1 (by decide +kernel),
    ⟨_, rfl⟩, ⟨_, (C35_constructors_accept_all _ _ _).1⟩⟩

example : ¬ EdgesCross (1/100000) [(⟨0, 0⟩ : Pt ℚ), ⟨2, 0⟩, ⟨2, 2⟩, ⟨1, 1⟩, ⟨0, 2⟩] := by
  rw [← C35_isSelfIntersecting_iff]; decide +kernel

/-- C36 is false: when `mutate` throws, the vertex list has been replaced but the hash and the
cached area are those of the old polygon. -/
theorem C36_refuted : ∃ (p q : List (Pt ℚ)) (g g' : Poly ℚ) (a : ℚ),
    (Poly.fresh (trivialIndex p.length)).getArea p = .ok (g, a) ∧ g.mutate (1/100000) q = (g', true) ∧
    g'.points ≠ g.points ∧ g'.hash ≠ polyHash g'.points ∧
    (∃ b, g'.getArea q = .ok (g', b) ∧ b ≠ fanArea q) := by
  let p : List (Pt ℚ) := [⟨0, 0⟩, ⟨3, 0⟩, ⟨0, 3⟩]
  let q : List (Pt ℚ) := [⟨0, 0⟩, ⟨2, 2⟩, ⟨2, 0⟩, ⟨0, 2⟩]
  have hf : fanArea p = 9/2 := by decide +kernel
  have hs : isSelfIntersecting (1/100000) q = true := by decide +kernel
  refine ⟨p, q, { Poly.fresh (trivialIndex p.length) with area := fanArea p },
    { points := trivialIndex q.length, diameter := -1, area := fanArea p, centroid := ⟨0, 0⟩,
      centroidEmpty := true, hash := polyHash (trivialIndex p.length) }, fanArea p, ?_, ?_, ?_, ?_, ?_⟩
  · unfold Poly.getArea
    have e : (Poly.fresh (trivialIndex p.length) : Poly ℚ).points = trivialIndex p.length := rfl
    have e2 : (Poly.fresh (trivialIndex p.length) : Poly ℚ).area = -1 := rfl
    rw [if_pos e2, e, resolve_trivial]; rfl
  · unfold Poly.mutate
    rw [if_pos hs]; rfl
  · decide +kernel
  · decide +kernel
  · refine ⟨fanArea p, ?_, by decide +kernel⟩
    unfold Poly.getArea
    rw [if_neg (by simp only [hf]; norm_num)]

end Delynoi
