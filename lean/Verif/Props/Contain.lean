import Verif.Proofs.Contain
import Verif.Proofs.Resolve
import Verif.Props.Segment
import Verif.Props.IndexSegment
import Mathlib.Data.List.Pairwise
/-!
# Properties C27-C29, C31: point in polygon
-/
set_option linter.unusedSectionVars false
namespace Delynoi
variable {K : Type} [Field K] [LinearOrder K] [IsStrictOrderedRing K]

/-- `q` is on some edge of the polygon up to the tolerance, in the sense of C11. -/
def OnSomeEdge (tol : K) (l : List (Pt K)) (q : Pt K) : Prop :=
  ∃ i : Fin l.length,
    (min l[i].x (nextV l i).x - tol < q.x ∧ q.x < max l[i].x (nextV l i).x + tol) ∧
    (min l[i].y (nextV l i).y - tol < q.y ∧ q.y < max l[i].y (nextV l i).y + tol) ∧
    |turn l[i] (nextV l i) q| < tol

private theorem inEdgesPts_iff (tol : K) (h : 0 < tol) (l : List (Pt K)) (q : Pt K) :
    inEdgesPts tol l q = true ↔ OnSomeEdge tol l q := by
  unfold inEdgesPts OnSomeEdge
  rw [cycPairs_eq_finRange, List.any_map, List.any_eq_true]
  simp only [List.mem_finRange, true_and, Function.comp]
  exact exists_congr (fun i => C11_contains_iff tol h q _ _)

/-- C27: when consecutive vertices that are `==` are the same, `containsPoint` is exactly crossing parity or
nearness to an edge. -/
theorem C27_containsPoint_iff_partial (tol : K) (ht : 0 < tol) (l : List (Pt K)) (q : Pt K)
    (hl : NeighboursApart tol l) :
    containsPoint tol l q = true ↔ Odd (crossings l q) ∨ OnSomeEdge tol l q := by
  cases l with
  | nil => simp [containsPoint, inEdgesPts, cycPairs, crossings, OnSomeEdge]
  | cons a l =>
    have hg : (a :: l).getLast? = some ((a :: l).getLast (by simp)) :=
      List.getLast?_eq_some_getLast (by simp)
    unfold containsPoint
    rw [hg]
    simp only
    rw [← inEdgesPts_iff tol ht, ← oddLoop_cyc tol q a l hl]
    split <;> simp_all

/-- C27 fails without the restriction: in a polygon whose last two vertices are `==`, a point
990 units to the right of everything, with no crossing parity and near no edge, is "inside". -/
theorem C27_containsPoint_refuted :
    ∃ (tol : ℚ) (l : List (Pt ℚ)) (q : Pt ℚ), 0 < tol ∧ containsPoint tol l q = true ∧
      ¬ Odd (crossings l q) ∧ ¬ OnSomeEdge tol l q := by
  let l : List (Pt ℚ) := [⟨0, 0⟩, ⟨10, 0⟩, ⟨10, 10⟩, ⟨10, 10 + 1/200000⟩]
  let q : Pt ℚ := ⟨1000, 10 + 1/400000⟩
  refine ⟨1/100000, l, q, by norm_num, by decide +kernel, ?_, ?_⟩
  · have : crossings l q = (cycPairs l).countP (fun e => crosses e.2 e.1 q) := by
      classical
      rw [crossings_eq]
      apply List.countP_congr
      intro e _
      rw [decide_eq_true_eq, crosses_iff]
    rw [this]
    decide +kernel
  · rw [← inEdgesPts_iff _ (by norm_num)]
    decide +kernel

example : NeighboursApart (1/100000) [(⟨0, 0⟩ : Pt ℚ), ⟨4, 0⟩, ⟨4, 3⟩, ⟨1, 1⟩, ⟨0, 3⟩] := by
  rw [noClose_iff]; unfold Close; decide +kernel

/-- A polygon may visit a vertex several times in a row. -/
example : NeighboursApart (1/100000) [(⟨0, 0⟩ : Pt ℚ), ⟨4, 0⟩, ⟨4, 0⟩, ⟨4, 3⟩] := by
  rw [noClose_iff]; unfold Close; decide +kernel

private theorem resolve_mem {p : List (Pt K)} : ∀ {idx : List Int} {l : List (Pt K)},
    resolve p idx = .ok l → ∀ x ∈ l, x ∈ p
  | [], l, h, x, hx => by simp only [resolve, Outcome.ok.injEq] at h; subst h; simp at hx
  | i :: is, l, h, x, hx => by
    obtain ⟨a, as, h1, h2, rfl⟩ := resolve_cons_ok.1 h
    rcases List.mem_cons.1 hx with rfl | hx
    · exact List.mem_of_getElem? (vecGet_ok_iff.1 h1).2
    · exact resolve_mem h2 x hx

private theorem shared_apart {tol : K} {p : List (Pt K)} (hp : p.Pairwise (fun a b => ¬ Close tol a b))
    {idx : List Int} {l : List (Pt K)} (hr : resolve p idx = .ok l) : NeighboursApart tol l := by
  intro i hc
  have h1 := resolve_mem hr l[i] (List.getElem_mem _)
  have h2 := resolve_mem hr (nextV l i) (List.getElem_mem _)
  by_contra hne
  have : Std.Symm (fun a b : Pt K => ¬ Close tol a b) := ⟨fun a b h hc => h (by
    unfold Close at hc ⊢
    rwa [abs_sub_comm, abs_sub_comm a.y])⟩
  exact hp.forall h1 h2 hne hc

/-- C27 for polygons over a list of distinguishable points, such as the points of a mesh or a region
(C02): the answer is crossing parity or nearness to an edge, whatever the indices are. -/
theorem C27_shared_points (tol : K) (ht : 0 < tol) (p : List (Pt K)) (hp : p.Pairwise (fun a b => ¬ Close tol a b))
    (idx : List Int) (l : List (Pt K)) (hr : resolve p idx = .ok l) (q : Pt K) :
    containsPoint tol l q = true ↔ Odd (crossings l q) ∨ OnSomeEdge tol l q :=
  C27_containsPoint_iff_partial tol ht l q (shared_apart hp hr)

example : [(⟨0, 0⟩ : Pt ℚ), ⟨4, 0⟩, ⟨4, 3⟩].Pairwise (fun a b => ¬ Close (1/100000) a b) ∧
    resolve [(⟨0, 0⟩ : Pt ℚ), ⟨4, 0⟩, ⟨4, 3⟩] [0, 1, 1, 2, 0] = .ok [⟨0, 0⟩, ⟨4, 0⟩, ⟨4, 0⟩, ⟨4, 3⟩, ⟨0, 0⟩] := by
  unfold Close; decide +kernel

/-- C28: every strictly interior point of a strictly convex polygon is contained. -/
theorem C28_inside_contained (tol : K) (ht : 0 < tol) (l : List (Pt K)) (q : Pt K)
    (hl : NeighboursApart tol l) (hc : StrictlyConvexCCW l) (hq : Inside l q) :
    containsPoint tol l q = true :=
  (C27_containsPoint_iff_partial tol ht l q hl).2 (Or.inl (convex_inside_odd hc hq))

/-- C28: a strictly exterior point of a strictly convex polygon is contained only if it is near
an edge. -/
theorem C28_outside_only_near_edge (tol : K) (ht : 0 < tol) (l : List (Pt K)) (q : Pt K)
    (hl : NeighboursApart tol l) (hc : StrictlyConvexCCW l) (hq : Outside l q) :
    containsPoint tol l q = true ↔ OnSomeEdge tol l q := by
  rw [C27_containsPoint_iff_partial tol ht l q hl]
  have := convex_outside_even hc hq
  tauto

/-- C28: points exactly on an edge are contained, for every polygon. -/
theorem C28_edge_contained (tol : K) (ht : 0 < tol) (l : List (Pt K)) (i : Fin l.length) (t : K)
    (h0 : 0 ≤ t) (h1 : t ≤ 1) : containsPoint tol l (lineAt l[i] (nextV l i) t) = true := by
  have hin : inEdgesPts tol l (lineAt l[i] (nextV l i) t) = true := by
    unfold inEdgesPts
    rw [List.any_eq_true]
    refine ⟨(l[i], nextV l i), ?_, C10_contains_convex_combination tol ht _ _ t h0 h1⟩
    rw [cycPairs_eq_finRange]; exact List.mem_map_of_mem (List.mem_finRange i)
  unfold containsPoint
  split
  · exact hin
  · split
    · rfl
    · exact hin

private def sq : List (Pt ℚ) := [⟨0, 0⟩, ⟨4, 0⟩, ⟨5, 3⟩, ⟨0, 2⟩]

example : NeighboursApart (1/100000) sq ∧ StrictlyConvexCCW sq ∧ Inside sq ⟨1, 1⟩ ∧
    Outside sq ⟨5, 1⟩ := by
  refine ⟨?_, ?_, ?_, ?_⟩
  · rw [noClose_iff]; unfold Close sq; decide +kernel
  · unfold StrictlyConvexCCW; decide +kernel
  · unfold Inside; decide +kernel
  · unfold Outside; decide +kernel

private theorem crossesLeft_swap (a b q : Pt K) : CrossesLeft a b q ↔ CrossesLeft b a q := by
  rw [crossesLeft_iff, crossesLeft_iff]
  have h : turn b a q = -turn a b q := by unfold turn; ring
  rw [h, neg_pos, neg_lt_zero]
  unfold UpE DownE
  exact or_comm

private theorem close_swap (tol : K) (a b : Pt K) : Close tol a b ↔ Close tol b a := by
  unfold Close; rw [abs_sub_comm, abs_sub_comm a.y]

private theorem countP_swap {α : Type} (p : α × α → Bool) (hp : ∀ a b, p (a, b) = p (b, a)) (l : List α) :
    (cycPairs l.reverse).countP p = (cycPairs l).countP p := by
  rw [(cycPairs_reverse_perm l).countP_eq, List.countP_map]
  congr 1
  funext e
  exact hp e.2 e.1

private theorem bool_of_iff {a b : Bool} (h : a = true ↔ b = true) : a = b := Bool.eq_iff_iff.2 h

private theorem mem_iff_swap {α : Type} (l : List α) (e : α × α) :
    e ∈ cycPairs l.reverse ↔ e.swap ∈ cycPairs l := by
  rw [(cycPairs_reverse_perm l).mem_iff, List.mem_map]
  constructor
  · rintro ⟨e', he', rfl⟩; simpa using he'
  · intro he; exact ⟨e.swap, he, by simp⟩

private theorem inEdges_reverse (tol : K) (l : List (Pt K)) (q : Pt K) :
    inEdgesPts tol l.reverse q = inEdgesPts tol l q := by
  apply bool_of_iff
  unfold inEdgesPts
  rw [List.any_eq_true, List.any_eq_true]
  constructor
  · rintro ⟨e, he, h⟩
    exact ⟨e.swap, (mem_iff_swap l e).1 he, by
      rw [Prod.fst_swap, Prod.snd_swap, C10_contains_swap]; exact h⟩
  · rintro ⟨e, he, h⟩
    exact ⟨e.swap, (mem_iff_swap l e.swap).2 (by simpa using he), by
      rw [Prod.fst_swap, Prod.snd_swap, C10_contains_swap]; exact h⟩

private theorem inEdges_rotate (tol : K) (l : List (Pt K)) (q : Pt K) (k : Nat) :
    inEdgesPts tol (l.rotate k) q = inEdgesPts tol l q := by
  apply bool_of_iff
  unfold inEdgesPts
  rw [cycPairs_rotate, List.any_eq_true, List.any_eq_true]
  simp only [List.mem_rotate]

/-- C29: start vertex and orientation do not matter (consecutive vertices that are `==` are the same). -/
theorem C29_start_and_orientation_partial (tol : K) (ht : 0 < tol) (l : List (Pt K)) (q : Pt K) (k : Nat)
    (hl : NeighboursApart tol l) :
    containsPoint tol (l.rotate k) q = containsPoint tol l q ∧
    containsPoint tol l.reverse q = containsPoint tol l q := by
  have h1 : NeighboursApart tol (l.rotate k) := by
    rw [noClose_iff] at hl ⊢
    rw [cycPairs_rotate]
    intro e he; exact hl e (List.mem_rotate.1 he)
  have h2 : NeighboursApart tol l.reverse := by
    rw [noClose_iff] at hl ⊢
    intro e he
    rw [close_swap]
    exact fun hc => (hl e.swap ((mem_iff_swap l e).1 he) hc).symm
  have c1 : crossings (l.rotate k) q = crossings l q := by
    rw [crossings_eq, crossings_eq, cycPairs_rotate, (List.rotate_perm _ _).countP_eq]
  have c2 : crossings l.reverse q = crossings l q := by
    rw [crossings_eq, crossings_eq]
    apply countP_swap
    intro a b
    simp only [decide_eq_decide]
    exact crossesLeft_swap a b q
  constructor
  · apply bool_of_iff
    rw [C27_containsPoint_iff_partial tol ht _ q h1, C27_containsPoint_iff_partial tol ht _ q hl, c1,
      ← inEdgesPts_iff tol ht, ← inEdgesPts_iff tol ht, inEdges_rotate]
  · apply bool_of_iff
    rw [C27_containsPoint_iff_partial tol ht _ q h2, C27_containsPoint_iff_partial tol ht _ q hl, c2,
      ← inEdgesPts_iff tol ht, ← inEdgesPts_iff tol ht, inEdges_reverse]

/-- C29 for polygons over a list of distinguishable points. -/
theorem C29_shared_points (tol : K) (ht : 0 < tol) (p : List (Pt K)) (hp : p.Pairwise (fun a b => ¬ Close tol a b))
    (idx : List Int) (l : List (Pt K)) (hr : resolve p idx = .ok l) (q : Pt K) (k : Nat) :
    containsPoint tol (l.rotate k) q = containsPoint tol l q ∧
    containsPoint tol l.reverse q = containsPoint tol l q :=
  C29_start_and_orientation_partial tol ht l q k (shared_apart hp hr)

/-- C29 fails when two consecutive vertices are `==` but different: rotating changes the answer. -/
theorem C29_start_refuted :
    ∃ (tol : ℚ) (l : List (Pt ℚ)) (q : Pt ℚ) (k : Nat), 0 < tol ∧
      containsPoint tol (l.rotate k) q ≠ containsPoint tol l q :=
  ⟨1/100000, [⟨0, 0⟩, ⟨10, 0⟩, ⟨10, 10⟩, ⟨10, 10 + 1/200000⟩], ⟨1000, 10 + 1/400000⟩, 3,
    by norm_num, by decide +kernel⟩

/-! ### C31 -/

private theorem firstContaining_spec (tol : K) (p : List (Pt K)) (q : Pt K) :
    ∀ (idx2 : List (Int × Int)) (ps : List (Pt K × Pt K)),
    (∀ k : Nat, ∀ e, idx2[k]? = some e → ∃ a, ps[k]? = some a ∧ vecGet p e.1 = .ok a.1 ∧
      vecGet p e.2 = .ok a.2) → idx2.length = ps.length →
    (firstContaining tol p q (idx2.map (fun e => ISeg.mk' e.1 e.2)) = .ok (ISeg.mk' (-1) (-1)) ∧
      ∀ a ∈ ps, Seg.contains tol q a.1 a.2 = false) ∨
    (∃ k : Nat, ∃ e a, idx2[k]? = some e ∧ ps[k]? = some a ∧
      firstContaining tol p q (idx2.map (fun e => ISeg.mk' e.1 e.2)) = .ok (ISeg.mk' e.1 e.2) ∧
      Seg.contains tol q a.1 a.2 = true ∧
      ∀ j < k, ∀ b, ps[j]? = some b → Seg.contains tol q b.1 b.2 = false) := by
  intro idx2
  induction idx2 with
  | nil =>
    intro ps _ hlen
    have : ps = [] := List.length_eq_zero_iff.1 hlen.symm
    subst this
    left; exact ⟨rfl, by simp⟩
  | cons e idx2 ih =>
    intro ps h hlen
    cases ps with
    | nil => simp at hlen
    | cons a ps =>
      obtain ⟨a', ha', v1, v2⟩ := h 0 e (by simp)
      have : a = a' := by simpa using ha'
      subst this
      have hc : ISeg.contains tol p q (ISeg.mk' e.1 e.2) = .ok (Seg.contains tol q a.1 a.2) := by
        unfold ISeg.contains
        have e1 : (ISeg.mk' e.1 e.2).p1 = e.1 := rfl
        have e2 : (ISeg.mk' e.1 e.2).p2 = e.2 := rfl
        rw [e1, e2, v1, v2]; rfl
      simp only [List.map_cons, firstContaining, hc, Outcome.bind_ok, Outcome.pure_eq]
      cases hcc : Seg.contains tol q a.1 a.2 with
      | true =>
        right
        exact ⟨0, e, a, by simp, by simp, by simp, hcc, by simp⟩
      | false =>
        simp only [Bool.false_eq_true, if_false]
        rcases ih ps (fun k e' hk => by
            obtain ⟨b, hb, hb'⟩ := h (k + 1) e' (by simpa using hk)
            exact ⟨b, by simpa using hb, hb'⟩) (by simpa using hlen) with ⟨h1, h2⟩ | ⟨k, e', b, h1, h2, h3, h4, h5⟩
        · left
          refine ⟨h1, ?_⟩
          intro b hb
          rcases List.mem_cons.1 hb with rfl | hb
          · exact hcc
          · exact h2 b hb
        · right
          refine ⟨k + 1, e', b, by simpa using h1, by simpa using h2, h3, h4, ?_⟩
          intro j hj c hcj
          cases j with
          | zero => have : a = c := by simpa using hcj
                    subst this; exact hcc
          | succ j => exact h5 j (by omega) c (by simpa using hcj)

private theorem resolve_pairs {p : List (Pt K)} {idx : List Int} {l : List (Pt K)}
    (h : resolve p idx = .ok l) (k : Nat) (e : Int × Int) (hk : (cycPairs idx)[k]? = some e) :
    ∃ a, (cycPairs l)[k]? = some a ∧ vecGet p e.1 = .ok a.1 ∧ vecGet p e.2 = .ok a.2 := by
  have hlen := resolve_length h
  have hk' : k < idx.length := by
    have := (List.getElem?_eq_some_iff.1 hk).1; rwa [cycPairs_length] at this
  rw [cycPairs_getElem? idx k hk'] at hk
  have he := Option.some.inj hk
  have hm : (k + 1) % idx.length < idx.length := Nat.mod_lt _ (by omega)
  obtain ⟨a, ha, va⟩ := resolve_getElem? h (List.getElem?_eq_getElem hk')
  obtain ⟨b, hb, vb⟩ := resolve_getElem? h (List.getElem?_eq_getElem hm)
  have hkl : k < l.length := by omega
  refine ⟨(a, b), ?_, ?_, ?_⟩
  · rw [cycPairs_getElem? l k hkl]
    have hml : (k + 1) % l.length < l.length := Nat.mod_lt _ (by omega)
    rw [List.getElem?_eq_getElem hkl] at ha
    rw [List.getElem?_eq_getElem (by rw [hlen]; exact hm)] at hb
    simp only [hlen]
    rw [Option.some.inj ha, Option.some.inj hb]
  · rw [← he]; exact va
  · rw [← he]; exact vb

/-- C31: `containerEdge` returns the first edge containing the point, as an index segment, or
`(-1,-1)` when no edge contains it; `inEdges` is "some edge contains it". -/
theorem C31_containerEdge (tol : K) (p : List (Pt K)) (idx : List Int) (q : Pt K)
    (hidx : ∀ i ∈ idx, 0 ≤ i ∧ i < p.length) :
    ∃ l : List (Pt K), resolve p idx = .ok l ∧
    ((containerEdge tol p idx q = .ok (ISeg.mk' (-1) (-1)) ∧ inEdges tol p idx q = .ok false ∧
        ∀ i : Fin l.length, Seg.contains tol q l[i] (nextV l i) = false) ∨
     (∃ (i : Fin l.length) (j : Fin idx.length), i.val = j.val ∧
        containerEdge tol p idx q = .ok (ISeg.mk' idx[j] (nextV idx j)) ∧
        inEdges tol p idx q = .ok true ∧
        Seg.contains tol q l[i] (nextV l i) = true ∧
        ∀ i' : Fin l.length, i'.val < i.val → Seg.contains tol q l[i'] (nextV l i') = false)) := by
  obtain ⟨l, hl⟩ := resolve_ok_iff.2 hidx
  have hlen := resolve_length hl
  refine ⟨l, hl, ?_⟩
  rcases firstContaining_spec tol p q (cycPairs idx) (cycPairs l)
    (fun k e hk => resolve_pairs hl k e hk) (by rw [cycPairs_length, cycPairs_length, hlen])
    with ⟨h1, h2⟩ | ⟨k, e, a, h1, h2, h3, h4, h5⟩
  · left
    have hce : containerEdge tol p idx q = .ok (ISeg.mk' (-1) (-1)) := h1
    refine ⟨hce, ?_, ?_⟩
    · unfold inEdges; rw [hce]
      have e1 : (ISeg.mk' (-1) (-1)).p1 = -1 := rfl
      simp only [Outcome.bind_ok, Outcome.pure_eq, e1, ne_eq, not_true_eq_false, false_and, decide_false]
    · intro i
      apply h2 (l[i], nextV l i)
      rw [cycPairs_eq_finRange]; exact List.mem_map_of_mem (List.mem_finRange i)
  · right
    have hk : k < idx.length := by
      have := (List.getElem?_eq_some_iff.1 h1).1; rwa [cycPairs_length] at this
    have hkl : k < l.length := by omega
    rw [cycPairs_getElem? idx k hk] at h1
    rw [cycPairs_getElem? l k hkl] at h2
    have he := Option.some.inj h1
    have ha := Option.some.inj h2
    have hce : containerEdge tol p idx q = .ok (ISeg.mk' e.1 e.2) := h3
    refine ⟨⟨k, hkl⟩, ⟨k, hk⟩, rfl, ?_, ?_, ?_, ?_⟩
    · rw [hce, ← he]; rfl
    · unfold inEdges; rw [hce]
      have m1 : e.1 ∈ idx := by rw [← he]; exact List.getElem_mem _
      have m2 : e.2 ∈ idx := by rw [← he]; exact List.getElem_mem _
      have g1 := (hidx _ m1).1
      have g2 := (hidx _ m2).1
      have f1 : (ISeg.mk' e.1 e.2).p1 = e.1 := rfl
      have f2 : (ISeg.mk' e.1 e.2).p2 = e.2 := rfl
      simp only [Outcome.bind_ok, Outcome.pure_eq, f1, f2]
      rw [decide_eq_true (show e.1 ≠ -1 ∧ e.2 ≠ -1 by constructor <;> omega)]
    · rw [← ha] at h4; exact h4
    · intro i' hi'
      exact h5 i'.val hi' _ (cycPairs_getElem? l i'.val i'.isLt)

/-- C31: the index version of `inEdges` and the geometric one used in `containsPoint` agree. -/
theorem C31_inEdges_eq (tol : K) (p : List (Pt K)) (idx : List Int) (l : List (Pt K)) (q : Pt K)
    (hl : resolve p idx = .ok l) : inEdges tol p idx q = .ok (inEdgesPts tol l q) := by
  obtain ⟨l', hl', h⟩ := C31_containerEdge tol p idx q (resolve_ok_iff.1 ⟨l, hl⟩)
  rw [hl] at hl'
  have := Outcome.ok.inj hl'
  subst this
  unfold inEdgesPts
  rcases h with ⟨_, h1, h2⟩ | ⟨i, j, _, _, h1, h2, _⟩
  · rw [h1]
    congr 1; symm
    rw [List.any_eq_false]
    intro e he
    rw [cycPairs_eq_finRange] at he
    obtain ⟨i, _, rfl⟩ := List.mem_map.1 he
    rw [Bool.not_eq_true]; exact h2 i
  · rw [h1]
    congr 1; symm
    rw [List.any_eq_true]
    exact ⟨(l[i], nextV l i), by
      rw [cycPairs_eq_finRange]; exact List.mem_map_of_mem (List.mem_finRange i), h2⟩

example : ((containerEdge (1/100000 : ℚ) [⟨0, 0⟩, ⟨4, 0⟩, ⟨4, 4⟩] [0, 1, 2] ⟨4, 1⟩).bind
    (fun s => .ok (s.p1, s.p2))) = .ok (1, 2) := by decide +kernel

end Delynoi
