import Verif.Proofs.TriWrite2
import Verif.Proofs.EdgeRec
/-! # What Triangle hands back: the triangulation that is written -/
set_option linter.unusedSectionVars false
namespace Delynoi.Tri
variable {K : Type} [Field K] [LinearOrder K] [IsStrictOrderedRing K]

/-- The triangle that is written. -/
def triOf (m : OutMesh K) (r : TriRec) : Int × Int × Int :=
  (number m (r.corner 1), number m (r.corner 2), number m (r.corner 0))

/-- The ends of an oriented edge. -/
def halfOf (m : OutMesh K) (r : TriRec) (o : Fin 3) : Int × Int :=
  (number m (r.corner (o + 1)), number m (r.corner (o + 2)))

theorem mem_dsides_triOf {m : OutMesh K} {r : TriRec} {e : Int × Int} :
    e ∈ dsides (triOf m r) ↔ ∃ o, e = halfOf m r o := by
  simp only [dsides, triOf, List.mem_cons, List.not_mem_nil, or_false, halfOf]
  constructor
  · rintro (rfl | rfl | rfl)
    · exact ⟨0, rfl⟩
    · exact ⟨1, rfl⟩
    · exact ⟨2, rfl⟩
  · rintro ⟨o, rfl⟩
    fin_cases o
    · exact Or.inl rfl
    · exact Or.inr (Or.inl rfl)
    · exact Or.inr (Or.inr rfl)

theorem mem_sides_triOf {m : OutMesh K} {r : TriRec} {p : Sym2 Int} :
    p ∈ sides (triOf m r) ↔ ∃ o, p = s((halfOf m r o).1, (halfOf m r o).2) := by
  simp only [sides, triOf, List.mem_cons, List.not_mem_nil, or_false, halfOf]
  constructor
  · rintro (rfl | rfl | rfl)
    · exact ⟨0, rfl⟩
    · exact ⟨1, rfl⟩
    · exact ⟨2, rfl⟩
  · rintro ⟨o, rfl⟩
    fin_cases o
    · exact Or.inl rfl
    · exact Or.inr (Or.inl rfl)
    · exact Or.inr (Or.inr rfl)

theorem succ_ne : ∀ o : Fin 3, o + 1 ≠ o + 2 := by decide

variable {m : OutMesh K} (h : MeshOk m)
include h

theorem number_corner_inj {r s : TriRec} (hr : r ∈ m.tris) (hs : s ∈ m.tris) {o o' : Fin 3}
    (e : number m (r.corner o) = number m (s.corner o')) : r.corner o = s.corner o' := by
  obtain ⟨v, h1, h2⟩ := h.corners r hr o
  obtain ⟨w, h3, h4⟩ := h.corners s hs o'
  exact number_inj h1 h2 h3 h4 e

theorem half_once {t j : Nat} {r s : TriRec} (hr : m.tris[t]? = some r) (hs : m.tris[j]? = some s)
    {o o' : Fin 3} (e : halfOf m r o = halfOf m s o') : t = j ∧ o = o' := by
  have hrm := List.mem_of_getElem? hr
  have hsm := List.mem_of_getElem? hs
  unfold halfOf at e
  rw [Prod.mk.injEq] at e
  refine h.once t j o o' _ _ ⟨r, hr, rfl, rfl⟩ ⟨s, hs, ?_, ?_⟩
  · exact (number_corner_inj h hrm hsm e.1).symm
  · exact (number_corner_inj h hrm hsm e.2).symm

theorem half_cases {t j : Nat} {r s : TriRec} (hr : m.tris[t]? = some r) (hs : m.tris[j]? = some s)
    {o o' : Fin 3} (e : s((halfOf m r o).1, (halfOf m r o).2) = s((halfOf m s o').1, (halfOf m s o').2)) :
    (t = j ∧ o = o') ∨ r.nbr o = some (j, o') := by
  have hrm := List.mem_of_getElem? hr
  have hsm := List.mem_of_getElem? hs
  rcases Sym2.eq_iff.1 e with ⟨e1, e2⟩ | ⟨e1, e2⟩
  · exact Or.inl (half_once h hr hs (Prod.ext e1 e2))
  · right
    refine (h.nbr t r hr o j o').2 ⟨s, hs, ?_, ?_⟩
    · exact (number_corner_inj h hrm hsm e2).symm
    · exact (number_corner_inj h hrm hsm e1).symm

theorem half_swap {t j : Nat} {r s : TriRec} (hr : m.tris[t]? = some r) (hs : m.tris[j]? = some s)
    {o o' : Fin 3} (hn : r.nbr o = some (j, o')) :
    s((halfOf m r o).1, (halfOf m r o).2) = s((halfOf m s o').1, (halfOf m s o').2) := by
  obtain ⟨s', hs', e1, e2⟩ := (h.nbr t r hr o j o').1 hn
  rw [hs] at hs'; cases hs'
  unfold halfOf
  simp only
  rw [e1, e2]
  exact Sym2.eq_swap

theorem mem_outTris {b : Behavior} {t : Nat} {x : Int × Int × Int} (hx : (outOf b m).tris[t]? = some x) :
    ∃ r, m.tris[t]? = some r ∧ x = triOf m r := by
  simp only [outOf, List.getElem?_map, Option.map_eq_some_iff] at hx
  obtain ⟨r, h1, h2⟩ := hx
  exact ⟨r, h1, h2.symm⟩

theorem mem_incident_out {b : Behavior} {t : Nat} {r : TriRec} (hr : m.tris[t]? = some r) {o : Fin 3} {j : Int} :
    j ∈ incident (outOf b m).tris s((halfOf m r o).1, (halfOf m r o).2) ↔
      j = t ∨ ∃ (j' : Nat) (o' : Fin 3), r.nbr o = some (j', o') ∧ j = j' := by
  rw [mem_incident]
  constructor
  · rintro ⟨k, x, rfl, hk, hp⟩
    obtain ⟨s, hs, rfl⟩ := mem_outTris h hk
    obtain ⟨o', e⟩ := mem_sides_triOf.1 hp
    rcases half_cases h hr hs e with ⟨rfl, -⟩ | hn
    · exact Or.inl rfl
    · exact Or.inr ⟨_, _, hn, rfl⟩
  · rintro (rfl | ⟨j', o', hn, rfl⟩)
    · exact ⟨t, triOf m r, rfl, by simp [outOf, hr, triOf], mem_sides_triOf.2 ⟨o, rfl⟩⟩
    · obtain ⟨s, hs, -⟩ := h.across hr hn
      exact ⟨j', triOf m s, rfl, by simp [outOf, hs, triOf], mem_sides_triOf.2 ⟨o', half_swap h hr hs hn⟩⟩

theorem incident_length {b : Behavior} {t : Nat} {r : TriRec} (hr : m.tris[t]? = some r) (o : Fin 3) :
    (incident (outOf b m).tris s((halfOf m r o).1, (halfOf m r o).2)).length =
      if r.nbr o = none then 1 else 2 := by
  have hnd := incident_nodup (outOf b m).tris s((halfOf m r o).1, (halfOf m r o).2)
  have key := fun j => @mem_incident_out K _ _ _ m h b t r hr o j
  cases hn : r.nbr o with
  | none =>
    rw [if_pos rfl]
    have : (incident (outOf b m).tris s((halfOf m r o).1, (halfOf m r o).2)).Perm [(t : Int)] := by
      rw [List.perm_ext_iff_of_nodup hnd (by simp)]
      intro j; rw [key]; simp [hn]
    simpa using this.length_eq
  | some u =>
    obtain ⟨t', o'⟩ := u
    obtain ⟨s, hs, -, -, -, -, ha⟩ := h.across hr hn
    have hne : t ≠ t' := by
      rintro rfl
      rw [hr] at hs; cases hs; exact ha rfl
    rw [if_neg (by simp)]
    have : (incident (outOf b m).tris s((halfOf m r o).1, (halfOf m r o).2)).Perm [(t : Int), (t' : Int)] := by
      rw [List.perm_ext_iff_of_nodup hnd (by simp; exact_mod_cast hne)]
      intro j; rw [key]; simp [hn]
    simpa using this.length_eq

theorem mem_outEdges {b : Behavior} {e : Int × Int × Int} (he : e ∈ (outOf b m).edges) :
    ∃ (t : Nat) (r : TriRec) (o : Fin 3), m.tris[t]? = some r ∧ own m.tris (r, o) = true ∧
      e = ((halfOf m r o).1, (halfOf m r o).2, edgeMark b r o) := by
  simp only [outOf, outEdges, List.mem_map, List.mem_filter] at he
  obtain ⟨⟨r, o⟩, ⟨h1, h2⟩, rfl⟩ := he
  obtain ⟨t, ht⟩ := h.mem_index (mem_halfEdges.1 h1)
  exact ⟨t, r, o, ht, h2, rfl⟩

theorem corner_point {b : Behavior} {r : TriRec} (hr : r ∈ m.tris) (o : Fin 3) :
    ∃ v, m.verts[r.corner o]? = some v ∧ vecGet (outOf b m).points (number m (r.corner o)) = .ok v.pt ∧
      0 ≤ number m (r.corner o) ∧ number m (r.corner o) < (outOf b m).points.length := by
  obtain ⟨v, h1, h2⟩ := h.corners r hr o
  exact ⟨v, h1, number_point h1 h2⟩

theorem number_ne {r : TriRec} (hr : r ∈ m.tris) {o o' : Fin 3} (hne : o ≠ o') :
    number m (r.corner o) ≠ number m (r.corner o') :=
  fun e => hne (h.corner_inj hr _ _ (number_corner_inj h hr hr e))

theorem turn_rot (a b c : Pt K) : turn b c a = turn a b c := by
  simp only [turn]; ring

theorem out_ccw (b : Behavior) : CounterClockwise (outOf b m) := by
  intro t ht p q r hp hq hr
  obtain ⟨i, hi⟩ := List.getElem?_of_mem ht
  obtain ⟨s, hs, rfl⟩ := mem_outTris h hi
  have hsm := List.mem_of_getElem? hs
  obtain ⟨v0, a0, b0, -⟩ := corner_point h (b := b) hsm 0
  obtain ⟨v1, a1, b1, -⟩ := corner_point h (b := b) hsm 1
  obtain ⟨v2, a2, b2, -⟩ := corner_point h (b := b) hsm 2
  simp only [triOf] at hp hq hr
  rw [b1] at hp; rw [b2] at hq; rw [b0] at hr
  cases hp; cases hq; cases hr
  have := h.ccw s hsm v0 v1 v2 a0 a1 a2
  rw [turn_rot h]
  exact this

theorem out_once (b : Behavior) : DirectedOnce (outOf b m).tris := by
  intro i j ti tj e hi hj hei hej
  obtain ⟨r, hr, rfl⟩ := mem_outTris h hi
  obtain ⟨s, hs, rfl⟩ := mem_outTris h hj
  obtain ⟨o, rfl⟩ := mem_dsides_triOf.1 hei
  obtain ⟨o', e⟩ := mem_dsides_triOf.1 hej
  exact (half_once h hr hs e).1

theorem out_valid (b : Behavior) : ValidOut (outOf b m) where
  edgeRange := by
    intro e he
    obtain ⟨t, r, o, hr, -, rfl⟩ := mem_outEdges h he
    have hrm := List.mem_of_getElem? hr
    obtain ⟨-, -, -, a1, a2⟩ := corner_point h (b := b) hrm (o + 1)
    obtain ⟨-, -, -, b1, b2⟩ := corner_point h (b := b) hrm (o + 2)
    exact ⟨⟨a1, a2⟩, ⟨b1, b2⟩, number_ne h hrm (succ_ne o)⟩
  edgeDistinct := by
    simp only [outOf, outEdges, List.map_map]
    refine List.Nodup.map_on ?_ ((halfEdges_nodup h.tris_nodup).filter _)
    rintro ⟨r, o⟩ hx ⟨s, o'⟩ hy e
    rw [List.mem_filter, mem_halfEdges] at hx hy
    obtain ⟨t, hr⟩ := h.mem_index hx.1
    obtain ⟨j, hs⟩ := h.mem_index hy.1
    rcases half_cases h hr hs e with ⟨rfl, rfl⟩ | hn
    · rw [hr] at hs; cases hs; rfl
    · exfalso
      have := (flipSide_spec h (x := (r, o)) (mem_halfEdges.2 hx.1) (by simp [hn])).2.2.2
      rw [hx.2] at this
      simp only [flipSide, hn, hs] at this
      rw [hy.2] at this
      cases this
  triProper := by
    intro t ht
    obtain ⟨i, hi⟩ := List.getElem?_of_mem ht
    obtain ⟨s, hs, rfl⟩ := mem_outTris h hi
    have hsm := List.mem_of_getElem? hs
    obtain ⟨v0, a0, b0, -⟩ := corner_point h (b := b) hsm 0
    obtain ⟨v1, a1, b1, -⟩ := corner_point h (b := b) hsm 1
    obtain ⟨v2, a2, b2, -⟩ := corner_point h (b := b) hsm 2
    exact ⟨v1.pt, v2.pt, v0.pt, b1, b2, b0, ne_of_gt (out_ccw h b _ ht _ _ _ b1 b2 b0)⟩
  sidesAreEdges := by
    intro t ht p hp
    obtain ⟨i, hi⟩ := List.getElem?_of_mem ht
    obtain ⟨r, hr, rfl⟩ := mem_outTris h hi
    have hrm := List.mem_of_getElem? hr
    obtain ⟨o, rfl⟩ := mem_sides_triOf.1 hp
    have put : ∀ s o', s ∈ m.tris → own m.tris (s, o') = true →
        s((halfOf m s o').1, (halfOf m s o').2) ∈ (outOf b m).edges.map eEnds := by
      intro s o' hs ho
      refine List.mem_map.2 ⟨((halfOf m s o').1, (halfOf m s o').2, edgeMark b s o'), ?_, rfl⟩
      simp only [outOf, outEdges, List.mem_map, List.mem_filter]
      exact ⟨(s, o'), ⟨mem_halfEdges.2 hs, ho⟩, rfl⟩
    cases ho : own m.tris (r, o) with
    | true => exact put r o hrm ho
    | false =>
      cases hn : r.nbr o with
      | none => simp [own, hn] at ho
      | some u =>
        obtain ⟨t', o'⟩ := u
        obtain ⟨s, hs, -, -, -, hsm, -⟩ := h.across hr hn
        have := (flipSide_spec h (x := (r, o)) (mem_halfEdges.2 hrm) (by simp [hn])).2.2.2
        simp only [flipSide, hn, hs, ho] at this
        rw [half_swap h hr hs hn]
        exact put s o' hsm (by simpa using this)
  edgesAreSides := by
    intro e he
    obtain ⟨t, r, o, hr, -, rfl⟩ := mem_outEdges h he
    exact ⟨triOf m r, List.mem_of_getElem? (i := t) (by simp [outOf, hr, triOf]), mem_sides_triOf.2 ⟨o, rfl⟩⟩
  atMostTwo := by
    intro e he
    obtain ⟨t, r, o, hr, -, rfl⟩ := mem_outEdges h he
    have := incident_length h (b := b) hr o
    simp only [eEnds]
    rw [this]; split_ifs <;> omega

theorem out_markers {b : Behavior} (hs : b.usesegments = true)
    (hm : ∀ r ∈ m.tris, ∀ o, r.sub o = some 1 ↔ r.nbr o = none) : MarkersOk (outOf b m) := by
  intro e he
  obtain ⟨t, r, o, hr, -, rfl⟩ := mem_outEdges h he
  have := incident_length h (b := b) hr o
  simp only [eEnds]
  rw [this]
  have hk := hm r (List.mem_of_getElem? hr) o
  unfold edgeMark
  rw [hs]
  simp only [if_true]
  cases hsub : r.sub o with
  | none =>
    have : r.nbr o ≠ none := fun h => by simpa [hsub] using hk.2 h
    simp [this]
  | some k =>
    rw [hsub] at hk
    by_cases hn : r.nbr o = none
    · have := hk.2 hn; simp at this; simp [hn, this]
    · simp [hn]
      intro e; exact hn (hk.1 (by rw [e]))

end Delynoi.Tri
