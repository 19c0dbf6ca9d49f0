import Verif.Proofs.TriWrite
import Verif.Spec.Triangulation
import Verif.Spec.Tiling
import Mathlib.Data.List.Perm.Subperm
/-! # What Triangle hands back: consistent meshes -/
set_option linter.unusedSectionVars false
namespace Delynoi.Tri
variable {K : Type} [Field K] [LinearOrder K] [IsStrictOrderedRing K]

theorem mem_halfEdges {ts : List TriRec} {r : TriRec} {o : Fin 3} : (r, o) ∈ halfEdges ts ↔ r ∈ ts := by
  unfold halfEdges
  simp only [List.mem_flatMap, List.mem_cons, Prod.mk.injEq, List.not_mem_nil, or_false]
  constructor
  · rintro ⟨a, ha, ⟨rfl, _⟩ | ⟨rfl, _⟩ | ⟨rfl, _⟩⟩ <;> exact ha
  · intro h
    refine ⟨r, h, ?_⟩
    fin_cases o <;> simp

theorem halfEdges_nodup {ts : List TriRec} (h : ts.Nodup) : (halfEdges ts).Nodup := by
  unfold halfEdges
  rw [List.nodup_flatMap]
  refine ⟨fun t _ => by simp, ?_⟩
  refine h.imp ?_
  intro a b hab
  simp only [Function.onFun]
  rw [List.disjoint_left]
  intro x hx hx'
  simp at hx hx'
  rcases hx with rfl | rfl | rfl <;> rcases hx' with h | h | h <;> simp at h <;> exact hab h

namespace MeshOk
variable {m : OutMesh K} (h : MeshOk m)
include h

theorem tris_nodup : m.tris.Nodup := List.Nodup.of_map _ h.addrs

theorem addr_inj {r s : TriRec} (hr : r ∈ m.tris) (hs : s ∈ m.tris) (e : r.addr = s.addr) : r = s :=
  List.inj_on_of_nodup_map h.addrs hr hs e

theorem corner_inj {r : TriRec} (hr : r ∈ m.tris) : ∀ o o', r.corner o = r.corner o' → o = o' := by
  obtain ⟨v0, e0, _⟩ := h.corners r hr 0
  obtain ⟨v1, e1, _⟩ := h.corners r hr 1
  obtain ⟨v2, e2, _⟩ := h.corners r hr 2
  have ht := h.ccw r hr v0 v1 v2 e0 e1 e2
  have n01 : r.corner 0 ≠ r.corner 1 := by
    intro e; rw [e, e1] at e0; cases e0
    simp [turn] at ht
  have n12 : r.corner 1 ≠ r.corner 2 := by
    intro e; rw [e, e2] at e1; cases e1
    simp only [turn] at ht
    linarith
  have n02 : r.corner 0 ≠ r.corner 2 := by
    intro e; rw [e, e2] at e0; cases e0
    simp [turn] at ht
  intro o o' e
  fin_cases o <;> fin_cases o' <;> simp_all

/-- The other side of an edge. -/
theorem across {t : Nat} {r : TriRec} (hr : m.tris[t]? = some r) {o : Fin 3} {t' : Nat} {o' : Fin 3}
    (hn : r.nbr o = some (t', o')) : ∃ s, m.tris[t']? = some s ∧ s.nbr o' = some (t, o) ∧
      s.corner (o' + 1) = r.corner (o + 2) ∧ s.corner (o' + 2) = r.corner (o + 1) ∧ s ∈ m.tris ∧
      s.addr ≠ r.addr := by
  obtain ⟨s, hs, h1, h2⟩ := (h.nbr t r hr o t' o').1 hn
  have hsm := List.mem_of_getElem? hs
  have hrm := List.mem_of_getElem? hr
  refine ⟨s, hs, ?_, h1, h2, hsm, ?_⟩
  · exact (h.nbr t' s hs o' t o).2 ⟨r, hr, h2.symm, h1.symm⟩
  · intro e
    have := h.addr_inj hsm hrm e
    subst this
    have a1 := h.corner_inj hsm _ _ h1
    have a2 := h.corner_inj hsm _ _ h2
    revert a1 a2
    clear h1 h2 hn
    revert o o'
    decide

theorem mem_index {r : TriRec} (hr : r ∈ m.tris) : ∃ t : Nat, m.tris[t]? = some r := by
  obtain ⟨t, ht, e⟩ := List.getElem_of_mem hr
  exact ⟨t, by rw [List.getElem?_eq_getElem ht, e]⟩

end MeshOk

/-- Whether the edge is written from this side. -/
def own (ts : List TriRec) (x : TriRec × Fin 3) : Bool :=
  match x.1.nbr x.2 with
  | none => true
  | some u =>
    match ts[u.1]? with
    | some s => decide (x.1.addr < s.addr)
    | none => false

theorem ownsEdge_eq {m : OutMesh K} (h : MeshOk m) {x : TriRec × Fin 3} (hx : x ∈ halfEdges m.tris) :
    ownsEdge m.tris x.1 x.2 = .ok (own m.tris x) := by
  obtain ⟨r, o⟩ := x
  rw [mem_halfEdges] at hx
  obtain ⟨t, ht⟩ := h.mem_index hx
  unfold ownsEdge own
  cases hn : r.nbr o with
  | none => simp [hn]
  | some u =>
    obtain ⟨s, hs, -⟩ := h.across ht hn
    simp [hn, hs]

/-- The other side of an edge; the edge itself on the hull. -/
def flipSide (ts : List TriRec) (x : TriRec × Fin 3) : TriRec × Fin 3 :=
  match x.1.nbr x.2 with
  | none => x
  | some u =>
    match ts[u.1]? with
    | some s => (s, u.2)
    | none => x

theorem flipSide_spec {m : OutMesh K} (h : MeshOk m) {x : TriRec × Fin 3} (hx : x ∈ halfEdges m.tris)
    (hn : (x.1.nbr x.2).isNone = false) :
    flipSide m.tris x ∈ halfEdges m.tris ∧ flipSide m.tris (flipSide m.tris x) = x ∧
    ((flipSide m.tris x).1.nbr (flipSide m.tris x).2).isNone = false ∧
    own m.tris (flipSide m.tris x) = !own m.tris x := by
  obtain ⟨r, o⟩ := x
  rw [mem_halfEdges] at hx
  obtain ⟨t, ht⟩ := h.mem_index hx
  cases hu : r.nbr o with
  | none => simp [hu] at hn
  | some u =>
    obtain ⟨t', o'⟩ := u
    obtain ⟨s, hs, hb, h1, h2, hsm, ha⟩ := h.across ht hu
    have e : flipSide m.tris (r, o) = (s, o') := by simp [flipSide, hu, hs]
    have e' : flipSide m.tris (s, o') = (r, o) := by simp [flipSide, hb, ht]
    rw [e, e']
    refine ⟨mem_halfEdges.2 hsm, rfl, by simp [hb], ?_⟩
    simp only [own, hu, hs, hb, ht]
    rcases lt_or_gt_of_ne ha with hl | hl
    · simp [hl, not_lt.2 hl.le]
    · simp [hl, not_lt.2 hl.le]

theorem filter_le {α : Type} {L : List α} (hL : L.Nodup) (f : α → α) (p q : α → Bool)
    (hf : ∀ x ∈ L, p x = true → f x ∈ L ∧ q (f x) = true ∧ f (f x) = x) :
    (L.filter p).length ≤ (L.filter q).length := by
  have hnd : ((L.filter p).map f).Nodup := by
    refine List.Nodup.map_on ?_ (hL.filter _)
    intro x hx y hy e
    rw [List.mem_filter] at hx hy
    rw [← (hf x hx.1 hx.2).2.2, e, (hf y hy.1 hy.2).2.2]
  have hsub : (L.filter p).map f ⊆ L.filter q := by
    intro y hy
    obtain ⟨x, hx, rfl⟩ := List.mem_map.1 hy
    rw [List.mem_filter] at hx
    exact List.mem_filter.2 ⟨(hf x hx.1 hx.2).1, (hf x hx.1 hx.2).2.1⟩
  have := (List.subperm_of_subset hnd hsub).length_le
  simpa using this

theorem length_filter_split {α : Type} (L : List α) (p : α → Bool) :
    (L.filter p).length + (L.filter (fun x => !p x)).length = L.length := by
  induction L with
  | nil => rfl
  | cons a L ih => cases h : p a <;> simp [h] <;> omega

/-- As many edges are written as the formula says. -/
theorem own_count {m : OutMesh K} (h : MeshOk m) :
    ((halfEdges m.tris).filter (own m.tris)).length = edgeCount m := by
  have hL := halfEdges_nodup h.tris_nodup
  set L := halfEdges m.tris with hLdef
  have hlen : L.length = 3 * m.tris.length := by
    simp [hLdef, halfEdges, List.length_flatMap]; omega
  have hull : (L.filter (fun x => (x.1.nbr x.2).isNone)).length = m.hullsize := by
    rw [h.hullsize, ← List.countP_eq_length_filter, hLdef]
    clear hL hlen hLdef L
    induction m.tris with
    | nil => rfl
    | cons r ts ih =>
      simp only [halfEdges, List.flatMap_cons, List.countP_append] at ih ⊢
      rw [ih]
      simp [List.countP_cons]
  -- owned = hull + lower
  have s1 : (L.filter (own m.tris)).length =
      (L.filter (fun x => (x.1.nbr x.2).isNone)).length +
      (L.filter (fun x => !(x.1.nbr x.2).isNone && own m.tris x)).length := by
    have := length_filter_split (L.filter (own m.tris)) (fun x => (x.1.nbr x.2).isNone)
    rw [List.filter_filter, List.filter_filter] at this
    rw [← this]
    congr 2
    refine List.filter_congr ?_
    intro x _
    cases hn : x.1.nbr x.2 with
    | none => simp [own, hn]
    | some u => simp
  have s2 : (L.filter (fun x => !(own m.tris x))).length =
      (L.filter (fun x => !(x.1.nbr x.2).isNone && !(own m.tris x))).length := by
    congr 1
    refine List.filter_congr ?_
    intro x _
    cases hn : x.1.nbr x.2 with
    | none => simp [own, hn]
    | some u => simp
  have s3 := length_filter_split L (own m.tris)
  have key := fun x (hx : x ∈ L) (hn : (x.1.nbr x.2).isNone = false) => flipSide_spec h (hLdef ▸ hx) hn
  have le1 : (L.filter (fun x => !(x.1.nbr x.2).isNone && own m.tris x)).length ≤
      (L.filter (fun x => !(x.1.nbr x.2).isNone && !(own m.tris x))).length := by
    refine filter_le hL (flipSide m.tris) _ _ ?_
    intro x hx hp
    simp only [Bool.and_eq_true, Bool.not_eq_true'] at hp
    obtain ⟨k1, k2, k3, k4⟩ := key x hx hp.1
    refine ⟨k1, ?_, k2⟩
    rw [k3, k4, hp.2]; rfl
  have le2 : (L.filter (fun x => !(x.1.nbr x.2).isNone && !(own m.tris x))).length ≤
      (L.filter (fun x => !(x.1.nbr x.2).isNone && own m.tris x)).length := by
    refine filter_le hL (flipSide m.tris) _ _ ?_
    intro x hx hp
    simp only [Bool.and_eq_true, Bool.not_eq_true'] at hp
    obtain ⟨k1, k2, k3, k4⟩ := key x hx hp.1
    refine ⟨k1, ?_, k2⟩
    rw [k3, k4, hp.2]; rfl
  unfold edgeCount
  omega

/-! ### The triangulation that is written -/

/-- The edges that are written. -/
def outEdges (b : Behavior) (m : OutMesh K) : List (Int × Int × Int) :=
  ((halfEdges m.tris).filter (own m.tris)).map (fun x =>
    (number m (x.1.corner (x.2 + 1)), number m (x.1.corner (x.2 + 2)), edgeMark b x.1 x.2))

/-- The triangulation that is written. -/
def outOf (b : Behavior) (m : OutMesh K) : TriOut K where
  points := (live m.verts).map Vtx.pt
  edges := outEdges b m
  tris := m.tris.map (fun r => (number m (r.corner 1), number m (r.corner 2), number m (r.corner 0)))

theorem outvertices_eq {m : OutMesh K} (h : MeshOk m) {b : Behavior} (hj : b.jettison = true) :
    outvertices b m = (live m.verts).length := by
  unfold outvertices live
  rw [hj, h.undeads]
  simp only [if_true]
  rw [List.countP_eq_length_filter]
  have := length_filter_split m.verts (fun v => v.undead)
  omega

theorem vertexmark_eq {m : OutMesh K} (h : MeshOk m) {b : Behavior} (hz : b.firstnumber = 0) {r : TriRec}
    (hr : r ∈ m.tris) (o : Fin 3) :
    vertexmark (numbered m.verts b.firstnumber) (r.corner o) = .ok (number m (r.corner o)) := by
  obtain ⟨v, hv, hu⟩ := h.corners r hr o
  obtain ⟨v', h1, h2⟩ := numbered_get m.verts b.firstnumber _ v hv hu
  unfold vertexmark
  rw [h1]
  simp only [number, h2, hz, zero_add]

/-- The run of the writers on a consistent mesh. -/
theorem writeOut_eq {m : OutMesh K} (h : MeshOk m) {b : Behavior} (hj : b.jettison = true)
    (hz : b.firstnumber = 0) (hn : b.nobound = false) (he : b.noelewritten = false) (hed : b.edgesout = true) :
    ∃ w, writeOut b m = .ok w ∧ Holds w.1 (outOf b m) ∧
      w.2 = (live m.verts).map (fun v => some v.mark) := by
  have hov := outvertices_eq h hj
  have hnodes : writenodes b m = .ok (flatPts ((live m.verts).map Vtx.pt), (live m.verts).map (fun v => some v.mark),
      numbered m.verts b.firstnumber) := by
    unfold writenodes
    have := nodesLoop_spec b hj hn m.verts 0 b.firstnumber [] [] rfl (by simp)
    simp only [List.nil_append] at this
    rw [hn, hov]
    simp only [Bool.not_false, if_true]
    unfold Arr.alloc
    rw [Nat.mul_comm, this]
  have hel : writeelements (numbered m.verts b.firstnumber) m = .ok (m.tris.flatMap (fun r =>
      [some (number m (r.corner 1)), some (number m (r.corner 2)), some (number m (r.corner 0))])) := by
    unfold writeelements Arr.alloc
    have := elementsLoop_spec (numbered m.verts b.firstnumber) (number m) m.tris 0 [] rfl
      (fun r hr o => vertexmark_eq h hz hr o)
    rw [Nat.mul_comm]
    simpa using this
  have hedges : writeedges b (numbered m.verts b.firstnumber) m =
      .ok (flatSegs ((outEdges b m).map (fun e => (e.1, e.2.1))), (outEdges b m).map (fun e => some e.2.2)) := by
    unfold writeedges Arr.alloc
    have := edgesLoop_spec b hn (numbered m.verts b.firstnumber) (number m) m.tris (own m.tris) (halfEdges m.tris)
      0 b.firstnumber [] [] rfl (by simp) (fun x hx => ownsEdge_eq h hx)
      (fun x hx o => vertexmark_eq h hz (mem_halfEdges.1 (by exact hx : (x.1, x.2) ∈ halfEdges m.tris)) o)
    rw [own_count h] at this
    rw [hn, Nat.mul_comm]
    simp only [Bool.not_false, if_true]
    simp only [List.nil_append] at this
    rw [this]
    simp [outEdges, List.map_map, Function.comp_def]
  unfold writeOut
  rw [hnodes, Outcome.bind_ok, he, hed]
  simp only [Bool.false_eq_true, if_false, if_true]
  rw [hel, Outcome.bind_ok, hedges, Outcome.bind_ok]
  refine ⟨_, rfl, ⟨?_, rfl, ?_, rfl, rfl, ?_, ?_⟩, rfl⟩
  · simp [outOf, hov]
  · simp only [outOf, outEdges, List.length_map]; exact (own_count h).symm
  · simp [outOf]
  · simp [outOf, List.flatMap_map]

end Delynoi.Tri
