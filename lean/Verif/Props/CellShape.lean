import Verif.Proofs.CellRegion
import Verif.Props.Tiling
/-!
# Property C100: shapes of the Voronoi cells
-/
set_option linter.unusedSectionVars false
namespace Delynoi
variable {K : Type} [Field K] [LinearOrder K] [IsStrictOrderedRing K]

/-- C100: every cell is seen from its point: all sides of the cell, in the order of the mesh, run
counter-clockwise around the point (the cell is star-shaped around its point). -/
theorem C100_star (tol : K) (ht : 0 < tol) (out : TriOut K) (hv : ValidOut out)
    (hmk : MarkersOk out) (hC : Conforming out) (hS : MergesNothing tol out) (d : DelInfo K)
    (hd : DelInfo.importOut tol DelInfo.empty out = .ok d) (m : Mesh K (Poly K))
    (hm : voronoi tol d = .ok m) (j : Nat) (v : Int) (pv : Pt K)
    (hj : (firsts (out.tris.flatMap verts))[j]? = some v) (hpv : vecGet out.points v = .ok pv)
    (hM : MergesNoCorner tol out ∨ ∀ a, ¬ BoundaryEdge out.tris v a) :
    ∃ poly l, m.polygons[j]? = some poly ∧ resolve m.points.list poly.points = .ok l ∧
      ∀ e ∈ cycPairs l, 0 ≤ turn pv e.1 e.2 := by
  obtain ⟨hl, hu⟩ := mesh_points ht hv hS hd hm
  obtain ⟨poly, ns, ts, idx, h1, h2, h3, h4, _, _, h5, h6⟩ := C70_cell tol ht out hv hmk d hd m hm j v hj
  obtain ⟨_, _, _, L, hL, hA⟩ := (C71_mesh_consistent tol out hv d hd m hm).2.1 poly (List.mem_of_getElem? h1)
  obtain ⟨e, hG, _⟩ := gfan_of hv hC h2 h4 h3
  refine ⟨poly, L, h1, hL, ?_⟩
  have hp := poly_sides hv hC hS hl hu h2 h4 h3 h5 e hG hM h6
    (by rw [← refArea_resolve hL]; exact hA _)
  have hs := (path_sides hv hC hS hl hu h2 h4 h3 h5 e hG).2 (fun a b c => straight_of hv hM a b c)
  rw [resolve_map hL, cycPairs_map]
  intro p hpm
  obtain ⟨q, hq, rfl⟩ := List.mem_map.1 hpm
  have hg : 0 ≤ gArea m.points.list (ptOf out.points v) q.1 q.2 := by
    rcases hp with ⟨rfl, hh⟩ | ⟨rfl, hh⟩
    · have := hs q (by rw [← hh]; exact hq)
      rwa [one_mul] at this
    · rw [hh, (cycPairs_reverse_perm (firsts idx)).mem_iff, List.mem_map] at hq
      obtain ⟨q', hq', rfl⟩ := hq
      have := hs q' hq'
      rw [gArea_swap]
      rw [neg_one_mul] at this
      exact this
  unfold gArea at hg
  rw [ptOf_ok hpv] at hg
  show 0 ≤ turn pv (ptOf m.points.list q.1) (ptOf m.points.list q.2)
  linarith

/-- C100: the cell of a point that is not on the boundary is exactly its Voronoi region: a point `x` of
the plane is at least as close to it as to every other used point if and only if it lies to the left of
(or on) every side of the cell. -/
theorem C100_region (tol : K) (ht : 0 < tol) (out : TriOut K) (hv : ValidOut out)
    (hmk : MarkersOk out) (hC : Conforming out) (hS : MergesNothing tol out) (d : DelInfo K)
    (hd : DelInfo.importOut tol DelInfo.empty out = .ok d) (m : Mesh K (Poly K))
    (hm : voronoi tol d = .ok m) (j : Nat) (v : Int) (pv : Pt K)
    (hj : (firsts (out.tris.flatMap verts))[j]? = some v) (hpv : vecGet out.points v = .ok pv)
    (hin : ∀ a, ¬ BoundaryEdge out.tris v a) :
    ∃ poly l, m.polygons[j]? = some poly ∧ resolve m.points.list poly.points = .ok l ∧
      ∀ x, (∀ w pw, SiteAt out w pw → sqDist x pv ≤ sqDist x pw) ↔ ∀ e ∈ cycPairs l, 0 ≤ turn e.1 e.2 x := by
  obtain ⟨hl, hu⟩ := mesh_points ht hv hS hd hm
  obtain ⟨poly, ns, ts, idx, h1, h2, h3, h4, huse, _, h5, h6⟩ := C70_cell tol ht out hv hmk d hd m hm j v hj
  obtain ⟨_, _, _, L, hL, hA⟩ := (C71_mesh_consistent tol out hv d hd m hm).2.1 poly (List.mem_of_getElem? h1)
  obtain ⟨e, hG, hdir⟩ := gfan_of hv hC h2 h4 h3
  refine ⟨poly, L, h1, hL, ?_⟩
  have hp := poly_sides hv hC hS hl hu h2 h4 h3 h5 e hG (Or.inr hin) h6
    (by rw [← refArea_resolve hL]; exact hA _)
  have hpos : 0 < ts.length := List.length_pos_of_ne_nil h3
  have hnr := noReturn_of hv hC hS hl hu h2 h4 h3 h5
  unfold NoReturn at hnr
  rcases cell_exact hv hC hS hl h2 h4 h3 h5 with ⟨g1, g2, g3, ⟨c, g4, g4'⟩, g5⟩ | ⟨_, _, hb0, _⟩
  swap
  · exact absurd hb0 (hin _)
  rw [if_pos g2] at hnr
  have hpv' : ptOf out.points v = pv := ptOf_ok hpv
  rw [hpv'] at g5
  -- coordinates relative to the point
  have hturn : ∀ p q x : Pt K, turn p q x =
      cr (relTo pv p) (relTo pv q) - cr (relTo pv x) (relTo pv q) - cr (relTo pv p) (relTo pv x) := by
    intro p q x; unfold turn cr relTo; ring
  have hat : ∀ {s : Nat} {i : Int}, idx[s]? = some i → s ≤ ts.length →
      relTo pv (ptOf m.points.list i) = zc ts.length (fanX out v ts) s := by
    intro s i hi hs
    obtain ⟨u, q, k1, k2, k3⟩ := g5 s hs
    rw [hi] at k1; obtain rfl := Option.some.inj k1
    rw [ptOf_ok k2, k3]
  -- sides in the order of the path
  have hside : ∀ x, (∀ p ∈ cycPairs L, 0 ≤ turn p.1 p.2 x) ↔ ∀ i k : Int, (i, k) ∈ hops idx →
      0 ≤ e * turn (ptOf m.points.list i) (ptOf m.points.list k) x := by
    intro x
    have flip : ∀ p q : Pt K, turn p q x = -turn q p x := by intro p q; unfold turn; ring
    have self : ∀ p : Pt K, turn p p x = 0 := by intro p; unfold turn; ring
    rw [resolve_map hL, cycPairs_map]
    constructor
    · intro h i k hik
      have hne := ((mem_hops _ _ _).1 hik).1
      have hc := (sides_closed g4 g4' hnr hne).2 hik
      rcases hp with ⟨rfl, hh⟩ | ⟨rfl, hh⟩
      · rw [one_mul]
        refine h (ptOf m.points.list i, ptOf m.points.list k) (List.mem_map.2 ⟨(i, k), ?_, rfl⟩)
        rw [hh]; exact hc
      · rw [neg_one_mul, ← flip]
        refine h (ptOf m.points.list k, ptOf m.points.list i) (List.mem_map.2 ⟨(k, i), ?_, rfl⟩)
        rw [hh, (cycPairs_reverse_perm (firsts idx)).mem_iff, List.mem_map]
        exact ⟨(i, k), hc, rfl⟩
    · intro h p hpm
      obtain ⟨⟨i, k⟩, hq, rfl⟩ := List.mem_map.1 hpm
      show 0 ≤ turn (ptOf m.points.list i) (ptOf m.points.list k) x
      by_cases hne : i = k
      · rw [hne, self]
      · rcases hp with ⟨rfl, hh⟩ | ⟨rfl, hh⟩
        · rw [hh] at hq
          have := h i k ((sides_closed g4 g4' hnr hne).1 hq)
          rwa [one_mul] at this
        · rw [hh, (cycPairs_reverse_perm (firsts idx)).mem_iff, List.mem_map] at hq
          obtain ⟨⟨i', k'⟩, hq', heq⟩ := hq
          simp only [Prod.swap_prod_mk, Prod.mk.injEq] at heq
          obtain ⟨rfl, rfl⟩ := heq
          have := h i' k' ((sides_closed g4 g4' hnr (Ne.symm hne)).1 hq')
          rw [flip]; rw [neg_one_mul] at this; exact this
  -- neighbours are used points
  obtain ⟨hlen, hg⟩ := isFan_get h2
  have hnb : ∀ s < ts.length, SiteAt out (ns.getD s 0) (ptOf out.points (ns.getD s 0)) := by
    intro s hs
    obtain ⟨tt, k1, k2, k3, _⟩ := fan_tri (hg s hs)
    first | exact site_of_tri hv k1 k2 | exact site_of_tri hv k1 k3
  have hreg : ∀ x w, 0 ≤ pw (relTo pv x) (relTo pv w) ↔ sqDist x pv ≤ sqDist x w := by
    intro x w
    rw [pw_relTo, sub_nonneg]
  intro x
  rw [hside]
  constructor
  · intro h i k hik
    obtain ⟨_, s, hs, hs'⟩ := (mem_hops _ _ _).1 hik
    have hsl := (List.getElem?_eq_some_iff.1 hs').1
    rw [hturn, hat hs (by omega), hat hs' (by omega)]
    obtain ⟨b1, b2⟩ := hG.zc_bis hpos g1 (s := s) (by omega)
    refine on_bisector (hG.ne_zero hpos (i := s) (by omega)) b1 b2 (hG.zc_nonneg hpos g1 s (by omega)) ?_
    unfold fanA
    rw [hpv', hreg]
    exact h _ _ (hnb s (by omega))
  · intro h w pw' hw
    by_cases hx : relTo pv x = ⟨0, 0⟩
    · have : x = pv := relTo_inj (hx.trans (relTo_self pv).symm)
      rw [this]
      have e0 : sqDist pv pv = 0 := by unfold sqDist; ring
      rw [e0]; unfold sqDist; positivity
    · obtain ⟨s, hs, c1, c2, c3⟩ := (hG.turning_z hpos g1).cover _ hx
      have next : zc ts.length (fanX out v ts) ((s + 1) % ts.length) = zc ts.length (fanX out v ts) (s + 1) := by
        rcases Nat.lt_or_ge (s + 1) ts.length with hlt | hge
        · rw [Nat.mod_eq_of_lt hlt]
        · rw [show s + 1 = ts.length by omega, Nat.mod_self, GFan.zc_period hpos]
      rw [Nat.mod_eq_of_lt hs] at c1 c3
      rw [next] at c2 c3
      have emp : ∀ r ≤ ts.length, 0 ≤ pw (zc ts.length (fanX out v ts) r) (relTo pv pw') := by
        have hx : ∀ r < ts.length, 0 ≤ pw (fanX out v ts r) (relTo pv pw') := by
          intro r hr
          unfold fanX
          rw [hpv', pw_relTo, sub_nonneg]
          obtain ⟨tt, k1, k2⟩ := huse (ts.getD r 0) (by rw [List.getD_eq_getElem _ _ hr]; exact List.getElem_mem hr)
          have := cen_empty hv hC.empty k1 k2 hw
          rwa [hpv'] at this
        intro r hr
        unfold zc
        split
        · exact hx _ (by omega)
        · exact hx _ (by omega)
      rw [← hreg]
      refine in_wedge c1 c2 c3 ?_ (emp s (by omega)) (emp (s + 1) (by omega))
      obtain ⟨i, q, k1, k2, k3⟩ := g5 s (by omega)
      obtain ⟨i', q', k1', k2', k3'⟩ := g5 (s + 1) (by omega)
      have hne : i ≠ i' := by
        rintro rfl
        rw [k2] at k2'
        obtain rfl := Outcome.ok.inj k2'
        rw [← k3, ← k3', cr_self, mul_zero] at c3
        exact lt_irrefl _ c3
      have := h i i' ((mem_hops _ _ _).2 ⟨hne, s, k1, k1'⟩)
      rwa [hturn, ptOf_ok k2, ptOf_ok k2', k3, k3'] at this

/-- C100: inner cells are convex: every vertex of the cell lies to the left of (or on) every side. -/
theorem C100_convex (tol : K) (ht : 0 < tol) (out : TriOut K) (hv : ValidOut out)
    (hmk : MarkersOk out) (hC : Conforming out) (hS : MergesNothing tol out) (d : DelInfo K)
    (hd : DelInfo.importOut tol DelInfo.empty out = .ok d) (m : Mesh K (Poly K))
    (hm : voronoi tol d = .ok m) (j : Nat) (v : Int)
    (hj : (firsts (out.tris.flatMap verts))[j]? = some v)
    (hin : ∀ a, ¬ BoundaryEdge out.tris v a) :
    ∃ poly l, m.polygons[j]? = some poly ∧ resolve m.points.list poly.points = .ok l ∧
      ∀ e ∈ cycPairs l, ∀ q ∈ l, 0 ≤ turn e.1 e.2 q := by
  obtain ⟨tt, htt, hvt⟩ := List.mem_flatMap.1 ((mem_firsts _ _).1 (List.mem_of_getElem? hj))
  obtain ⟨t, h⟩ := List.mem_iff_getElem?.1 htt
  have hpv := (site_of_tri hv h hvt).1
  obtain ⟨poly, l, h1, h2, h3⟩ := C100_region tol ht out hv hmk hC hS d hd m hm j v _ hj hpv hin
  refine ⟨poly, l, h1, h2, fun e he q hq => (h3 q).1 ?_ e he⟩
  intro w pw hw
  -- vertices of the cell are circumcenters of triangles at the point
  obtain ⟨hl, hu⟩ := mesh_points ht hv hS hd hm
  obtain ⟨poly', ns, ts, idx, g1, g2, g3, g4, huse, _, g5, g6⟩ := C70_cell tol ht out hv hmk d hd m hm j v hj
  rw [h1] at g1; obtain rfl := Option.some.inj g1
  rw [resolve_map h2] at hq
  obtain ⟨i, hi, rfl⟩ := List.mem_map.1 hq
  have hidx : i ∈ idx := by
    rcases g6 with hh | hh <;> rw [hh] at hi
    · exact (mem_firsts _ _).1 hi
    · exact (mem_firsts _ _).1 (List.mem_reverse.1 hi)
  rcases cell_exact hv hC hS hl g2 g4 g3 g5 with ⟨k1, k2, k3, _, k5⟩ | ⟨_, _, hb0, _⟩
  swap
  · exact absurd hb0 (hin _)
  obtain ⟨s, hs⟩ := List.mem_iff_getElem?.1 hidx
  have hsl := (List.getElem?_eq_some_iff.1 hs).1
  obtain ⟨u, q, w1, w2, w3⟩ := k5 s (by omega)
  rw [hs] at w1; obtain rfl := Option.some.inj w1
  rw [ptOf_ok w2]
  have hpos : 0 < ts.length := List.length_pos_of_ne_nil g3
  obtain ⟨r, hr, hz⟩ : ∃ r < ts.length, zc ts.length (fanX out v ts) s = fanX out v ts r := by
    unfold zc
    split
    · exact ⟨_, by omega, rfl⟩
    · exact ⟨_, by omega, rfl⟩
  rw [hz] at w3
  unfold fanX at w3
  rw [relTo_inj w3]
  obtain ⟨tt', k1', k2'⟩ := huse (ts.getD r 0) (by rw [List.getD_eq_getElem _ _ hr]; exact List.getElem_mem hr)
  exact cen_empty hv hC.empty k1' k2' hw

/-- The hypotheses are met by the hexagon: its middle point is not on the boundary. -/
example : (firsts (hexOut.tris.flatMap verts))[0]? = some 0 ∧ vecGet hexOut.points 0 = .ok ⟨0, 0⟩ ∧
    (∀ a, ¬ BoundaryEdge hexOut.tris 0 a) ∧ Conforming hexOut ∧ MergesNothing (1/100000 : ℚ) hexOut := by
  refine ⟨by decide +kernel, by decide +kernel, ?_, hexOut_conforming, hexOut_sharp⟩
  intro a hb
  have hi := incident_of_boundaryEdge hb
  obtain ⟨t, ⟨tt, h1, h2⟩, _⟩ := hb
  have hm := List.mem_of_getElem? h1
  have ha := ((mem_sides_iff (properTris_of_valid hexOut_valid tt hm) 0 a).1 h2)
  have key : ∀ tt ∈ hexOut.tris, ∀ a ∈ verts tt, a ≠ 0 → ¬ (incident hexOut.tris s(0, a)).length ≤ 1 := by
    decide +kernel
  exact key tt hm a ha.2.1 (Ne.symm ha.2.2) hi

end Delynoi
