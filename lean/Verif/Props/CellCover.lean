import Verif.Spec.Partition
import Verif.Proofs.CellCover
import Verif.Proofs.Contain
import Verif.Props.CellShape
/-!
# Property C105: the Voronoi cells tile the triangulated area
-/
set_option linter.unusedSectionVars false
namespace Delynoi
variable {K : Type} [Field K] [LinearOrder K] [IsStrictOrderedRing K]

theorem inStar_iff (p : Pt K) (l : List (Pt K)) (x : Pt K) :
    InStar p l x ↔ ∃ e ∈ cycPairs l, 0 < turn p e.1 e.2 ∧ InTri (p, e.1, e.2) x := by
  unfold InStar
  rw [cycPairs_eq_finRange]
  simp only [List.mem_map, List.mem_finRange, true_and, exists_exists_eq_and]

theorem inOpenStar_iff (p : Pt K) (l : List (Pt K)) (x : Pt K) :
    InOpenStar p l x ↔ ∃ e ∈ cycPairs l, InOpenTri (p, e.1, e.2) x := by
  unfold InOpenStar
  rw [cycPairs_eq_finRange]
  simp only [List.mem_map, List.mem_finRange, true_and, exists_exists_eq_and]

/-- How often one cell contains a point. -/
theorem cell_count (tol : K) (ht : 0 < tol) {out : TriOut K} (hv : ValidOut out)
    (hmk : MarkersOk out) (hC : Conforming out) (hS : MergesNothing tol out)
    (hM : MergesNoCorner tol out) {d : DelInfo K}
    (hd : DelInfo.importOut tol DelInfo.empty out = .ok d) {m : Mesh K (Poly K)}
    (hm : voronoi tol d = .ok m) {j : Nat} {v : Int}
    (hj : (firsts (out.tris.flatMap verts))[j]? = some v) (hone : OneFan out.tris v) (x : Pt K) :
    ∃ poly l, m.polygons[j]? = some poly ∧ resolve m.points.list poly.points = .ok l ∧
      ((cycPairs l).map (fun e => cov x (ptOf out.points v) e.1 e.2)).sum =
        ∑ t ∈ Finset.range out.tris.length, sectorC x out v t := by
  obtain ⟨hl, hu⟩ := mesh_points ht hv hS hd hm
  obtain ⟨poly, ns, ts, idx, h1, h2, h3, h4, huse, hall, h5, h6⟩ :=
    C70_cell tol ht out hv hmk d hd m hm j v hj
  obtain ⟨_, _, _, L, hL, hA⟩ := (C71_mesh_consistent tol out hv d hd m hm).2.1 poly (List.mem_of_getElem? h1)
  refine ⟨poly, L, h1, hL, ?_⟩
  obtain ⟨e, hG, hdir⟩ := gfan_of hv hC h2 h4 h3
  have hp := poly_sides hv hC hS hl hu h2 h4 h3 h5 e hG (Or.inl hM) h6
    (by rw [← refArea_resolve hL]; exact hA _)
  have hcov := cell_cov hv hC hS hl hu h2 h4 h3 h5 e hG (Or.inl hM) x
  rw [← sectorC_all h4 (hall hone) huse, ← sectorC_sum hv hdir, ← hcov]
  have e1 : ((cycPairs L).map (fun e => cov x (ptOf out.points v) e.1 e.2)).sum =
      cycSum (gCov m.points.list x (ptOf out.points v)) poly.points := by
    rw [resolve_map hL, cycPairs_map, List.map_map]
    rfl
  rw [e1]
  rcases hp with ⟨rfl, hh⟩ | ⟨rfl, hh⟩
  · rw [hh, one_mul]
  · rw [hh, cycSum_reverse _ (gCov_swap _ _ _), neg_one_mul]

/-- All vertices of a cell are at least as close to its point as to the other points. -/
theorem vertex_region (tol : K) (ht : 0 < tol) {out : TriOut K} (hv : ValidOut out)
    (hmk : MarkersOk out) (hC : Conforming out) (hS : MergesNothing tol out) {d : DelInfo K}
    (hd : DelInfo.importOut tol DelInfo.empty out = .ok d) {m : Mesh K (Poly K)}
    (hm : voronoi tol d = .ok m) {j : Nat} {v : Int} {pv : Pt K}
    (hj : (firsts (out.tris.flatMap verts))[j]? = some v) (hpv : vecGet out.points v = .ok pv)
    {poly : Poly K} {l : List (Pt K)} (h1 : m.polygons[j]? = some poly)
    (h2 : resolve m.points.list poly.points = .ok l) :
    ∀ q ∈ l, ∀ w pw, SiteAt out w pw → sqDist q pv ≤ sqDist q pw := by
  intro q hq w pw' hw
  obtain ⟨hl, hu⟩ := mesh_points ht hv hS hd hm
  obtain ⟨poly', ns, ts, idx, g1, g2, g3, g4, huse, _, g5, g6⟩ := C70_cell tol ht out hv hmk d hd m hm j v hj
  rw [h1] at g1; obtain rfl := Option.some.inj g1
  rw [resolve_map h2] at hq
  obtain ⟨i, hi, rfl⟩ := List.mem_map.1 hq
  have hidx : i ∈ idx := by
    rcases g6 with hh | hh <;> rw [hh] at hi
    · exact (mem_firsts _ _).1 hi
    · exact (mem_firsts _ _).1 (List.mem_reverse.1 hi)
  have hpv' : ptOf out.points v = pv := ptOf_ok hpv
  have hpos : 0 < ts.length := List.length_pos_of_ne_nil g3
  obtain ⟨s, hs⟩ := List.mem_iff_getElem?.1 hidx
  have hsl := (List.getElem?_eq_some_iff.1 hs).1
  have cen : ∀ r < ts.length, 0 ≤ pw (fanX out v ts r) (relTo pv pw') := by
    intro r hr
    unfold fanX
    rw [hpv', pw_relTo, sub_nonneg]
    obtain ⟨tt, k1, k2⟩ := huse (ts.getD r 0) (by rw [List.getD_eq_getElem _ _ hr]; exact List.getElem_mem hr)
    have := cen_empty hv hC.empty k1 k2 hw
    rwa [hpv'] at this
  have mid : ∀ a, BoundaryEdge out.tris v a → 0 ≤ pw (half (relTo pv (ptOf out.points a))) (relTo pv pw') := by
    intro a hb
    obtain ⟨t, ⟨tt, k1, k2⟩, _⟩ := id hb
    have hmem := List.mem_of_getElem? k1
    obtain ⟨_, k4, _⟩ := (mem_sides_iff (properTris_of_valid hv tt hmem) v a).1 k2
    have := hC.noEncroachment v a pv _ hb hpv (site_of_tri hv k1 k4).1 w pw' hw
    rw [half_relTo, pw_relTo, sub_nonneg]
    exact this
  obtain ⟨z, hz, hzw⟩ : ∃ z, At m.points.list (ptOf out.points v) idx s z ∧ 0 ≤ pw z (relTo pv pw') := by
    rcases cell_exact hv hC hS hl g2 g4 g3 g5 with ⟨_, _, k3, _, k5⟩ | ⟨_, _, hb0, hb1, _, _, k7, k8⟩
    · refine ⟨_, k5 s (by omega), ?_⟩
      unfold zc
      split
      · exact cen _ (by omega)
      · exact cen _ (by omega)
    · refine ⟨_, k7 s hsl, ?_⟩
      unfold zo
      split
      · have := mid _ hb0
        unfold fanA; rwa [hpv']
      · split
        · exact cen _ (by omega)
        · split
          · have := mid _ hb1
            unfold fanA; rwa [hpv']
          · have e0 : (⟨0, 0⟩ : Pt K) = relTo pv pv := (relTo_self pv).symm
            rw [e0, pw_relTo, sub_nonneg]
            have e1 : sqDist pv pv = 0 := by unfold sqDist; ring
            rw [e1]; unfold sqDist; positivity
  obtain ⟨u, q, k1, k2, k3⟩ := hz
  rw [hs] at k1; obtain rfl := Option.some.inj k1
  rw [ptOf_ok k2, ← sub_nonneg, ← pw_relTo]
  rw [hpv'] at k3
  rw [k3]
  exact hzw

/-- Distances in a triangle with the corner `p`. -/
theorem tri_nearer {p a b w x : Pt K} (h : 0 < turn p a b) (hx : InTri (p, a, b) x)
    (ha : sqDist a p ≤ sqDist a w) (hb : sqDist b p ≤ sqDist b w) : sqDist x p ≤ sqDist x w ∧
      (0 < turn a b x → p ≠ w → sqDist x p < sqDist x w) := by
  obtain ⟨h1, h2, h3⟩ := hx
  simp only at h1 h2 h3
  have key : turn p a b * (sqDist x w - sqDist x p) = turn a b x * (sqDist p w) +
      turn b p x * (sqDist a w - sqDist a p) + turn p a x * (sqDist b w - sqDist b p) := by
    unfold turn sqDist; ring
  have k1 := mul_nonneg h3 (sub_nonneg.2 ha)
  have k2 := mul_nonneg h1 (sub_nonneg.2 hb)
  have k3 : 0 ≤ sqDist p w := by unfold sqDist; positivity
  refine ⟨?_, fun hp hne => ?_⟩
  · rw [← sub_nonneg]
    refine nonneg_of_mul_nonneg_right ?_ h
    rw [key]
    have := mul_nonneg h2 k3
    linarith
  · rw [← sub_pos]
    rw [← mul_pos_iff_of_pos_left h]
    rw [key]
    have hpw : 0 < sqDist p w := by
      rcases k3.eq_or_lt with h0 | h0
      · exfalso; apply hne
        unfold sqDist at h0
        have e1 : (p.x - w.x) = 0 := by nlinarith [sq_nonneg (p.x - w.x), sq_nonneg (p.y - w.y)]
        have e2 : (p.y - w.y) = 0 := by nlinarith [sq_nonneg (p.x - w.x), sq_nonneg (p.y - w.y)]
        exact Pt.ext (by linarith) (by linarith)
      · exact h0
    have := mul_pos hp hpw
    linarith

/-- C105: the points of a cell (as star around its point) are at least as close to its point as to every
other used point, and the inner points are strictly closer. -/
theorem C105_region (tol : K) (ht : 0 < tol) (out : TriOut K) (hv : ValidOut out)
    (hmk : MarkersOk out) (hC : Conforming out) (hS : MergesNothing tol out) (d : DelInfo K)
    (hd : DelInfo.importOut tol DelInfo.empty out = .ok d) (m : Mesh K (Poly K))
    (hm : voronoi tol d = .ok m) (j : Nat) (v : Int) (pv : Pt K) (poly : Poly K) (l : List (Pt K))
    (hj : (firsts (out.tris.flatMap verts))[j]? = some v) (hpv : vecGet out.points v = .ok pv)
    (h1 : m.polygons[j]? = some poly) (h2 : resolve m.points.list poly.points = .ok l) (x : Pt K) :
    (InStar pv l x → ∀ w pw, SiteAt out w pw → sqDist x pv ≤ sqDist x pw) ∧
    (InOpenStar pv l x → ∀ w pw, SiteAt out w pw → w ≠ v → sqDist x pv < sqDist x pw) := by
  have hr := vertex_region tol ht hv hmk hC hS hd hm hj hpv h1 h2
  refine ⟨?_, ?_⟩
  · rw [inStar_iff]
    rintro ⟨e, he, hp, hx⟩ w pw hw
    obtain ⟨e1, e2⟩ := cycPairs_mem he
    exact (tri_nearer hp hx (hr _ e1 w pw hw) (hr _ e2 w pw hw)).1
  · rw [inOpenStar_iff]
    rintro ⟨e, he, x1, x2, x3⟩ w pw hw hne
    obtain ⟨e1, e2⟩ := cycPairs_mem he
    simp only at x1 x2 x3
    have hp : 0 < turn pv e.1 e.2 := by
      have := turn_sum pv e.1 e.2 x
      linarith
    refine (tri_nearer hp ⟨x1.le, x2.le, x3.le⟩ (hr _ e1 w pw hw) (hr _ e2 w pw hw)).2 x2 ?_
    rintro rfl
    obtain ⟨tt, htt, hvt⟩ := List.mem_flatMap.1 ((mem_firsts _ _).1 (List.mem_of_getElem? hj))
    obtain ⟨t, h⟩ := List.mem_iff_getElem?.1 htt
    have := site_of_tri hv h hvt
    rw [ptOf_ok hpv] at this
    exact hne (hC.distinct w v pv hw this)

/-- C105: different cells have no inner points in common, and their common points are equally far from
both of their points: they are on the boundaries of the two regions. -/
theorem C105_overlap (tol : K) (ht : 0 < tol) (out : TriOut K) (hv : ValidOut out)
    (hmk : MarkersOk out) (hC : Conforming out) (hS : MergesNothing tol out) (d : DelInfo K)
    (hd : DelInfo.importOut tol DelInfo.empty out = .ok d) (m : Mesh K (Poly K))
    (hm : voronoi tol d = .ok m) (j k : Nat) (v w : Int) (pv pw : Pt K) (poly poly' : Poly K)
    (l l' : List (Pt K))
    (hj : (firsts (out.tris.flatMap verts))[j]? = some v) (hpv : vecGet out.points v = .ok pv)
    (h1 : m.polygons[j]? = some poly) (h2 : resolve m.points.list poly.points = .ok l)
    (hk : (firsts (out.tris.flatMap verts))[k]? = some w) (hpw : vecGet out.points w = .ok pw)
    (h3 : m.polygons[k]? = some poly') (h4 : resolve m.points.list poly'.points = .ok l')
    (hne : j ≠ k) (x : Pt K) (hx : InStar pv l x) (hx' : InStar pw l' x) :
    sqDist x pv = sqDist x pw ∧ ¬ InOpenStar pv l x ∧ ¬ InOpenStar pw l' x := by
  have site : ∀ {j : Nat} {v : Int} {pv : Pt K}, (firsts (out.tris.flatMap verts))[j]? = some v →
      vecGet out.points v = .ok pv → SiteAt out v pv := by
    intro j v pv hj hpv
    obtain ⟨tt, htt, hvt⟩ := List.mem_flatMap.1 ((mem_firsts _ _).1 (List.mem_of_getElem? hj))
    obtain ⟨t, h⟩ := List.mem_iff_getElem?.1 htt
    have := site_of_tri hv h hvt
    rwa [ptOf_ok hpv] at this
  have hvw : v ≠ w := by
    rintro rfl
    obtain ⟨a1, a2⟩ := List.getElem?_eq_some_iff.1 hj
    obtain ⟨b1, b2⟩ := List.getElem?_eq_some_iff.1 hk
    exact hne ((nodup_firsts _).getElem_inj_iff.1 (a2.trans b2.symm))
  obtain ⟨r1, r2⟩ := C105_region tol ht out hv hmk hC hS d hd m hm j v pv poly l hj hpv h1 h2 x
  obtain ⟨s1, s2⟩ := C105_region tol ht out hv hmk hC hS d hd m hm k w pw poly' l' hk hpw h3 h4 x
  have le1 := r1 hx w pw (site hk hpw)
  have le2 := s1 hx' v pv (site hj hpv)
  exact ⟨le_antisymm le1 le2, fun h => absurd (r2 h w pw (site hk hpw) hvw.symm) (not_lt.2 le2),
    fun h => absurd (s2 h v pv (site hj hpv) hvw) (not_lt.2 le1)⟩

/-- C105: the cells cover the triangles and nothing else: a point is in a triangle if and only if it is
in the cell of some point. -/
theorem C105_cover (tol : K) (ht : 0 < tol) (out : TriOut K) (hv : ValidOut out)
    (hmk : MarkersOk out) (hC : Conforming out) (hS : MergesNothing tol out)
    (hM : MergesNoCorner tol out) (hone : ∀ v, OneFan out.tris v) (d : DelInfo K)
    (hd : DelInfo.importOut tol DelInfo.empty out = .ok d) (m : Mesh K (Poly K))
    (hm : voronoi tol d = .ok m) (x : Pt K) :
    (∃ t ∈ out.tris, ∃ a b c, vecGet out.points t.1 = .ok a ∧ vecGet out.points t.2.1 = .ok b ∧
      vecGet out.points t.2.2 = .ok c ∧ InTri (a, b, c) x) ↔
    ∃ (j : Nat) (v : Int) (pv : Pt K) (poly : Poly K) (l : List (Pt K)),
      (firsts (out.tris.flatMap verts))[j]? = some v ∧ vecGet out.points v = .ok pv ∧
      m.polygons[j]? = some poly ∧ resolve m.points.list poly.points = .ok l ∧ InStar pv l x := by
  set vs := firsts (out.tris.flatMap verts) with hvs
  have hnd : vs.Nodup := nodup_firsts _
  have hlen : m.polygons.length = vs.length := (C71_mesh_consistent tol out hv d hd m hm).1
  have site : ∀ {j : Nat} {v : Int}, vs[j]? = some v → vecGet out.points v = .ok (ptOf out.points v) := by
    intro j v hj
    obtain ⟨tt, htt, hvt⟩ := List.mem_flatMap.1 ((mem_firsts _ _).1 (List.mem_of_getElem? hj))
    obtain ⟨t, h⟩ := List.mem_iff_getElem?.1 htt
    exact (site_of_tri hv h hvt).1
  -- the triangles, and the pieces of the cells
  set P : List (Pt K × Pt K × Pt K) := (List.range out.tris.length).map (fun t =>
    (ptOf out.points (out.tris.getD t (0, 0, 0)).1, ptOf out.points (out.tris.getD t (0, 0, 0)).2.1,
      ptOf out.points (out.tris.getD t (0, 0, 0)).2.2)) with hPdef
  set cell : Nat → List (Pt K) := fun k => ((m.polygons.map Poly.points).getD k []).map (ptOf m.points.list)
    with hcell
  set piece : Nat → List (Pt K × Pt K × Pt K) := fun k =>
    (cycPairs (cell k)).map (fun e => (ptOf out.points (vs.getD k 0), e.1, e.2)) with hpiece
  set Q := (List.range vs.length).flatMap piece with hQdef
  have hcellk : ∀ {k : Nat} {poly : Poly K} {l : List (Pt K)}, m.polygons[k]? = some poly →
      resolve m.points.list poly.points = .ok l → cell k = l := by
    intro k poly l h1 h2
    simp only [hcell]
    rw [List.getD_eq_getElem?_getD, List.getElem?_map, h1]
    exact (resolve_map h2).symm
  have hget : ∀ {k : Nat}, k < vs.length → vs[k]? = some (vs.getD k 0) := by
    intro k hk
    rw [List.getElem?_eq_getElem hk, List.getD_eq_getElem _ _ hk]
  have hP : ∀ t ∈ P, 0 < turn t.1 t.2.1 t.2.2 := by
    intro t htm
    obtain ⟨k, hk, rfl⟩ := List.mem_map.1 htm
    have hk' := List.mem_range.1 hk
    have hg : out.tris.getD k (0, 0, 0) ∈ out.tris := by
      rw [List.getD_eq_getElem _ _ hk']; exact List.getElem_mem hk'
    obtain ⟨a, b, c, g1, g2, g3, _⟩ := hv.triProper _ hg
    simp only
    rw [ptOf_ok g1, ptOf_ok g2, ptOf_ok g3]
    exact hC.ccw _ hg a b c g1 g2 g3
  have hQ : ∀ t ∈ Q, 0 ≤ turn t.1 t.2.1 t.2.2 := by
    intro t htm
    obtain ⟨k, hk, htk⟩ := List.mem_flatMap.1 htm
    have hk' := List.mem_range.1 hk
    obtain ⟨e, he, rfl⟩ := List.mem_map.1 htk
    obtain ⟨poly, l, h1, h2, h3⟩ := C100_star tol ht out hv hmk hC hS d hd m hm k _ _ (hget hk')
      (site (hget hk')) (Or.inl hM)
    rw [hcellk h1 h2] at he
    exact h3 e he
  have hcount : ∀ x, (P.map (fun t => cov x t.1 t.2.1 t.2.2)).sum =
      (Q.map (fun t => cov x t.1 t.2.1 t.2.2)).sum := by
    intro x
    have e1 : (P.map (fun t => cov x t.1 t.2.1 t.2.2)).sum = ∑ t ∈ Finset.range out.tris.length,
        (vs.map (fun v => sectorC x out v t)).sum := by
      rw [hPdef, List.map_map, ← List.sum_toFinset _ List.nodup_range, List.toFinset_range]
      refine Finset.sum_congr rfl (fun t ht' => ?_)
      have htl := Finset.mem_range.1 ht'
      have hg : out.tris[t]? = some (out.tris.getD t (0, 0, 0)) := by
        rw [List.getElem?_eq_getElem htl, List.getD_eq_getElem _ _ htl]
      rw [sectorC_tri hv hnd hg]
      · rfl
      · intro v hvm
        exact (mem_firsts _ _).2 (List.mem_flatMap.2 ⟨_, List.mem_of_getElem? hg, hvm⟩)
    have e2 : (Q.map (fun t => cov x t.1 t.2.1 t.2.2)).sum = ((List.range vs.length).map (fun k =>
        ∑ t ∈ Finset.range out.tris.length, sectorC x out (vs.getD k 0) t)).sum := by
      have hflat : ∀ R : List Nat, (∀ k ∈ R, k < vs.length) →
          ((R.flatMap piece).map (fun t => cov x t.1 t.2.1 t.2.2)).sum =
          (R.map (fun k => ∑ t ∈ Finset.range out.tris.length, sectorC x out (vs.getD k 0) t)).sum := by
        intro R
        induction R with
        | nil => intro _; rfl
        | cons k R ih =>
          intro hR
          rw [List.flatMap_cons, List.map_append, List.sum_append, ih (fun k' hk' => hR k' (by simp [hk'])),
            List.map_cons, List.sum_cons]
          congr 1
          obtain ⟨poly, l, h1, h2, h3⟩ := cell_count tol ht hv hmk hC hS hM hd hm
            (hget (hR k (by simp))) (hone _) x
          rw [← h3]
          simp only [hpiece]
          rw [hcellk h1 h2, List.map_map]
          rfl
      exact hflat _ (fun k hk => List.mem_range.1 hk)
    have e3 : ((List.range vs.length).map (fun k =>
        ∑ t ∈ Finset.range out.tris.length, sectorC x out (vs.getD k 0) t)) =
        vs.map (fun v => ∑ t ∈ Finset.range out.tris.length, sectorC x out v t) := by
      apply List.ext_getElem
      · simp
      · intro k h1 h2
        have hk : k < vs.length := by simpa using h2
        simp [hk]
    rw [e1, e2, e3, ← List.sum_toFinset _ hnd, Finset.sum_comm]
    refine Finset.sum_congr rfl (fun t _ => ?_)
    rw [List.sum_toFinset _ hnd]
  have main := same_points P Q hP hQ hcount x
  constructor
  · rintro ⟨t, htm, a, b, c, g1, g2, g3, hx⟩
    obtain ⟨k, hk⟩ := List.mem_iff_getElem?.1 htm
    obtain ⟨hk1, hk2⟩ := List.getElem?_eq_some_iff.1 hk
    obtain ⟨s, hs, hs1, hs2⟩ := main.1 ⟨(a, b, c), List.mem_map.2 ⟨k, List.mem_range.2 hk1, by
      rw [List.getD_eq_getElem _ _ hk1, hk2, ptOf_ok g1, ptOf_ok g2, ptOf_ok g3]⟩, hx⟩
    obtain ⟨i, hi, hsi⟩ := List.mem_flatMap.1 hs
    have hi' := List.mem_range.1 hi
    obtain ⟨e, he, rfl⟩ := List.mem_map.1 hsi
    have hip : i < m.polygons.length := by omega
    obtain ⟨_, _, _, L, hL, _⟩ := (C71_mesh_consistent tol out hv d hd m hm).2.1 _ (List.getElem_mem hip)
    refine ⟨i, _, _, _, L, hget hi', site (hget hi'), List.getElem?_eq_getElem hip, hL, ?_⟩
    rw [hcellk (List.getElem?_eq_getElem hip) hL] at he
    rw [inStar_iff]
    exact ⟨e, he, hs1, hs2⟩
  · rintro ⟨j, v, pv, poly, l, hj, hpv, h1, h2, hx⟩
    rw [inStar_iff] at hx
    obtain ⟨e, he, hx1, hx2⟩ := hx
    obtain ⟨hj1, hj2⟩ := List.getElem?_eq_some_iff.1 hj
    obtain ⟨s, hs, hs2⟩ := main.2 ⟨(pv, e.1, e.2), List.mem_flatMap.2 ⟨j, List.mem_range.2 hj1,
      List.mem_map.2 ⟨e, by rw [hcellk h1 h2]; exact he, by
        rw [List.getD_eq_getElem _ _ hj1, hj2, ptOf_ok hpv]⟩⟩, hx1, hx2⟩
    obtain ⟨k, hk, rfl⟩ := List.mem_map.1 hs
    have hk' := List.mem_range.1 hk
    have hg : out.tris.getD k (0, 0, 0) ∈ out.tris := by
      rw [List.getD_eq_getElem _ _ hk']; exact List.getElem_mem hk'
    obtain ⟨a, b, c, g1, g2, g3, _⟩ := hv.triProper _ hg
    rw [ptOf_ok g1, ptOf_ok g2, ptOf_ok g3] at hs2
    exact ⟨_, hg, a, b, c, g1, g2, g3, hs2⟩

/-- C105: a point of the triangulated area that is strictly closer to one used point than to all others
is in the cell of that point. -/
theorem C105_nearest (tol : K) (ht : 0 < tol) (out : TriOut K) (hv : ValidOut out)
    (hmk : MarkersOk out) (hC : Conforming out) (hS : MergesNothing tol out)
    (hM : MergesNoCorner tol out) (hone : ∀ v, OneFan out.tris v) (d : DelInfo K)
    (hd : DelInfo.importOut tol DelInfo.empty out = .ok d) (m : Mesh K (Poly K))
    (hm : voronoi tol d = .ok m) (j : Nat) (v : Int) (pv : Pt K)
    (hj : (firsts (out.tris.flatMap verts))[j]? = some v) (hpv : vecGet out.points v = .ok pv)
    (x : Pt K) (hx : ∃ t ∈ out.tris, ∃ a b c, vecGet out.points t.1 = .ok a ∧
      vecGet out.points t.2.1 = .ok b ∧ vecGet out.points t.2.2 = .ok c ∧ InTri (a, b, c) x)
    (hn : ∀ w pw, SiteAt out w pw → w ≠ v → sqDist x pv < sqDist x pw) :
    ∃ poly l, m.polygons[j]? = some poly ∧ resolve m.points.list poly.points = .ok l ∧ InStar pv l x := by
  obtain ⟨k, w, pw, poly, l, g1, g2, g3, g4, g5⟩ :=
    (C105_cover tol ht out hv hmk hC hS hM hone d hd m hm x).1 hx
  have site : ∀ {j : Nat} {v : Int} {pv : Pt K}, (firsts (out.tris.flatMap verts))[j]? = some v →
      vecGet out.points v = .ok pv → SiteAt out v pv := by
    intro j v pv hj hpv
    obtain ⟨tt, htt, hvt⟩ := List.mem_flatMap.1 ((mem_firsts _ _).1 (List.mem_of_getElem? hj))
    obtain ⟨t, h⟩ := List.mem_iff_getElem?.1 htt
    have := site_of_tri hv h hvt
    rwa [ptOf_ok hpv] at this
  by_cases hwv : w = v
  · subst hwv
    have hkj : k = j := by
      obtain ⟨a1, a2⟩ := List.getElem?_eq_some_iff.1 g1
      obtain ⟨b1, b2⟩ := List.getElem?_eq_some_iff.1 hj
      exact (nodup_firsts _).getElem_inj_iff.1 (a2.trans b2.symm)
    rw [g2] at hpv
    obtain rfl := Outcome.ok.inj hpv
    exact ⟨poly, l, hkj ▸ g3, g4, g5⟩
  · have h1 := hn w pw (site g1 g2) hwv
    have h2 := (C105_region tol ht out hv hmk hC hS d hd m hm k w pw poly l g1 g2 g3 g4 x).1 g5 v pv
      (site hj hpv)
    exact absurd h1 (not_lt.2 h2)

/-- The hypotheses are met: (1, 1) is in the first triangle of the hexagon and closer to the middle
point than to all others. -/
example : ValidOut hexOut ∧ MarkersOk hexOut ∧ Conforming hexOut ∧ MergesNothing (1/100000 : ℚ) hexOut ∧
    MergesNoCorner (1/100000 : ℚ) hexOut ∧ (∀ v, OneFan hexOut.tris v) ∧
    (firsts (hexOut.tris.flatMap verts))[0]? = some 0 ∧ vecGet hexOut.points 0 = .ok ⟨0, 0⟩ ∧
    InTri (⟨0, 0⟩, ⟨4, 0⟩, ⟨2, 3⟩) (⟨1, 1⟩ : Pt ℚ) ∧
    (∀ w pw, SiteAt hexOut w pw → w ≠ 0 → sqDist (⟨1, 1⟩ : Pt ℚ) ⟨0, 0⟩ < sqDist ⟨1, 1⟩ pw) := by
  refine ⟨hexOut_valid, hexOut_markers, hexOut_conforming, hexOut_sharp, hexOut_sharpLines, hexOut_oneFan,
    by decide +kernel, by decide +kernel, ?_, ?_⟩
  · unfold InTri; decide +kernel
  · rintro w pw ⟨h, _⟩ hw
    have key : ∀ k : Fin 7, k ≠ 0 → sqDist (⟨1, 1⟩ : Pt ℚ) ⟨0, 0⟩ <
        sqDist ⟨1, 1⟩ (hexOut.points[k.val]'k.isLt) := by decide +kernel
    obtain ⟨h0, h1⟩ := vecGet_ok_iff.1 h
    obtain ⟨h2, h3⟩ := List.getElem?_eq_some_iff.1 h1
    have h7 : w.toNat < 7 := h2
    have := key ⟨w.toNat, h7⟩ (by
      intro hc
      have := congrArg Fin.val hc
      simp only [Fin.coe_ofNat_eq_mod] at this
      omega)
    rw [← h3]
    exact this

end Delynoi
