import Verif.Proofs.CellArea
import Verif.Props.VoronoiMaps
import Verif.Props.VoronoiRegion
/-!
# Property C99: the areas of the Voronoi cells
-/
set_option linter.unusedSectionVars false
namespace Delynoi
variable {K : Type} [Field K] [LinearOrder K] [IsStrictOrderedRing K]

/-- C99: in a conforming Delaunay triangulation without overlaps, with a tolerance that does not merge
anything, the path around a used point never comes back to a vertex that it left. -/
theorem C99_no_return (tol : K) (ht : 0 < tol) (out : TriOut K) (hv : ValidOut out)
    (hmk : MarkersOk out) (hC : Conforming out) (hS : MergesNothing tol out) (d : DelInfo K)
    (hd : DelInfo.importOut tol DelInfo.empty out = .ok d) (m : Mesh K (Poly K))
    (hm : voronoi tol d = .ok m) (j : Nat) (v : Int)
    (hj : (firsts (out.tris.flatMap verts))[j]? = some v) :
    ∃ poly ns ts idx, m.polygons[j]? = some poly ∧ IsFan out.tris v ns ts ∧
      CellIdx tol out m.points.list v ns ts idx ∧
      (poly.points = firsts idx ∨ poly.points = (firsts idx).reverse) ∧ NoReturn ns idx := by
  obtain ⟨hl, hu⟩ := mesh_points ht hv hS hd hm
  obtain ⟨poly, ns, ts, idx, h1, h2, h3, h4, _, _, h5, h6⟩ := C70_cell tol ht out hv hmk d hd m hm j v hj
  exact ⟨poly, ns, ts, idx, h1, h2, h5, h6, noReturn_of hv hC hS hl hu h2 h4 h3 h5⟩

/-- C99: in that case the recorded edges of the mesh are exactly the sides of the cells, with the cells
that they belong to (the statements of C83 without their proviso). -/
theorem C99_sides_recorded (tol : K) (ht : 0 < tol) (out : TriOut K) (hv : ValidOut out)
    (hmk : MarkersOk out) (hC : Conforming out) (hS : MergesNothing tol out) (d : DelInfo K)
    (hd : DelInfo.importOut tol DelInfo.empty out = .ok d) (m : Mesh K (Poly K))
    (hm : voronoi tol d = .ok m) (j : Nat) (hj : j < m.polygons.length) :
    ∃ poly, m.polygons[j]? = some poly ∧
      (∀ e ∈ cycPairs poly.points, e.1 ≠ e.2 →
        ∃ n, m.edges.find (ISeg.mk' e.1 e.2) = some n ∧ Remembers n j) ∧
      (∀ e ∈ m.edges, e.1.p1 ≠ e.1.p2 → e.2.n1 = some (j : Int) ∨ e.2.n2 = (j : Int) →
        (e.1.p1, e.1.p2) ∈ cycPairs poly.points ∨ (e.1.p2, e.1.p1) ∈ cycPairs poly.points) := by
  obtain ⟨hl, hu⟩ := mesh_points ht hv hS hd hm
  rw [(C71_mesh_consistent tol out hv d hd m hm).1] at hj
  obtain ⟨poly, ns, ts, idx, h1, h2, h3, h4, h5, _, h6⟩ :=
    C83_sides_recorded tol ht out hv hmk d hd m hm j _ (List.getElem?_eq_getElem hj)
  exact ⟨poly, h1, h6 (noReturn_of hv hC hS hl hu h2 h4 h3 h5)⟩

theorem share_sector {out : TriOut K} (hv : ValidOut out) {v : Int} {t : Nat} {tt : Int × Int × Int} {A : K}
    (h : out.tris[t]? = some tt) (hA : IsShare out v tt A) : A = sector out v t := by
  rcases hA with ⟨h1, rfl⟩ | ⟨a, b, pv, pa, pb, q, h1, h2, h3, h4, h5, h6, h7, rfl⟩
  · rw [sector_unused]
    rintro ⟨tt', g1, g2⟩
    rw [h] at g1; obtain rfl := Option.some.inj g1
    exact h1 g2
  · have hp : Pos out.tris v a b t := ⟨tt, h, h1, h2⟩
    rw [sector_pos hv hp, ptOf_ok h3, ptOf_ok h4, ptOf_ok h5]
    have hq : q = cenOf out t := by
      obtain ⟨a', b', c', g1, g2, g3, _⟩ := hv.triProper tt (List.mem_of_getElem? h)
      obtain ⟨_, _, hu⟩ := cenOf_spec hv h g1 g2 g3
      obtain ⟨x, y, z⟩ := tt
      obtain ⟨n1, n2, n3⟩ := properTris_of_valid hv _ (List.mem_of_getElem? h)
      simp only [dsides, List.mem_cons, Prod.mk.injEq, List.not_mem_nil, or_false] at h1 h2
      simp only at n1 n2 n3 g1 g2 g3
      have hcase : (v = x ∧ a = y ∧ b = z) ∨ (v = y ∧ a = z ∧ b = x) ∨ (v = z ∧ a = x ∧ b = y) := by omega
      rcases hcase with ⟨rfl, rfl, rfl⟩ | ⟨rfl, rfl, rfl⟩ | ⟨rfl, rfl, rfl⟩
      · rw [g1] at h3; rw [g2] at h4; rw [g3] at h5
        obtain rfl := Outcome.ok.inj h3; obtain rfl := Outcome.ok.inj h4; obtain rfl := Outcome.ok.inj h5
        exact hu q h6 h7
      · rw [g2] at h3; rw [g3] at h4; rw [g1] at h5
        obtain rfl := Outcome.ok.inj h3; obtain rfl := Outcome.ok.inj h4; obtain rfl := Outcome.ok.inj h5
        exact hu q h7.symm (h7.symm.trans h6)
      · rw [g3] at h3; rw [g1] at h4; rw [g2] at h5
        obtain rfl := Outcome.ok.inj h3; obtain rfl := Outcome.ok.inj h4; obtain rfl := Outcome.ok.inj h5
        exact hu q (h6.symm.trans h7) h6.symm
    unfold secArea
    rw [hq]; ring

/-- The area of one cell. -/
theorem cell_area (tol : K) (ht : 0 < tol) {out : TriOut K} (hv : ValidOut out)
    (hmk : MarkersOk out) (hC : Conforming out) (hS : MergesNothing tol out) {d : DelInfo K}
    (hd : DelInfo.importOut tol DelInfo.empty out = .ok d) {m : Mesh K (Poly K)}
    (hm : voronoi tol d = .ok m) {j : Nat} {v : Int}
    (hj : (firsts (out.tris.flatMap verts))[j]? = some v) (hone : OneFan out.tris v) :
    ∃ poly l, m.polygons[j]? = some poly ∧ resolve m.points.list poly.points = .ok l ∧
      ∀ o, |refArea o l - ∑ t ∈ Finset.range out.tris.length, sector out v t| ≤ tol / 2 ∧
        (MergesNoCorner tol out ∨ (∀ a, ¬ BoundaryEdge out.tris v a) →
          refArea o l = ∑ t ∈ Finset.range out.tris.length, sector out v t) := by
  obtain ⟨hl, hu⟩ := mesh_points ht hv hS hd hm
  obtain ⟨poly, ns, ts, idx, h1, h2, h3, h4, huse, hall, h5, h6⟩ :=
    C70_cell tol ht out hv hmk d hd m hm j v hj
  obtain ⟨_, _, _, L, hL, hA⟩ := (C71_mesh_consistent tol out hv d hd m hm).2.1 poly (List.mem_of_getElem? h1)
  refine ⟨poly, L, h1, hL, ?_⟩
  obtain ⟨e, hG, hdir⟩ := gfan_of hv hC h2 h4 h3
  obtain ⟨hnn, r, hr, hr'⟩ := cell_sum hv hC hS hl hu h2 h4 h3 h5 e hG
  rw [sector_sum hv hdir, sector_all h4 (hall hone) huse] at hnn hr
  generalize ∑ t ∈ Finset.range out.tris.length, sector out v t = S at hnn hr
  have he : e = 1 ∨ e = -1 := by rcases hdir with ⟨h, _⟩ | ⟨h, _⟩ <;> simp [h]
  set c := cycSum (gArea m.points.list (ptOf out.points v)) (firsts idx) with hc
  have harea : refArea (ptOf out.points v) L = c ∨ refArea (ptOf out.points v) L = -c := by
    rw [refArea_resolve hL]
    rcases h6 with h | h <;> rw [h]
    · exact Or.inl rfl
    · right; exact cycSum_reverse _ (gArea_swap _ _) _
  have hpos := hA (ptOf out.points v)
  have habs : refArea (ptOf out.points v) L = |S + e * (r / 2)| := by
    rw [← hr]
    rcases he with rfl | rfl <;> rcases harea with h | h <;> rw [h] at hpos ⊢
    · rw [one_mul, abs_of_nonneg hpos]
    · rw [one_mul, abs_of_nonpos (by linarith)]
    · rw [neg_one_mul, abs_neg, abs_of_nonneg hpos]
    · rw [neg_one_mul, abs_neg, abs_of_nonpos (by linarith)]
  have hzero : r = 0 → refArea (ptOf out.points v) L = S := by
    rintro rfl
    rw [habs, zero_div, mul_zero, add_zero, abs_of_nonneg hnn]
  intro o
  have ho : refArea o L = refArea (ptOf out.points v) L := by rw [refArea_eq, refArea_eq]
  rw [ho]
  refine ⟨?_, ?_⟩
  · rcases hr' with h | ⟨h, _⟩
    · rw [hzero h, sub_self, abs_zero]; linarith
    · have hb : |e * (r / 2)| ≤ tol / 2 := by
        rcases he with rfl | rfl
        · rw [one_mul, abs_div, abs_two]; linarith
        · rw [neg_one_mul, abs_neg, abs_div, abs_two]; linarith
      have h8 := abs_abs_sub_abs_le (S + e * (r / 2)) S
      rw [add_sub_cancel_left, abs_of_nonneg hnn] at h8
      rw [habs]
      exact h8.trans hb
  · intro hh
    apply hzero
    rcases hr' with h | ⟨h, hb0, hb1, hr0⟩
    · exact h
    · rcases hh with hh | hh
      · have site : ∀ {a : Int}, BoundaryEdge out.tris v a → ∃ pv pa, vecGet out.points v = .ok pv ∧
            vecGet out.points a = .ok pa := by
          rintro a ⟨t, ⟨tt, g1, g2⟩, _⟩
          have hmem := List.mem_of_getElem? g1
          obtain ⟨k1, k2, _⟩ := (mem_sides_iff (properTris_of_valid hv tt hmem) v a).1 g2
          obtain ⟨a', b', c', w1, w2, w3, _⟩ := hv.triProper tt hmem
          have all : ∀ u ∈ verts tt, ∃ p, vecGet out.points u = .ok p := by
            intro u hu
            simp only [verts, List.mem_cons, List.not_mem_nil, or_false] at hu
            rcases hu with rfl | rfl | rfl
            exacts [⟨_, w1⟩, ⟨_, w2⟩, ⟨_, w3⟩]
          obtain ⟨p, hp⟩ := all v k1
          obtain ⟨p', hp'⟩ := all a k2
          exact ⟨p, p', hp, hp'⟩
        obtain ⟨pv, pa, g1, g2⟩ := site hb0
        obtain ⟨pv', pb, g1', g3⟩ := site hb1
        have hz := hh v _ _ pv pa pb hb0 hb1 g1 g2 g3
        have hturn : r = turn (⟨(pv.x + pa.x) / 2, (pv.y + pa.y) / 2⟩ : Pt K) pv
            ⟨(pv.x + pb.x) / 2, (pv.y + pb.y) / 2⟩ := by
          rw [hr0]
          unfold fanA
          rw [ptOf_ok g1, ptOf_ok g2, ptOf_ok g3]
          unfold half relTo cr turn
          simp only
          ring
        rw [hturn]
        exact hz (by rw [← hturn]; exact h)
      · exact absurd hb0 (hh _)

/-- C99: the area of a cell is the sum of its parts in the triangles, up to half the tolerance; it is
exactly that for points that are not on the boundary, and for all points if boundary points that are
almost straight are straight.  Every point `o` may be used to compute the area. -/
theorem C99_cell_area (tol : K) (ht : 0 < tol) (out : TriOut K) (hv : ValidOut out)
    (hmk : MarkersOk out) (hC : Conforming out) (hS : MergesNothing tol out) (d : DelInfo K)
    (hd : DelInfo.importOut tol DelInfo.empty out = .ok d) (m : Mesh K (Poly K))
    (hm : voronoi tol d = .ok m) (j : Nat) (v : Int)
    (hj : (firsts (out.tris.flatMap verts))[j]? = some v) (hone : OneFan out.tris v) (shares : List K)
    (hsh : List.Forall₂ (IsShare out v) out.tris shares) :
    ∃ poly l, m.polygons[j]? = some poly ∧ resolve m.points.list poly.points = .ok l ∧
      ∀ o, |refArea o l - shares.sum| ≤ tol / 2 ∧
        (MergesNoCorner tol out ∨ (∀ a, ¬ BoundaryEdge out.tris v a) → refArea o l = shares.sum) := by
  obtain ⟨poly, l, h1, h2, h3⟩ := cell_area tol ht hv hmk hC hS hd hm hj hone
  have hs : shares = (List.range out.tris.length).map (sector out v) := by
    apply List.ext_getElem
    · rw [List.length_map, List.length_range, hsh.length_eq]
    · intro k hk hk'
      have hkt : k < out.tris.length := by rw [hsh.length_eq]; exact hk
      have := List.Forall₂.get hsh hkt hk
      simp only [List.get_eq_getElem] at this
      rw [share_sector hv (List.getElem?_eq_getElem hkt) this]
      simp
  have hsum : shares.sum = ∑ t ∈ Finset.range out.tris.length, sector out v t := by
    rw [hs, ← List.sum_toFinset _ List.nodup_range, List.toFinset_range]
  rw [hsum]
  exact ⟨poly, l, h1, h2, h3⟩

/-- C99: the parts of a cell in the triangles are always defined. -/
theorem C99_shares_exist (out : TriOut K) (hv : ValidOut out) (v : Int) :
    ∃ shares, List.Forall₂ (IsShare out v) out.tris shares := by
  have one : ∀ t ∈ out.tris, ∃ A, IsShare out v t A := by
    intro tt htt
    obtain ⟨t, h⟩ := List.mem_iff_getElem?.1 htt
    obtain ⟨a, b, c, g1, g2, g3, _⟩ := hv.triProper tt htt
    obtain ⟨e1, e2, _⟩ := cenOf_spec hv h g1 g2 g3
    by_cases h1 : v = tt.1
    · subst h1
      exact ⟨_, Or.inr ⟨tt.2.1, tt.2.2, a, b, c, cenOf out t, by simp [dsides], by simp [dsides], g1, g2, g3,
        e1, e2, rfl⟩⟩
    · by_cases h2 : v = tt.2.1
      · subst h2
        exact ⟨_, Or.inr ⟨tt.2.2, tt.1, b, c, a, cenOf out t, by simp [dsides], by simp [dsides], g2, g3, g1,
          e1.symm.trans e2, e1.symm, rfl⟩⟩
      · by_cases h3 : v = tt.2.2
        · subst h3
          exact ⟨_, Or.inr ⟨tt.1, tt.2.1, c, a, b, cenOf out t, by simp [dsides], by simp [dsides], g3, g1, g2,
            e2.symm, e2.symm.trans e1, rfl⟩⟩
        · exact ⟨0, Or.inl ⟨by simp [verts, h1, h2, h3], rfl⟩⟩
  generalize out.tris = l at one
  induction l with
  | nil => exact ⟨[], .nil⟩
  | cons t l ih =>
    obtain ⟨A, hA⟩ := one t (by simp)
    obtain ⟨As, hAs⟩ := ih (fun t' h => one t' (by simp [h]))
    exact ⟨A :: As, .cons hA hAs⟩

/-- Sum of approximate equalities. -/
theorem sum_close {α : Type} {f g : α → K} {δ : K} : ∀ (l : List α), (∀ x ∈ l, |f x - g x| ≤ δ) →
    |(l.map f).sum - (l.map g).sum| ≤ l.length * δ := by
  intro l
  induction l with
  | nil => intro _; simp
  | cons a l ih =>
    intro h
    have h1 := ih (fun x hx => h x (by simp [hx]))
    have h2 := h a (by simp)
    have h3 := abs_add_le (f a - g a) ((l.map f).sum - (l.map g).sum)
    simp only [List.map_cons, List.sum_cons, List.length_cons, Nat.cast_add, Nat.cast_one]
    have h4 : f a + (l.map f).sum - (g a + (l.map g).sum) = f a - g a + ((l.map f).sum - (l.map g).sum) := by ring
    rw [h4]
    linarith

/-- The resolved cells. -/
theorem cells_resolve {tol : K} {out : TriOut K} (hv : ValidOut out) {d : DelInfo K}
    (hd : DelInfo.importOut tol DelInfo.empty out = .ok d) {m : Mesh K (Poly K)}
    (hm : voronoi tol d = .ok m) :
    List.Forall₂ (fun (poly : Poly K) l => resolve m.points.list poly.points = .ok l) m.polygons
      (m.polygons.map (fun poly => poly.points.map (ptOf m.points.list))) := by
  rw [List.forall₂_map_right_iff, List.forall₂_same]
  intro poly hp
  obtain ⟨_, _, _, L, hL, _⟩ := (C71_mesh_consistent tol out hv d hd m hm).2.1 poly hp
  rw [hL, resolve_map hL]

/-- C99: the areas of all cells of the Voronoi mesh add up to the area of all triangles, up to half the
tolerance for every cell, and exactly if boundary points that are almost straight are straight. -/
theorem C99_total_area (tol : K) (ht : 0 < tol) (out : TriOut K) (hv : ValidOut out)
    (hmk : MarkersOk out) (hC : Conforming out) (hS : MergesNothing tol out)
    (hone : ∀ v, OneFan out.tris v) (d : DelInfo K)
    (hd : DelInfo.importOut tol DelInfo.empty out = .ok d) (m : Mesh K (Poly K))
    (hm : voronoi tol d = .ok m) :
    ∃ cells tris, List.Forall₂ (fun (poly : Poly K) l => resolve m.points.list poly.points = .ok l)
        m.polygons cells ∧
      List.Forall₂ (fun t l => resolve out.points [t.1, t.2.1, t.2.2] = .ok l) out.tris tris ∧
      ∀ o, |(cells.map (refArea o)).sum - (tris.map (refArea o)).sum| ≤ m.polygons.length * (tol / 2) ∧
        (MergesNoCorner tol out → (cells.map (refArea o)).sum = (tris.map (refArea o)).sum) := by
  set vs := firsts (out.tris.flatMap verts) with hvs
  have hnd : vs.Nodup := nodup_firsts _
  have hlen : m.polygons.length = vs.length := (C71_mesh_consistent tol out hv d hd m hm).1
  refine ⟨_, out.tris.map (fun t => [t.1, t.2.1, t.2.2].map (ptOf out.points)), cells_resolve hv hd hm, ?_, ?_⟩
  · rw [List.forall₂_map_right_iff, List.forall₂_same]
    intro t htm
    obtain ⟨a, b, c, h1, h2, h3, _⟩ := hv.triProper t htm
    have : ∃ l, resolve out.points [t.1, t.2.1, t.2.2] = .ok l := by
      rw [resolve_ok_iff]
      intro i hi
      simp only [List.mem_cons, List.not_mem_nil, or_false] at hi
      rcases hi with rfl | rfl | rfl
      · have := (vecGet_ok_iff.1 h1)
        exact ⟨this.1, by have := (List.getElem?_eq_some_iff.1 this.2).1; omega⟩
      · have := (vecGet_ok_iff.1 h2)
        exact ⟨this.1, by have := (List.getElem?_eq_some_iff.1 this.2).1; omega⟩
      · have := (vecGet_ok_iff.1 h3)
        exact ⟨this.1, by have := (List.getElem?_eq_some_iff.1 this.2).1; omega⟩
    obtain ⟨l, hl⟩ := this
    rw [hl, resolve_map hl]
  · intro o
    -- areas of the triangles
    have htri : (List.map (refArea o) (out.tris.map (fun t => [t.1, t.2.1, t.2.2].map (ptOf out.points)))).sum =
        (vs.map (fun v => ∑ t ∈ Finset.range out.tris.length, sector out v t)).sum := by
      have e1 : (vs.map (fun v => ∑ t ∈ Finset.range out.tris.length, sector out v t)).sum =
          ∑ t ∈ Finset.range out.tris.length, (vs.map (fun v => sector out v t)).sum := by
        rw [← List.sum_toFinset _ hnd, Finset.sum_comm]
        refine Finset.sum_congr rfl (fun t _ => ?_)
        rw [List.sum_toFinset _ hnd]
      rw [e1]
      have e2 : ∀ l : List (Int × Int × Int), (List.map (refArea o) (l.map
          (fun t => [t.1, t.2.1, t.2.2].map (ptOf out.points)))).sum =
          ∑ k ∈ Finset.range l.length, turn (ptOf out.points (l.getD k (0, 0, 0)).1)
            (ptOf out.points (l.getD k (0, 0, 0)).2.1) (ptOf out.points (l.getD k (0, 0, 0)).2.2) / 2 := by
        intro l
        induction l with
        | nil => simp
        | cons t l ih =>
          rw [List.map_cons, List.map_cons, List.sum_cons, ih, List.length_cons, Finset.sum_range_succ',
            add_comm]
          congr 1
          rw [refArea_cyc]
          show (List.map _ [(_, _), (_, _), (_, _)]).sum = _
          simp only [List.map_cons, List.map_nil, List.sum_cons, List.sum_nil, List.getD_cons_zero]
          unfold turn
          ring
      rw [e2]
      refine Finset.sum_congr rfl (fun t ht' => ?_)
      have htl := Finset.mem_range.1 ht'
      have hg : out.tris[t]? = some (out.tris.getD t (0, 0, 0)) := by
        rw [List.getElem?_eq_getElem htl, List.getD_eq_getElem _ _ htl]
      rw [sector_tri hv hnd hg]
      intro v hvm
      exact (mem_firsts _ _).2 (List.mem_flatMap.2 ⟨_, List.mem_of_getElem? hg, hvm⟩)
    have hcell : ∀ k (hk : k < m.polygons.length),
        |refArea o ((m.polygons[k]).points.map (ptOf m.points.list)) -
          ∑ t ∈ Finset.range out.tris.length, sector out (vs[k]'(hlen ▸ hk)) t| ≤ tol / 2 ∧
        (MergesNoCorner tol out → refArea o ((m.polygons[k]).points.map (ptOf m.points.list)) =
          ∑ t ∈ Finset.range out.tris.length, sector out (vs[k]'(hlen ▸ hk)) t) := by
      intro k hk
      obtain ⟨poly, l, h1, h2, h3⟩ := cell_area tol ht hv hmk hC hS hd hm
        (List.getElem?_eq_getElem (l := vs) (i := k) (hlen ▸ hk)) (hone _)
      rw [List.getElem?_eq_getElem hk] at h1
      rw [Option.some.inj h1, ← resolve_map h2]
      exact ⟨(h3 o).1, fun h => (h3 o).2 (Or.inl h)⟩
    have e3 : (List.map (refArea o) (m.polygons.map (fun poly => poly.points.map (ptOf m.points.list)))) =
        (List.range m.polygons.length).map (fun k => refArea o
          (((m.polygons.map Poly.points).getD k []).map (ptOf m.points.list))) := by
      apply List.ext_getElem
      · simp
      · intro k h1 h2
        have hk : k < m.polygons.length := by simpa using h1
        simp [hk]
    have e4 : (vs.map (fun v => ∑ t ∈ Finset.range out.tris.length, sector out v t)) =
        (List.range m.polygons.length).map (fun k =>
          ∑ t ∈ Finset.range out.tris.length, sector out (vs.getD k 0) t) := by
      apply List.ext_getElem
      · simp [hlen]
      · intro k h1 h2
        have hk : k < vs.length := by simpa using h1
        simp [hk]
    rw [htri, e3, e4]
    refine ⟨?_, ?_⟩
    · have := sum_close (f := fun k => refArea o
          (((m.polygons.map Poly.points).getD k []).map (ptOf m.points.list)))
        (g := fun k => ∑ t ∈ Finset.range out.tris.length, sector out (vs.getD k 0) t) (δ := tol / 2)
        (List.range m.polygons.length) (by
          intro k hk
          have hk' := List.mem_range.1 hk
          have := (hcell k hk').1
          simpa [hk', hlen ▸ hk'] using this)
      simpa using this
    · intro hSL
      congr 1
      apply List.map_congr_left
      intro k hk
      have hk' := List.mem_range.1 hk
      have := (hcell k hk').2 hSL
      simpa [hk', hlen ▸ hk'] using this

/-! ### The hypotheses are met by a hexagon with its middle point -/

/-- A hexagon and its middle point, which is the point number 0. -/
def hexOut : TriOut ℚ :=
  { points := [⟨0, 0⟩, ⟨4, 0⟩, ⟨2, 3⟩, ⟨-2, 3⟩, ⟨-4, 0⟩, ⟨-2, -3⟩, ⟨2, -3⟩],
    edges := [(1, 2, 1), (2, 3, 1), (3, 4, 1), (4, 5, 1), (5, 6, 1), (6, 1, 1),
      (0, 1, 0), (0, 2, 0), (0, 3, 0), (0, 4, 0), (0, 5, 0), (0, 6, 0)],
    tris := [(0, 1, 2), (0, 2, 3), (0, 3, 4), (5, 0, 4), (6, 0, 5), (1, 0, 6)] }

theorem hexOut_valid : ValidOut hexOut := by
  refine ⟨by decide +kernel, by decide +kernel, ?_, by decide +kernel, by decide +kernel, by decide +kernel⟩
  have key : ∀ t ∈ hexOut.tris, (match vecGet hexOut.points t.1, vecGet hexOut.points t.2.1,
      vecGet hexOut.points t.2.2 with
    | .ok a, .ok b, .ok c => decide (turn a b c ≠ 0)
    | _, _, _ => false) = true := by decide +kernel
  intro t ht
  have := key t ht
  split at this
  · rename_i a b c h1 h2 h3
    exact ⟨a, b, c, h1, h2, h3, of_decide_eq_true this⟩
  · cases this

theorem hexOut_markers : MarkersOk hexOut := by unfold MarkersOk; decide +kernel

/-- Triangles hang together if those listed one after the other share an edge. -/
theorem oneFan_of_check {tris : List (Int × Int × Int)} {v : Int}
    (h : List.IsChain (fun t t' => ∃ x ∈ verts (tris.getD t (0, 0, 0)), s(v, x) ∈ sides (tris.getD t (0, 0, 0)) ∧
        s(v, x) ∈ sides (tris.getD t' (0, 0, 0)) ∧ t < tris.length ∧ t' < tris.length)
      ((List.range tris.length).filter (fun t => v ∈ verts (tris.getD t (0, 0, 0))))) : OneFan tris v := by
  have get : ∀ {t : Nat}, t < tris.length → tris[t]? = some (tris.getD t (0, 0, 0)) := by
    intro t ht; rw [List.getElem?_eq_getElem ht, List.getD_eq_getElem _ _ ht]
  have hch : List.IsChain (ShareEdge tris v)
      ((List.range tris.length).filter (fun t => v ∈ verts (tris.getD t (0, 0, 0)))) := by
    refine h.imp ?_
    rintro t t' ⟨x, _, h1, h2, h3, h4⟩
    exact ⟨x, _, _, get h3, get h4, h1, h2⟩
  have sym : ∀ t t', Relation.ReflTransGen (ShareEdge tris v) t t' →
      Relation.ReflTransGen (ShareEdge tris v) t' t := by
    intro t t' hr
    induction hr with
    | refl => exact .refl
    | tail _ hs ih =>
      obtain ⟨x, tt, tt', h1, h2, h3, h4⟩ := hs
      exact Relation.ReflTransGen.head ⟨x, tt', tt, h2, h1, h4, h3⟩ ih
  have all : ∀ l : List Nat, List.IsChain (ShareEdge tris v) l → ∀ a, l.head? = some a → ∀ t ∈ l,
      Relation.ReflTransGen (ShareEdge tris v) a t := by
    intro l
    induction l with
    | nil => intro _ a ha; simp at ha
    | cons b l ih =>
      intro hc a ha t ht
      obtain rfl : b = a := by simpa using ha
      rcases List.mem_cons.1 ht with rfl | ht
      · exact .refl
      · cases l with
        | nil => simp at ht
        | cons c l =>
          rw [List.isChain_cons_cons] at hc
          exact Relation.ReflTransGen.head hc.1 (ih hc.2 c rfl t ht)
  intro t t' ht ht'
  have mem : ∀ t, UsesVertex tris v t →
      t ∈ (List.range tris.length).filter (fun t => v ∈ verts (tris.getD t (0, 0, 0))) := by
    rintro t ⟨tt, h1, h2⟩
    have hl := (List.getElem?_eq_some_iff.1 h1).1
    rw [List.mem_filter]
    refine ⟨List.mem_range.2 hl, ?_⟩
    rw [get hl] at h1
    rw [Option.some.inj h1]
    exact decide_eq_true h2
  have hm := mem t ht
  cases hh : ((List.range tris.length).filter (fun t => v ∈ verts (tris.getD t (0, 0, 0)))).head? with
  | none => rw [List.head?_eq_none_iff.1 hh] at hm; simp at hm
  | some a => exact (sym _ _ (all _ hch a hh t hm)).trans (all _ hch a hh t' (mem t' ht'))

theorem hexOut_oneFan (v : Int) : OneFan hexOut.tris v := by
  by_cases hvm : v ∈ hexOut.tris.flatMap verts
  · apply oneFan_of_check
    have : ∀ v ∈ hexOut.tris.flatMap verts, List.IsChain (fun t t' =>
        ∃ x ∈ verts (hexOut.tris.getD t (0, 0, 0)), s(v, x) ∈ sides (hexOut.tris.getD t (0, 0, 0)) ∧
        s(v, x) ∈ sides (hexOut.tris.getD t' (0, 0, 0)) ∧ t < hexOut.tris.length ∧ t' < hexOut.tris.length)
      ((List.range hexOut.tris.length).filter (fun t => v ∈ verts (hexOut.tris.getD t (0, 0, 0)))) := by
      decide +kernel
    exact this v hvm
  · rintro t t' ⟨tt, h1, h2⟩
    exact absurd (List.mem_flatMap.2 ⟨tt, List.mem_of_getElem? h1, h2⟩) hvm

theorem hexOut_conforming : Conforming hexOut where
  ccw := by
    intro t ht a b c h1 h2 h3
    have key : ∀ t ∈ hexOut.tris, 0 < turn (ptOf hexOut.points t.1) (ptOf hexOut.points t.2.1)
      (ptOf hexOut.points t.2.2) := by decide +kernel
    have := key t ht
    rwa [ptOf_ok h1, ptOf_ok h2, ptOf_ok h3] at this
  once := by
    intro i j ti tj e h1 h2 h3 h4
    have key : ∀ i j : Fin hexOut.tris.length, ∀ e ∈ dsides hexOut.tris[i], e ∈ dsides hexOut.tris[j] → i = j := by
      decide +kernel
    obtain ⟨hi, rfl⟩ := List.getElem?_eq_some_iff.1 h1
    obtain ⟨hj, rfl⟩ := List.getElem?_eq_some_iff.1 h2
    exact congrArg Fin.val (key ⟨i, hi⟩ ⟨j, hj⟩ e h3 h4)
  noOverlap := by
    intro t ht v a b h1 h2 u hu w h3 pv pa pb pw g1 g2 g3 g4
    have key : ∀ t ∈ hexOut.tris, ∀ e ∈ dsides t, ∀ f ∈ dsides t, f.2 = e.1 → ∀ u ∈ hexOut.tris,
        ∀ w ∈ verts u, s(e.1, w) ∈ sides u →
        ¬ (0 < turn (ptOf hexOut.points e.1) (ptOf hexOut.points e.2) (ptOf hexOut.points w) ∧
          0 < turn (ptOf hexOut.points e.1) (ptOf hexOut.points w) (ptOf hexOut.points f.1)) := by
      decide +kernel
    have hw := ((mem_sides_iff (properTris_of_valid hexOut_valid u hu) v w).1 h3).2.1
    have := key t ht (v, a) h1 (b, v) h2 rfl u hu w hw h3
    simp only at this
    rwa [ptOf_ok g1, ptOf_ok g2, ptOf_ok g3, ptOf_ok g4] at this
  distinct := by
    rintro v w p ⟨h1, t, tt, h3, h4⟩ ⟨h2, t', tt', h5, h6⟩
    have key : ∀ v ∈ hexOut.tris.flatMap verts, ∀ w ∈ hexOut.tris.flatMap verts,
      ptOf hexOut.points v = ptOf hexOut.points w → v = w := by decide +kernel
    exact key v (List.mem_flatMap.2 ⟨tt, List.mem_of_getElem? h3, h4⟩) w
      (List.mem_flatMap.2 ⟨tt', List.mem_of_getElem? h5, h6⟩) (by rw [ptOf_ok h1, ptOf_ok h2])
  empty := emptyCircles_of hexOut_valid (by decide +kernel)
  noEncroachment := noEncroachment_of hexOut_valid (by decide +kernel)

/-- Centers, and middles and ends of sides. -/
def hexFeatures : List (Pt ℚ) :=
  (List.range 6).map (cenOf hexOut) ++ hexOut.points ++
    (hexOut.tris.flatMap dsides).map (fun e =>
      ⟨((ptOf hexOut.points e.1).x + (ptOf hexOut.points e.2).x) / 2,
       ((ptOf hexOut.points e.1).y + (ptOf hexOut.points e.2).y) / 2⟩)

theorem hexFeatures_all {q : Pt ℚ} (h : Feature hexOut q) : q ∈ hexFeatures := by
  unfold hexFeatures
  rw [List.mem_append, List.mem_append]
  rcases h with ⟨t, ht, a, b, c, h1, h2, h3, _, h4, h5⟩ | ⟨v, a, pv, pa, hb, h1, h2, hq⟩
  · obtain ⟨k, hk⟩ := List.mem_iff_getElem?.1 ht
    obtain ⟨_, _, hu⟩ := cenOf_spec hexOut_valid hk h1 h2 h3
    have hl : k < 6 := (List.getElem?_eq_some_iff.1 hk).1
    exact Or.inl (Or.inl (List.mem_map.2 ⟨k, List.mem_range.2 hl, (hu q h4 h5).symm⟩))
  · have hm : ∀ {v : Int} {p : Pt ℚ}, vecGet hexOut.points v = .ok p → p ∈ hexOut.points := fun hp =>
      List.mem_of_getElem? (vecGet_ok_iff.1 hp).2
    rcases hq with rfl | rfl
    · right
      obtain ⟨t, ⟨tt, g1, g2⟩, _⟩ := hb
      have key : ∀ tt ∈ hexOut.tris, ∀ v ∈ verts tt, ∀ a ∈ verts tt, v ≠ a →
          (v, a) ∈ dsides tt ∨ (a, v) ∈ dsides tt := by decide +kernel
      have hmt := List.mem_of_getElem? g1
      obtain ⟨k1, k2, k3⟩ := (mem_sides_iff (properTris_of_valid hexOut_valid tt hmt) v a).1 g2
      rcases key tt hmt v k1 a k2 k3 with h | h
      · refine List.mem_map.2 ⟨(v, a), List.mem_flatMap.2 ⟨tt, hmt, h⟩, ?_⟩
        simp only
        rw [ptOf_ok h1, ptOf_ok h2]
      · refine List.mem_map.2 ⟨(a, v), List.mem_flatMap.2 ⟨tt, hmt, h⟩, ?_⟩
        simp only
        rw [ptOf_ok h1, ptOf_ok h2, add_comm pa.x, add_comm pa.y]
    · exact Or.inl (Or.inr (hm h1))

theorem hexOut_sharp : MergesNothing (1/100000 : ℚ) hexOut where
  separated := by
    refine C09_separated_of_gap (1/100000 : ℚ) (by decide +kernel) _ ?_ ?_
    · have : ∀ a ∈ hexFeatures, ∀ b ∈ hexFeatures, a.x = b.x ∨ (1/100000 : ℚ) ≤ |a.x - b.x| := by
        decide +kernel
      exact fun a ha b hb => this a (hexFeatures_all ha) b (hexFeatures_all hb)
    · have : ∀ a ∈ hexFeatures, ∀ b ∈ hexFeatures, a.y = b.y ∨ (1/100000 : ℚ) ≤ |a.y - b.y| := by
        decide +kernel
      exact fun a ha b hb => this a (hexFeatures_all ha) b (hexFeatures_all hb)
  eq := by
    have : ∀ a ∈ hexFeatures, ∀ b ∈ hexFeatures, (|a.x - b.x| < (1/100000 : ℚ) ∧ |a.y - b.y| < (1/100000 : ℚ)) →
      a = b := by decide +kernel
    exact fun p q hp hq hc => this p (hexFeatures_all hp) q (hexFeatures_all hq) hc

theorem hexOut_sharpLines : MergesNoCorner (1/100000 : ℚ) hexOut := by
  intro v a b pv pa pb h1 h2 g1 g2 g3
  have key : ∀ pv ∈ hexOut.points, ∀ pa ∈ hexOut.points, ∀ pb ∈ hexOut.points,
    |turn (⟨(pv.x + pa.x) / 2, (pv.y + pa.y) / 2⟩ : Pt ℚ) pv ⟨(pv.x + pb.x) / 2, (pv.y + pb.y) / 2⟩| < 1/100000 →
    turn (⟨(pv.x + pa.x) / 2, (pv.y + pa.y) / 2⟩ : Pt ℚ) pv ⟨(pv.x + pb.x) / 2, (pv.y + pb.y) / 2⟩ = 0 := by
    decide +kernel
  have hm : ∀ {v : Int} {p : Pt ℚ}, vecGet hexOut.points v = .ok p → p ∈ hexOut.points := fun hp =>
    List.mem_of_getElem? (vecGet_ok_iff.1 hp).2
  exact key pv (hm g1) pa (hm g2) pb (hm g3)

/-- The hypotheses of C99 are met by the hexagon, for inner and for boundary points; the area of the
cells is that of the hexagon, 36. -/
example : ValidOut hexOut ∧ MarkersOk hexOut ∧ Conforming hexOut ∧ MergesNothing (1/100000 : ℚ) hexOut ∧
    MergesNoCorner (1/100000 : ℚ) hexOut ∧ (∀ v, OneFan hexOut.tris v) ∧
    (firsts (hexOut.tris.flatMap verts))[0]? = some 0 ∧ (firsts (hexOut.tris.flatMap verts))[1]? = some 1 ∧
    (match DelInfo.importOut (1/100000 : ℚ) DelInfo.empty hexOut with
      | .ok d => (match voronoi (1/100000 : ℚ) d with
        | .ok m => decide (m.polygons.length = 7 ∧
            ((m.polygons.map (fun p => signedArea (p.points.map (ptOf m.points.list)))).sum = 36))
        | _ => false)
      | _ => false) = true :=
  ⟨hexOut_valid, hexOut_markers, hexOut_conforming, hexOut_sharp, hexOut_sharpLines, hexOut_oneFan,
    by decide +kernel, by decide +kernel, by decide +kernel⟩

end Delynoi
