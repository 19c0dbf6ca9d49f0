import Verif.Proofs.Cell
import Verif.Spec.Voronoi
import Verif.Props.DelaunayGen
import Verif.Props.DelaunayImport
/-!
# Properties C69–C71: the Voronoi diagram
-/
set_option linter.unusedSectionVars false
namespace Delynoi
variable {K : Type} [Field K] [LinearOrder K] [IsStrictOrderedRing K]

/-- C69: for every valid triangulation the construction of the Voronoi diagram (import included)
terminates normally: no walk runs forever (the fuel of the model never runs out), no index is out of
range, nothing is thrown. -/
theorem C69_terminates (tol : K) (out : TriOut K) (hv : ValidOut out) :
    ∃ d m, DelInfo.importOut tol DelInfo.empty out = .ok d ∧ voronoi tol d = .ok m := by
  obtain ⟨d, hd, hi⟩ := import_ok tol hv
  obtain ⟨s, polys, kss, h1, _⟩ := voronoi_ok hv hi.core
  exact ⟨d, _, hd, h1⟩

example : ValidOut sampleOut := sampleOut_valid

/-- The import is what `import_ok` describes. -/
theorem imported_of (tol : K) {out : TriOut K} (hv : ValidOut out) {d : DelInfo K}
    (hd : DelInfo.importOut tol DelInfo.empty out = .ok d) : Imported tol out d := by
  obtain ⟨d', hd', hi⟩ := import_ok tol hv
  rw [hd] at hd'
  obtain rfl := Outcome.ok.inj hd'
  exact hi

theorem cells_of (tol : K) {out : TriOut K} (hv : ValidOut out) {d : DelInfo K}
    (hd : DelInfo.importOut tol DelInfo.empty out = .ok d) {m : Mesh K (Poly K)}
    (hm : voronoi tol d = .ok m) :
    ∃ s kss, m = ⟨s.circ, m.polygons, s.vedges, s.pmap⟩ ∧
      Cells tol out d 0 ⟨d.circumcenters, d.edgeMap, SegMap.empty, PtMap.empty⟩ d.realPoints.list
        m.polygons kss s := by
  obtain ⟨s, polys, kss, h1, h2⟩ := voronoi_ok hv (imported_of tol hv hd).core
  rw [hm] at h1
  obtain rfl := Outcome.ok.inj h1
  exact ⟨s, kss, rfl, h2⟩

theorem isFan_uses {tris : List (Int × Int × Int)} {v : Int} : ∀ {ns : List Int} {ts : List Nat},
    IsFan tris v ns ts → ∀ t ∈ ts, UsesVertex tris v t := by
  intro ns ts
  induction ts generalizing ns with
  | nil => simp
  | cons t ts ih =>
    intro h u hu
    match ns, h with
    | a :: b :: ns, h =>
      rcases List.mem_cons.1 hu with rfl | hu
      · obtain ⟨⟨_, _, _, tt, htt, hm⟩, _⟩ := h
        exact ⟨tt, htt, (hm v).2 (Or.inl rfl)⟩
      · exact ih h.2 u hu

theorem shareEdge_adj {tris : List (Int × Int × Int)} {v : Int} {t t' : Nat}
    (h : ShareEdge tris v t t') : AdjAt tris v t t' := by
  obtain ⟨x, tt, tt', h1, h2, h3, h4⟩ := h
  exact ⟨x, ⟨tt, h1, h3⟩, ⟨tt', h2, h4⟩⟩

theorem denotes_of_equiv {tol : K} (ht : 0 < tol) {l : List (Pt K)} {i : Int} {y q : Pt K}
    (h : vecGet l i = .ok y) (he : y = q ∨ Equiv' (fun x y : Pt K => x.ltTol tol y) y q) :
    Denotes tol l i q := ⟨y, h, close_of_equiv ht he⟩

theorem denotesCenter_circIx {tol : K} (ht : 0 < tol) {out : TriOut K} {d : DelInfo K}
    (hv : ValidOut out) (h : TriCore tol out out.tris d) {l : List (Pt K)}
    (hpre : ∃ tail, l = d.circumcenters.list ++ tail) {t : Nat} (htl : t < out.tris.length) :
    DenotesCenter tol out l t (circIx d t) := by
  have htt := List.getElem?_eq_getElem htl
  obtain ⟨c, a, b, e, q, cc, h1, h2, h3, h4, h5, h6, h7⟩ := h.tris t _ htt
  obtain ⟨tail, rfl⟩ := hpre
  have hturn : turn a b e ≠ 0 := by
    have := (C37_defined_iff a b e).1 (by rw [h5]; rfl)
    exact this
  obtain ⟨e1, e2⟩ := (C37_circumcenter a b e cc hturn).1 h5
  refine ⟨_, a, b, e, cc, htt, h2, h3, h4, e1, e2, denotes_of_equiv ht (y := q) ?_ h7⟩
  unfold circIx
  rw [h1]
  exact vecGet_append (vecGet_nat h6)

theorem forall2_centers {tol : K} (ht : 0 < tol) {out : TriOut K} {d : DelInfo K}
    (hv : ValidOut out) (h : TriCore tol out out.tris d) {l : List (Pt K)}
    (hpre : ∃ tail, l = d.circumcenters.list ++ tail) : ∀ (ts : List Nat),
    (∀ t ∈ ts, t < out.tris.length) →
    List.Forall₂ (DenotesCenter tol out l) ts (ts.map (circIx d)) := by
  intro ts
  induction ts with
  | nil => intro _; exact List.Forall₂.nil
  | cons t ts ih =>
    intro hts
    exact List.Forall₂.cons (denotesCenter_circIx ht hv h hpre (hts t (by simp)))
      (ih (fun t h => hts t (by simp [h])))

theorem area2_eq_turn (a b c : Pt K) : area2 a b c = turn a b c := by
  unfold area2 turn crossProduct Pt.sub; ring

/-- The result of the walk, in the vocabulary of the specification. -/
theorem shape_spec {tol : K} (ht : 0 < tol) {out : TriOut K} {d : DelInfo K} (hv : ValidOut out)
    (hmk : MarkersOk out) (h : TriCore tol out out.tris d) {l l' : List (Pt K)} {v a0 b : Int} {t0 : Nat}
    {p : List (Int × Nat)} {P : List Int} {ks : List (Int × Int)}
    (hsh : Shape tol out d l v a0 t0 p b P ks) (hF : Fan out.tris v a0 t0 p b)
    (hpre : ∃ tail, l = d.circumcenters.list ++ tail) (hgr : ∃ tail, l' = l ++ tail) :
    CellIdx tol out l' v ((p.map Prod.fst).reverse ++ [b]) (p.map Prod.snd).reverse P ∧
      FanDone out.tris v a0 t0 p b := by
  have hp := properTris_of_valid hv
  have hfi := hF.inv hp (twoSided_of_valid hv)
  obtain ⟨p', hp'⟩ := hF.first
  have hns : ((p.map Prod.fst).reverse ++ [b]).head? = some a0 := by
    rw [hp']; simp
  have hnl : ((p.map Prod.fst).reverse ++ [b]).getLast? = some b := by simp
  have hts : ∀ t ∈ (p.map Prod.snd).reverse, t < out.tris.length := by
    intro t htm
    obtain ⟨f, hf, rfl⟩ := List.mem_map.1 (List.mem_reverse.1 htm)
    obtain ⟨y, hy, _⟩ := hfi.far f hf
    exact hy.lt
  have hpre' : ∃ tail, l' = d.circumcenters.list ++ tail := by
    obtain ⟨t1, h1⟩ := hpre
    obtain ⟨t2, h2⟩ := hgr
    exact ⟨t1 ++ t2, by rw [h2, h1, List.append_assoc]⟩
  have hget : ∀ {i : Int} {z : Pt K}, vecGet l i = .ok z → vecGet l' i = .ok z := by
    intro i z hz
    obtain ⟨t2, h2⟩ := hgr
    rw [h2]; exact vecGet_append hz
  have hcs := forall2_centers ht hv h hpre' _ hts
  have hmid : ∀ {a m : Int}, MidIx tol out l v a m → DenotesMid tol out l' v a m := by
    rintro a m ⟨pv, pa, q, h1, h2, h3, h4⟩
    exact ⟨pv, pa, h1, h2, denotes_of_equiv ht (hget h3) h4⟩
  have hfirstSide : HasSide out.tris v a0 t0 := by
    obtain ⟨y, hy, _⟩ := hfi.far _ hfi.start
    exact (hy.side hp a0).2 (Or.inl rfl)
  have hlastSide : ∃ u, (p.map Prod.snd).head? = some u ∧ HasSide out.tris v b u := by
    cases p with
    | nil => simp at hp'
    | cons f p => exact ⟨f.2, rfl, (hF.head.side hp b).2 (Or.inr rfl)⟩
  have hbd0 : (∀ u, HasSide out.tris v a0 u → u = t0) → BoundaryEdge out.tris v a0 :=
    fun hh => ⟨t0, hfirstSide, fun u uu h1 h2 => hh u ⟨uu, h1, h2⟩⟩
  have hbdl : (∀ u, HasSide out.tris v b u → (p.map Prod.snd).head? = some u) →
      BoundaryEdge out.tris v b := by
    intro hh
    obtain ⟨u, hu, hus⟩ := hlastSide
    refine ⟨u, hus, fun w ww h1 h2 => ?_⟩
    have := hh w ⟨ww, h1, h2⟩
    rw [hu] at this
    exact (Option.some.inj this).symm
  cases hsh with
  | closed tm hb htm =>
    refine ⟨CellIdx.inner _ _ (by rw [hns, hnl, hb]) hcs ?_, Or.inl hb⟩
    rw [List.getLast?_map, List.getLast?_reverse, htm]; rfl
  | flat i2 m last T Q qf ql c hb hs hm hg hT hT' hQ hlast hc hqf hql hcol =>
    have hT1 := hT' hmk
    have hmid0 : MidIx tol out l v a0 i2 := by
      rcases hg with ⟨t, h1, _⟩ | ⟨_, h2⟩
      · omega
      · exact h2
    subst hQ
    refine ⟨CellIdx.flat a0 b i2 m last _ qf ql c hns hnl (hbd0 (hT hT1)) (hbdl hs) (hmid hmid0) hcs
      (hmid hm) hlast (hget hqf) hc (hget hql) ?_, Or.inr ⟨hs, hT hT1⟩⟩
    unfold collinear at hcol
    rw [area2_eq_turn] at hcol
    simpa using hcol
  | corner i2 m last ri T Q qf ql c q hb hs hm hg hT hT' hQ hlast hc hqf hql hcol hri hq =>
    have hT1 := hT' hmk
    have hmid0 : MidIx tol out l v a0 i2 := by
      rcases hg with ⟨t, h1, _⟩ | ⟨_, h2⟩
      · omega
      · exact h2
    subst hQ
    refine ⟨CellIdx.corner a0 b i2 m last ri _ qf ql c hns hnl (hbd0 (hT hT1)) (hbdl hs) (hmid hmid0) hcs
      (hmid hm) hlast (hget hqf) hc (hget hql) ?_ (denotes_of_equiv ht (hget hri) hq), Or.inr ⟨hs, hT hT1⟩⟩
    unfold collinear at hcol
    rw [area2_eq_turn] at hcol
    simpa using hcol

theorem uses_of_fan {out : TriOut K} (hv : ValidOut out) {v a0 b : Int} {t0 : Nat}
    {p : List (Int × Nat)} (hF : Fan out.tris v a0 t0 p b) (hd : FanDone out.tris v a0 t0 p b)
    (hone : OneFan out.tris v) (t : Nat) (hu : UsesVertex out.tris v t) :
    t ∈ (p.map Prod.snd).reverse := by
  have hp := properTris_of_valid hv
  have h2 := twoSided_of_valid hv
  have hfi := hF.inv hp h2
  have ht0 : t0 ∈ p.map Prod.snd := List.mem_map_of_mem (f := Prod.snd) hfi.start
  have hu0 : UsesVertex out.tris v t0 := by
    obtain ⟨y, ⟨_, _, _, tt, htt, hm⟩, _⟩ := hfi.far _ hfi.start
    exact ⟨tt, htt, (hm v).2 (Or.inl rfl)⟩
  have hchain := hone t0 t hu0 hu
  rw [List.mem_reverse]
  induction hchain with
  | refl => exact ht0
  | @tail x y hxy hstep ih =>
    have hx : UsesVertex out.tris v x := by
      obtain ⟨z, tt, tt', g1, g2, g3, g4⟩ := hstep
      have hpt := hp tt (List.mem_of_getElem? g1)
      exact ⟨tt, g1, ((mem_sides_iff hpt v z).1 g3).1⟩
    exact hF.closed hp h2 hd (ih hx) (shareEdge_adj hstep)

/-- C70: in the Voronoi mesh of a valid triangulation, the cell number `j` belongs to the `j`-th
used point `v`.  The triangles visited for it are a fan around `v`, each visited once, and all
triangles at `v` if these hang together.  The vertices of the cell are, in this order or reversed and
without repetitions, the circumcenters of the triangles in fan order; for a point on the boundary
they are preceded and followed by the middles of the two boundary edges and, at a corner, by the
point itself. -/
theorem C70_cell (tol : K) (ht : 0 < tol) (out : TriOut K) (hv : ValidOut out) (hmk : MarkersOk out)
    (d : DelInfo K) (hd : DelInfo.importOut tol DelInfo.empty out = .ok d) (m : Mesh K (Poly K))
    (hm : voronoi tol d = .ok m) (j : Nat) (v : Int) (hj : (firsts (out.tris.flatMap verts))[j]? = some v) :
    ∃ poly ns ts idx, m.polygons[j]? = some poly ∧ IsFan out.tris v ns ts ∧ ts ≠ [] ∧ ts.Nodup ∧
      (∀ t ∈ ts, UsesVertex out.tris v t) ∧
      (OneFan out.tris v → ∀ t, UsesVertex out.tris v t → t ∈ ts) ∧
      CellIdx tol out m.points.list v ns ts idx ∧
      (poly.points = firsts idx ∨ poly.points = (firsts idx).reverse) := by
  have hi := (imported_of tol hv hd).core
  obtain ⟨s, kss, hme, hc⟩ := cells_of tol hv hd hm
  have hj' : d.realPoints.list[j]? = some v := by rw [hi.realList]; exact hj
  obtain ⟨s1, s2, poly, a0, t0, p, b, P, ks, g1, g2, g3, g4⟩ := hc.get hj'
  have hfi := g3.fan.inv (properTris_of_valid hv) (twoSided_of_valid hv)
  obtain ⟨h1, h2⟩ := shape_spec ht hv hmk hi g3.shape g3.fan g3.st.pre g4
  have hpts : m.points = s.circ := by rw [hme]
  obtain ⟨p', hp'⟩ := g3.fan.first
  refine ⟨poly, _, _, P, g1, g3.fan.isFan, ?_, ?_, isFan_uses g3.fan.isFan, uses_of_fan hv g3.fan h2,
    by rw [hpts]; exact h1, g3.points⟩
  · rw [hp']; simp
  · exact List.nodup_reverse.2 hfi.nodup

/-- C71: one cell per used point; each cell has a nonempty vertex list without repetitions, its indices are valid in
the mesh's point list, and its (signed) area is not negative; the ends of the Voronoi edges are valid
indices, and the neighbours recorded for edges and points are numbers of cells. -/
theorem C71_mesh_consistent (tol : K) (out : TriOut K) (hv : ValidOut out)
    (d : DelInfo K) (hd : DelInfo.importOut tol DelInfo.empty out = .ok d) (m : Mesh K (Poly K))
    (hm : voronoi tol d = .ok m) :
    m.polygons.length = (firsts (out.tris.flatMap verts)).length ∧
    (∀ poly ∈ m.polygons, poly.points ≠ [] ∧ poly.points.Nodup ∧
      (∀ i ∈ poly.points, 0 ≤ i ∧ i < m.points.list.length) ∧
      ∃ l, resolve m.points.list poly.points = .ok l ∧ ∀ o, 0 ≤ refArea o l) ∧
    (∀ e ∈ m.edges, (0 ≤ e.1.p1 ∧ e.1.p1 < m.points.list.length) ∧
      (0 ≤ e.1.p2 ∧ e.1.p2 < m.points.list.length) ∧
      (∃ i, e.2.n1 = some i ∧ 0 ≤ i ∧ i < m.polygons.length) ∧
      (e.2.n2 = -1 ∨ (0 ≤ e.2.n2 ∧ e.2.n2 < m.polygons.length))) ∧
    (∀ e ∈ m.pointMap, ∀ i ∈ e.2, 0 ≤ i ∧ i < m.polygons.length) := by
  have hi := (imported_of tol hv hd).core
  obtain ⟨s, kss, hme, hc⟩ := cells_of tol hv hd hm
  have hlen := hc.length.1
  have hpts : m.points = s.circ := by rw [hme]
  have hed : m.edges = s.vedges := by rw [hme]
  have hpm : m.pointMap = s.pmap := by rw [hme]
  rw [hpts, hed, hpm]
  refine ⟨by rw [hlen, hi.realList]; rfl, ?_, ?_, ?_⟩
  · intro poly hpoly
    obtain ⟨j, hj⟩ := List.mem_iff_getElem?.1 hpoly
    have hjl : j < d.realPoints.list.length := by
      rw [← hlen]; exact (List.getElem?_eq_some_iff.1 hj).1
    obtain ⟨s1, s2, poly', a0, t0, p, b, P, ks, g1, g2, g3, g4⟩ :=
      hc.get (List.getElem?_eq_getElem hjl)
    rw [hj] at g1
    obtain rfl := Option.some.inj g1
    have hnd : poly.points.Nodup := by
      rcases g3.points with h | h <;> rw [h]
      · exact nodup_firsts _
      · exact List.nodup_reverse.2 (nodup_firsts _)
    have hR : ∀ i ∈ poly.points, InR s.circ.list.length i := by
      intro i hi
      have : i ∈ P := by
        rcases g3.points with h | h <;> rw [h] at hi
        · exact (mem_firsts _ _).1 hi
        · exact (mem_firsts _ _).1 (List.mem_reverse.1 hi)
      exact g4.inR (g3.inR i this)
    have hne : poly.points ≠ [] := by
      have hPne : ∃ x P', P = x :: P' := by
        cases g3.shape with
        | closed tm _ _ => exact ⟨_, _, rfl⟩
        | flat i2 m last T Q qf ql c _ _ _ _ _ _ hQ => exact ⟨_, _, hQ⟩
        | corner i2 m last ri T Q qf ql c q _ _ _ _ _ _ hQ => exact ⟨_, _, by rw [hQ]; rfl⟩
      obtain ⟨x, P', rfl⟩ := hPne
      have hx : x ∈ firsts (x :: P') := (mem_firsts _ _).2 (by simp)
      rcases g3.points with h | h <;> rw [h] <;> intro hc
      · rw [hc] at hx; simp at hx
      · rw [List.reverse_eq_nil_iff] at hc; rw [hc] at hx; simp at hx
    refine ⟨hne, hnd, hR, ?_⟩
    obtain ⟨l, hl, ha⟩ := g3.area
    refine ⟨l, ?_, ha⟩
    obtain ⟨l', hl'⟩ := resolve_ok_iff.2 hR
    rw [hl']
    congr 1
    apply List.ext_getElem?
    intro k
    cases hk : poly.points[k]? with
    | none =>
      have := List.getElem?_eq_none_iff.1 hk
      rw [List.getElem?_eq_none_iff.2 (by rw [resolve_length hl']; exact this),
        List.getElem?_eq_none_iff.2 (by rw [resolve_length hl]; exact this)]
    | some i =>
      obtain ⟨a, h1, h2⟩ := resolve_getElem? hl' hk
      obtain ⟨a', h1', h2'⟩ := resolve_getElem? hl hk
      have := g4.get h2'
      rw [h2] at this
      rw [h1, h1', Outcome.ok.inj this]
  · have := hc.vedOk (by intro e he; simp [SegMap.empty] at he)
    intro e he
    have := this e he
    rw [Nat.zero_add, ← hlen] at this
    exact this
  · have := hc.ptOk (by intro e he; simp [PtMap.empty] at he)
    intro e he i hie
    have := this e he i hie
    rw [Nat.zero_add, ← hlen] at this
    exact this

/-- The hypotheses of C70 and C71 are met by the square with its middle point: five cells. -/
example : ∃ d m, DelInfo.importOut (1/100000 : ℚ) DelInfo.empty sampleOut = .ok d ∧
    voronoi (1/100000 : ℚ) d = .ok m ∧ ValidOut sampleOut ∧ MarkersOk sampleOut ∧
    m.polygons.length = 5 := by
  obtain ⟨d, m, h1, h2⟩ := C69_terminates (1/100000 : ℚ) sampleOut sampleOut_valid
  refine ⟨d, m, h1, h2, sampleOut_valid, sampleOut_markers, ?_⟩
  rw [(C71_mesh_consistent _ _ sampleOut_valid d h1 m h2).1]
  decide +kernel

end Delynoi
