import Verif.Proofs.CellPath
import Verif.Props.Voronoi
/-!
# Properties C83, C84: the neighbourhood maps of the Voronoi mesh
-/
set_option linter.unusedSectionVars false
namespace Delynoi
variable {K : Type} [Field K] [LinearOrder K] [IsStrictOrderedRing K]
section
variable {tol : K} {out : TriOut K} {d : DelInfo K}

theorem mem_poly_points {poly : Poly K} {P : List Int}
    (h : poly.points = firsts P ∨ poly.points = (firsts P).reverse) (x : Int) :
    x ∈ poly.points ↔ x ∈ P := by
  rcases h with h | h <;> rw [h]
  · exact mem_firsts _ _
  · rw [List.mem_reverse]; exact mem_firsts _ _

/-- What the log says about the neighbours of a segment. -/
def cellsOf (kss : List (List (Int × Int))) (a b : Int) : List Int :=
  ((vlog 0 kss).filter (fun e => decide ((e.1 = a ∧ e.2.1 = b) ∨ (e.1 = b ∧ e.2.1 = a)))).map
    (fun e => e.2.2)

theorem cellsOf_sorted (kss : List (List (Int × Int))) (a b : Int) :
    (cellsOf kss a b).Pairwise (· ≤ ·) :=
  (vlog_sorted kss 0).sublist (List.Sublist.map _ List.filter_sublist)

theorem mem_cellsOf (kss : List (List (Int × Int))) (a b k : Int) :
    k ∈ cellsOf kss a b ↔ ∃ (j : Nat) (ks : List (Int × Int)), k = (j : Int) ∧ kss[j]? = some ks ∧
      ((a, b) ∈ ks ∨ (b, a) ∈ ks) := by
  unfold cellsOf
  rw [List.mem_map]
  constructor
  · rintro ⟨e, he, rfl⟩
    obtain ⟨h1, h2⟩ := List.mem_filter.1 he
    obtain ⟨j, ks, h3, h4, h5⟩ := (mem_vlog _ _ _).1 h1
    refine ⟨j, ks, by rw [h5]; simp, h3, ?_⟩
    rcases of_decide_eq_true h2 with ⟨r1, r2⟩ | ⟨r1, r2⟩
    · left; rw [← r1, ← r2]; exact h4
    · right; rw [← r1, ← r2]; exact h4
  · rintro ⟨j, ks, rfl, h3, h4⟩
    rcases h4 with h4 | h4
    · exact ⟨(a, b, (j : Int)), List.mem_filter.2 ⟨(mem_vlog _ _ _).2 ⟨j, ks, h3, h4, by simp⟩,
        decide_eq_true (Or.inl ⟨rfl, rfl⟩)⟩, rfl⟩
    · exact ⟨(b, a, (j : Int)), List.mem_filter.2 ⟨(mem_vlog _ _ _).2 ⟨j, ks, h3, h4, by simp⟩,
        decide_eq_true (Or.inr ⟨rfl, rfl⟩)⟩, rfl⟩

/-- The data behind a Voronoi mesh. -/
structure MeshLog (tol : K) (out : TriOut K) (d : DelInfo K) (m : Mesh K (Poly K)) (s : VState K)
    (kss : List (List (Int × Int))) : Prop where
  mesh : m = ⟨s.circ, m.polygons, s.vedges, s.pmap⟩
  cells : Cells tol out d 0 ⟨d.circumcenters, d.edgeMap, SegMap.empty, PtMap.empty⟩
    d.realPoints.list m.polygons kss s
  core : TriCore tol out out.tris d

theorem meshLog_of {out : TriOut K} (hv : ValidOut out) {d : DelInfo K}
    (hd : DelInfo.importOut tol DelInfo.empty out = .ok d) {m : Mesh K (Poly K)}
    (hm : voronoi tol d = .ok m) : ∃ s kss, MeshLog tol out d m s kss := by
  obtain ⟨s, kss, h1, h2⟩ := cells_of tol hv hd hm
  exact ⟨s, kss, h1, h2, (imported_of tol hv hd).core⟩

theorem MeshLog.find {m : Mesh K (Poly K)} {s : VState K} {kss : List (List (Int × Int))}
    (h : MeshLog tol out d m s kss) (a b : Int) :
    m.edges.find (ISeg.mk' a b) = remembered (cellsOf kss a b) := by
  have he : m.edges = s.vedges := by rw [h.mesh]
  rw [he, h.cells.edges_run rfl]
  exact C59_neighbours _ a b

theorem MeshLog.cell {m : Mesh K (Poly K)} {s : VState K} {kss : List (List (Int × Int))}
    (h : MeshLog tol out d m s kss) {j : Nat} {ks : List (Int × Int)} (hj : kss[j]? = some ks) :
    ∃ v s1 s2 poly a0 t0 p b P, (firsts (out.tris.flatMap verts))[j]? = some v ∧
      m.polygons[j]? = some poly ∧
      CellOk tol out d (j : Int) v s1 s2 poly a0 t0 p b P ks ∧ Grows s2 s := by
  have hjl : j < d.realPoints.list.length := by
    rw [← h.cells.length.2]; exact (List.getElem?_eq_some_iff.1 hj).1
  obtain ⟨s1, s2, poly, a0, t0, p, b, P, ks', g1, g2, g3, g4⟩ :=
    h.cells.get (List.getElem?_eq_getElem hjl)
  rw [hj] at g2
  obtain rfl := Option.some.inj g2
  rw [Nat.zero_add] at g3
  refine ⟨_, s1, s2, poly, a0, t0, p, b, P, ?_, g1, g3, g4⟩
  have : firsts (out.tris.flatMap verts) = d.realPoints.list := h.core.realList.symm
  rw [this]; exact List.getElem?_eq_getElem hjl

theorem MeshLog.cellOf {m : Mesh K (Poly K)} {s : VState K} {kss : List (List (Int × Int))}
    (h : MeshLog tol out d m s kss) {j : Nat} {a b : Int}
    {ks : List (Int × Int)} (hj : kss[j]? = some ks) (hab : (a, b) ∈ ks ∨ (b, a) ∈ ks) :
    ∃ poly, m.polygons[j]? = some poly ∧ a ∈ poly.points ∧ b ∈ poly.points := by
  obtain ⟨v, s1, s2, poly, a0, t0, p, b', P, g0, g1, g3, g4⟩ := h.cell hj
  refine ⟨poly, g1, ?_, ?_⟩ <;> rw [mem_poly_points g3.points] <;> rcases hab with hab | hab
  · exact (g3.kmem _ hab).1
  · exact (g3.kmem _ hab).2
  · exact (g3.kmem _ hab).2
  · exact (g3.kmem _ hab).1

end

theorem find_of_mem (ops : List SegMap.Op) (hk : ∀ o ∈ ops, HashOk o.seg) {e : ISeg × NbSeg}
    (he : e ∈ SegMap.run ops) : (SegMap.run ops).find (ISeg.mk' e.1.p1 e.1.p2) = some e.2 := by
  obtain ⟨g1, g2⟩ := run_mem_find ops hk he
  have h1 := C59_history ops hk e.1 g1
  have h2 := C59_history ops hk (ISeg.mk' e.1.p1 e.1.p2) (hashOk_mk' _ _)
  have e1 : ∀ a b, (ISeg.mk' a b).p1 = a := fun _ _ => rfl
  have e2 : ∀ a b, (ISeg.mk' a b).p2 = b := fun _ _ => rfl
  rw [e1, e2] at h2
  exact h2.trans (h1.symm.trans g2)

theorem MeshLog.edge {tol : K} {out : TriOut K} {d : DelInfo K} {m : Mesh K (Poly K)} {s : VState K}
    {kss : List (List (Int × Int))} (h : MeshLog tol out d m s kss) {e : ISeg × NbSeg}
    (he : e ∈ m.edges) : remembered (cellsOf kss e.1.p1 e.1.p2) = some e.2 := by
  have hed : m.edges = s.vedges := by rw [h.mesh]
  have hrun := h.cells.edges_run rfl
  have hk : ∀ o ∈ (vlog 0 kss).map (fun e => SegMap.Op.insert (ISeg.mk' e.1 e.2.1) e.2.2),
      HashOk o.seg := by
    intro o ho
    obtain ⟨e, _, rfl⟩ := List.mem_map.1 ho
    exact hashOk_mk' _ _
  rw [← h.find, hed, hrun]
  rw [hed, hrun] at he
  exact find_of_mem _ hk he

theorem remembered_mem {L : List Int} {n : NbSeg} (h : remembered L = some n) {k : Int} (hk : 0 ≤ k)
    (hn : n.n1 = some k ∨ n.n2 = k) : k ∈ L := by
  have hne : L ≠ [] := by rintro rfl; simp [remembered] at h
  obtain ⟨n', i, r1, r2, r3, r4⟩ := remembered_some hne
  rw [h] at r1
  obtain rfl := Option.some.inj r1
  rcases hn with hn | hn
  · rw [r2] at hn
    obtain rfl := Option.some.inj hn
    exact List.mem_of_head? r3
  · rcases r4 with ⟨_, r4⟩ | ⟨_, r4⟩
    · omega
    · rw [hn] at r4; exact List.mem_of_getLast? r4

/-- C83: every edge of the Voronoi mesh belongs to the cells recorded for it: both its ends are
vertices of the first neighbour and, if there is one, of the second neighbour. -/
theorem C83_edges_sound (tol : K) (out : TriOut K) (hv : ValidOut out)
    (d : DelInfo K) (hd : DelInfo.importOut tol DelInfo.empty out = .ok d) (m : Mesh K (Poly K))
    (hm : voronoi tol d = .ok m) (e : ISeg × NbSeg) (he : e ∈ m.edges) :
    ∃ (i : Nat) (poly : Poly K), e.2.n1 = some (i : Int) ∧ m.polygons[i]? = some poly ∧
      e.1.p1 ∈ poly.points ∧ e.1.p2 ∈ poly.points ∧
      (e.2.n2 = -1 ∨ ∃ (j : Nat) (poly' : Poly K), e.2.n2 = (j : Int) ∧ i ≤ j ∧
        m.polygons[j]? = some poly' ∧ e.1.p1 ∈ poly'.points ∧ e.1.p2 ∈ poly'.points) := by
  obtain ⟨s, kss, h⟩ := meshLog_of hv hd hm
  have hfind := h.edge he
  have hsort := cellsOf_sorted kss e.1.p1 e.1.p2
  have hmem := mem_cellsOf kss e.1.p1 e.1.p2
  generalize cellsOf kss e.1.p1 e.1.p2 = L at *
  have hne : L ≠ [] := by rintro rfl; simp [remembered] at hfind
  obtain ⟨n, i, r1, r2, r3, r4⟩ := remembered_some hne
  rw [hfind] at r1
  obtain rfl := Option.some.inj r1
  have hiL : i ∈ L := List.mem_of_head? r3
  obtain ⟨i', ks, rfl, q1, q2⟩ := (hmem i).1 hiL
  obtain ⟨poly, p1, p2, p3⟩ := h.cellOf q1 q2
  refine ⟨i', poly, r2, p1, p2, p3, ?_⟩
  rcases r4 with ⟨_, r4⟩ | ⟨_, r4⟩
  · exact Or.inl r4
  · right
    have hjL : e.2.n2 ∈ L := List.mem_of_getLast? r4
    obtain ⟨j, ks', w, q1', q2'⟩ := (hmem _).1 hjL
    obtain ⟨poly', p1', p2', p3'⟩ := h.cellOf q1' q2'
    refine ⟨j, poly', w, ?_, p1', p2', p3'⟩
    cases L with
    | nil => simp at r3
    | cons x L =>
      simp at r3; subst r3
      rcases List.mem_cons.1 hjL with hh | hh
      · omega
      · have := (List.pairwise_cons.1 hsort).1 _ hh
        omega

/-- C83: every side of every cell is an edge of the mesh, the cell is accounted for in its
neighbours, and the edges that name the cell as a neighbour are sides of it; unless the path around
the cell returns to an index it had left (which needs points that coincide up to the tolerance). -/
theorem C83_sides_recorded (tol : K) (ht : 0 < tol) (out : TriOut K) (hv : ValidOut out)
    (hmk : MarkersOk out) (d : DelInfo K) (hd : DelInfo.importOut tol DelInfo.empty out = .ok d)
    (m : Mesh K (Poly K)) (hm : voronoi tol d = .ok m) (j : Nat) (v : Int)
    (hj : (firsts (out.tris.flatMap verts))[j]? = some v) :
    ∃ poly ns ts idx, m.polygons[j]? = some poly ∧ IsFan out.tris v ns ts ∧ ts ≠ [] ∧ ts.Nodup ∧
      CellIdx tol out m.points.list v ns ts idx ∧
      (poly.points = firsts idx ∨ poly.points = (firsts idx).reverse) ∧
      (NoReturn ns idx →
        (∀ e ∈ cycPairs poly.points, e.1 ≠ e.2 →
          ∃ n, m.edges.find (ISeg.mk' e.1 e.2) = some n ∧ Remembers n j) ∧
        (∀ e ∈ m.edges, e.1.p1 ≠ e.1.p2 → e.2.n1 = some (j : Int) ∨ e.2.n2 = (j : Int) →
          (e.1.p1, e.1.p2) ∈ cycPairs poly.points ∨ (e.1.p2, e.1.p1) ∈ cycPairs poly.points)) := by
  obtain ⟨s, kss, h⟩ := meshLog_of hv hd hm
  have hj' : d.realPoints.list[j]? = some v := by rw [h.core.realList]; exact hj
  obtain ⟨s1, s2, poly, a0, t0, p, b, P, ks, g1, g2, g3, g4⟩ := h.cells.get hj'
  obtain ⟨h1, _⟩ := shape_spec ht hv hmk h.core g3.shape g3.fan g3.st.pre g4
  have hpts : m.points = s.circ := by rw [h.mesh]
  obtain ⟨p', hp'⟩ := g3.fan.first
  have hfi := g3.fan.inv (properTris_of_valid hv) (twoSided_of_valid hv)
  refine ⟨poly, _, _, P, g1, g3.fan.isFan, by rw [hp']; simp, List.nodup_reverse.2 hfi.nodup,
    by rw [hpts]; exact h1, g3.points, ?_⟩
  intro hn
  have hns : ((p.map Prod.fst).reverse ++ [b]).head? = some a0 := by rw [hp']; simp
  have hnl : ((p.map Prod.fst).reverse ++ [b]).getLast? = some b := by simp
  have hside : ∀ {x y : Int}, x ≠ y →
      ((x, y) ∈ cycPairs poly.points ∨ (y, x) ∈ cycPairs poly.points ↔ (x, y) ∈ ks ∨ (y, x) ∈ ks) := by
    intro x y hxy
    have e1 : ∀ e : Int × Int, e.1 ≠ e.2 → (e ∈ cycPairs (firsts P) ↔ e ∈ ks) := fun e hne =>
      ⟨fun he => shape_sides g3.shape hns hnl hn he hne,
        fun he => shape_recorded g3.shape hns hnl hn he hne⟩
    have e2 : ∀ e : Int × Int, e ∈ cycPairs (firsts P).reverse ↔ e.swap ∈ cycPairs (firsts P) := by
      intro e
      rw [(cycPairs_reverse_perm (firsts P)).mem_iff, List.mem_map]
      constructor
      · rintro ⟨e', he', rfl⟩; rwa [Prod.swap_swap]
      · intro he; exact ⟨e.swap, he, Prod.swap_swap e⟩
    rcases g3.points with hp | hp <;> rw [hp]
    · rw [e1 _ hxy, e1 _ (Ne.symm hxy)]
    · rw [e2, e2]
      show (y, x) ∈ _ ∨ (x, y) ∈ _ ↔ _
      rw [e1 (y, x) (Ne.symm hxy), e1 (x, y) hxy]
      exact Or.comm
  refine ⟨?_, ?_⟩
  · intro e he hne
    have hek : (e.1, e.2) ∈ ks ∨ (e.2, e.1) ∈ ks := (hside hne).1 (Or.inl he)
    rw [h.find]
    exact remembered_sorted (cellsOf_sorted kss e.1 e.2)
      ((mem_cellsOf _ _ _ _).2 ⟨j, ks, rfl, g2, hek⟩)
  · intro e he hne hnb
    obtain ⟨j', ks', w1, w2, w3⟩ := (mem_cellsOf _ _ _ _).1 (remembered_mem (h.edge he) (by omega) hnb)
    obtain rfl : j = j' := by omega
    rw [g2] at w2
    obtain rfl := Option.some.inj w2
    exact (hside hne).2 w3

/-- Consecutive triangles of the fan of `v` across the inner edge `v a`. -/
theorem fan_across {out : TriOut K} (hv : ValidOut out) {v a0 b a : Int} {t0 t t' : Nat}
    {p : List (Int × Nat)} (hF : Fan out.tris v a0 t0 p b) (hdn : FanDone out.tris v a0 t0 p b)
    (hone : OneFan out.tris v) (hne : t ≠ t') (ht : HasSide out.tris v a t)
    (ht' : HasSide out.tris v a t') :
    (∃ l1 l2 y s s', p = l1 ++ (a, s') :: (y, s) :: l2 ∧ ((s = t ∧ s' = t') ∨ (s = t' ∧ s' = t))) ∨
    (b = a0 ∧ ∃ f q, p = f :: q ∧ ((f.2 = t ∧ t0 = t') ∨ (f.2 = t' ∧ t0 = t))) := by
  have hp := properTris_of_valid hv
  have h2 := twoSided_of_valid hv
  have hfi := hF.inv hp h2
  have hu : ∀ {u}, HasSide out.tris v a u → u ∈ p.map Prod.snd := by
    intro u hu
    have : UsesVertex out.tris v u := by
      obtain ⟨tt, g1, g3⟩ := hu
      exact ⟨tt, g1, ((mem_sides_iff (hp tt (List.mem_of_getElem? g1)) v a).1 g3).1⟩
    exact List.mem_reverse.1 (uses_of_fan hv hF hdn hone u this)
  have pair : ∀ {s s' : Nat}, s' ≠ s → HasSide out.tris v a s → HasSide out.tris v a s' →
      (s = t ∧ s' = t') ∨ (s = t' ∧ s' = t) := by
    intro s s' hss h1 h1'
    rcases h2 v a t t' s ht ht' h1 with h | h | h
    · exact absurd h hne
    · rcases h2 v a t t' s' ht ht' h1' with h' | h' | h' <;> omega
    · rcases h2 v a t t' s' ht ht' h1' with h' | h' | h' <;> omega
  -- where the edge is met
  have hcase : (a ∈ p.map Prod.fst ∧ a ≠ a0) ∨ a = a0 ∨ a = b := by
    obtain ⟨f, hf, rfl⟩ := List.mem_map.1 (hu ht)
    obtain ⟨y, hy, hc⟩ := hfi.far f hf
    rcases (hy.side hp a).1 ht with h | h
    · by_cases ha : a = a0
      · exact Or.inr (Or.inl ha)
      · exact Or.inl ⟨by rw [h]; exact List.mem_map_of_mem hf, ha⟩
    · rcases hc with ⟨_, hyb⟩ | ⟨hym, hya⟩
      · exact Or.inr (Or.inr (h.trans hyb))
      · exact Or.inl ⟨by rw [h]; exact hym, by rw [h]; exact hya⟩
  by_cases hin : a ∈ p.map Prod.fst ∧ a ≠ a0
  · left
    obtain ⟨l1, l2, y, s, s', h1, h3, h4, h5⟩ := hF.adj hp a hin.1 hin.2
    exact ⟨l1, l2, y, s, s', h1, pair h3 h4 h5⟩
  · right
    have hcase : a = a0 ∨ a = b := by
      rcases hcase with h | h
      · exact absurd h hin
      · exact h
    have hb : b = a0 := by
      rcases hdn with h | ⟨h3, h4⟩
      · exact h
      · exfalso
        rcases hcase with rfl | rfl
        · exact hne ((h4 t ht).trans (h4 t' ht').symm)
        · have e1 := h3 t ht
          have e2 := h3 t' ht'
          rw [e1] at e2
          exact hne (Option.some.inj e2)
    have haa : a = a0 := by
      rcases hcase with h | h
      · exact h
      · exact h.trans hb
    subst haa
    cases hpc : p with
    | nil => have := hfi.start; rw [hpc] at this; simp at this
    | cons f q =>
      refine ⟨hb, f, q, rfl, ?_⟩
      have hhead : Fan3 out.tris v f.1 b f.2 := by
        have : Fan out.tris v a t0 p b := hF
        rw [hpc] at this
        exact this.head
      have hs1 : HasSide out.tris v a f.2 := (hhead.side hp a).2 (Or.inr hb.symm)
      have hs0 : HasSide out.tris v a t0 := by
        obtain ⟨y, hy, _⟩ := hfi.far _ hfi.start
        exact (hy.side hp a).2 (Or.inl rfl)
      refine pair ?_ hs1 hs0
      intro he
      have hst := hfi.start
      rw [hpc] at hst
      rcases List.mem_cons.1 hst with hm | hm
      · have : f.1 = a := (congrArg Prod.fst hm).symm
        exact hhead.2.2.1 (this.trans hb.symm)
      · have hnd := hfi.nodup
        rw [hpc, List.map_cons, List.nodup_cons] at hnd
        apply hnd.1
        have := List.mem_map_of_mem (f := Prod.snd) hm
        simp only at this
        rw [← he]; exact this

theorem reverse_split {α β : Type} (f : α → β) (l1 l2 : List α) (x y : α) :
    ∃ r1 r2, ((l1 ++ x :: y :: l2).reverse.map f) = r1 ++ f y :: f x :: r2 :=
  ⟨l2.reverse.map f, l1.reverse.map f, by simp⟩

/-- The step across an inner edge is recorded for the cell of `v`. -/
theorem hop_across {tol : K} {out : TriOut K} {d : DelInfo K} (hv : ValidOut out)
    (hmk : MarkersOk out) {l : List (Pt K)} {v a0 b a : Int} {t0 t t' : Nat}
    {p : List (Int × Nat)} {P : List Int} {ks : List (Int × Int)}
    (hsh : Shape tol out d l v a0 t0 p b P ks) (hF : Fan out.tris v a0 t0 p b)
    (hone : OneFan out.tris v) (hne : t ≠ t') (ht : HasSide out.tris v a t)
    (ht' : HasSide out.tris v a t') (hx : circIx d t ≠ circIx d t') :
    (circIx d t, circIx d t') ∈ ks ∨ (circIx d t', circIx d t) ∈ ks := by
  have hdn : FanDone out.tris v a0 t0 p b := by
    cases hsh with
    | closed tm hb htm => exact Or.inl hb
    | flat i2 m last T Q qf ql c hb hs hm hg hT hT' => exact Or.inr ⟨hs, hT (hT' hmk)⟩
    | corner i2 m last ri T Q qf ql c q hb hs hm hg hT hT' => exact Or.inr ⟨hs, hT (hT' hmk)⟩
  have hpath : ∀ (pre post : List Int) (l1 l2 : List (Int × Nat)) (x y : Int × Nat),
      circIx d y.2 ≠ circIx d x.2 → p = l1 ++ x :: y :: l2 →
      (circIx d y.2, circIx d x.2) ∈ hops (pre ++ (p.map Prod.snd).reverse.map (circIx d) ++ post) := by
    intro pre post l1 l2 x y hxy hp
    obtain ⟨r1, r2, hr⟩ := reverse_split (circIx d) (l1.map Prod.snd) (l2.map Prod.snd) x.2 y.2
    have : (p.map Prod.snd).reverse.map (circIx d) = r1 ++ circIx d y.2 :: circIx d x.2 :: r2 := by
      rw [hp]; simpa using hr
    rw [this]
    have e : pre ++ (r1 ++ circIx d y.2 :: circIx d x.2 :: r2) ++ post =
        (pre ++ r1) ++ circIx d y.2 :: circIx d x.2 :: (r2 ++ post) := by simp
    rw [e]
    exact hops_infix _ _ hxy
  rcases fan_across hv hF hdn hone hne ht ht' with ⟨l1, l2, y, s, s', h1, h2⟩ | ⟨hb, f, q, h1, h2⟩
  · have hmem : (circIx d s, circIx d s') ∈ ks := by
      have hss : circIx d s ≠ circIx d s' := by
        rcases h2 with ⟨rfl, rfl⟩ | ⟨rfl, rfl⟩
        · exact hx
        · exact Ne.symm hx
      cases hsh with
      | closed tm hb htm =>
        have := hpath [circIx d tm] [] l1 l2 _ _ hss h1
        simpa using this
      | flat i2 m last T Q qf ql c hb hs hm hg hT hT' hQ =>
        have := hpath [i2] [m] l1 l2 _ _ hss h1
        rw [hQ]
        exact List.mem_append_left _ (by simpa using this)
      | corner i2 m last ri T Q qf ql c q hb hs hm hg hT hT' hQ =>
        have := hpath [i2] [m] l1 l2 _ _ hss h1
        rw [hQ]
        exact List.mem_append_left _ (by simpa using this)
    rcases h2 with ⟨rfl, rfl⟩ | ⟨rfl, rfl⟩
    · exact Or.inl hmem
    · exact Or.inr hmem
  · have hmem : (circIx d f.2, circIx d t0) ∈ ks := by
      have hss : circIx d f.2 ≠ circIx d t0 := by
        rcases h2 with ⟨h2, h3⟩ | ⟨h2, h3⟩
        · rw [h2, h3]; exact hx
        · rw [h2, h3]; exact Ne.symm hx
      cases hsh with
      | closed tm _ htm =>
        have htm' : f.2 = tm := by rw [h1] at htm; simpa using htm
        obtain ⟨p', hp'⟩ := hF.first
        have e : circIx d tm :: (p.map Prod.snd).reverse.map (circIx d) =
            [] ++ circIx d tm :: circIx d t0 :: (p'.map Prod.snd).reverse.map (circIx d) := by
          rw [hp']; simp
        rw [htm'] at hss ⊢
        rw [e]
        exact hops_infix _ _ hss
      | flat i2 m last T Q qf ql c hb' => exact absurd hb hb'
      | corner i2 m last ri T Q qf ql c q hb' => exact absurd hb hb'
    rcases h2 with ⟨h2, h3⟩ | ⟨h2, h3⟩
    · left; rw [← h2, ← h3]; exact hmem
    · right; rw [← h2, ← h3]; exact hmem

/-- C83: the Voronoi edges are dual to the Delaunay edges.  There is a numbering `f` of the
circumcenters such that for every inner edge `v a`, with triangles `t` and `t'`, whose circumcenters
are different mesh points: these two points are vertices of the cells of `v` and of `a`, the segment
between them is an edge of the mesh, and its neighbours are the cells of `v` and `a` if no third cell
has both points. -/
theorem C83_dual (tol : K) (ht : 0 < tol) (out : TriOut K) (hv : ValidOut out)
    (hmk : MarkersOk out) (d : DelInfo K) (hd : DelInfo.importOut tol DelInfo.empty out = .ok d)
    (m : Mesh K (Poly K)) (hm : voronoi tol d = .ok m) :
    ∃ f : Nat → Int, (∀ t < out.tris.length, DenotesCenter tol out m.points.list t (f t)) ∧
      ∀ (v a : Int) (jv ja t t' : Nat) (tt tt' : Int × Int × Int),
        (firsts (out.tris.flatMap verts))[jv]? = some v → (firsts (out.tris.flatMap verts))[ja]? = some a →
        OneFan out.tris v → OneFan out.tris a → t ≠ t' → jv < ja →
        out.tris[t]? = some tt → s(v, a) ∈ sides tt → out.tris[t']? = some tt' → s(v, a) ∈ sides tt' →
        f t ≠ f t' →
        ∃ pv pa n, m.polygons[jv]? = some pv ∧ m.polygons[ja]? = some pa ∧
          f t ∈ pv.points ∧ f t' ∈ pv.points ∧ f t ∈ pa.points ∧ f t' ∈ pa.points ∧
          m.edges.find (ISeg.mk' (f t) (f t')) = some n ∧ Remembers n jv ∧ Remembers n ja ∧
          ((∀ (j : Nat) (poly : Poly K), m.polygons[j]? = some poly → f t ∈ poly.points →
              f t' ∈ poly.points → j = jv ∨ j = ja) →
            n = ⟨some (jv : Int), (ja : Int)⟩) := by
  obtain ⟨s, kss, h⟩ := meshLog_of hv hd hm
  have hpts : m.points = s.circ := by rw [h.mesh]
  refine ⟨circIx d, ?_, ?_⟩
  · intro t htl
    rw [hpts]
    obtain ⟨tail, htail⟩ := h.cells.grows
    exact denotesCenter_circIx ht hv h.core ⟨tail, htail⟩ htl
  intro v a jv ja t t' tt tt' hjv hja ov oa hne hlt h1 h2 h1' h2' hx
  have cellInfo : ∀ (j : Nat) (u w : Int), (firsts (out.tris.flatMap verts))[j]? = some u →
      OneFan out.tris u → s(u, w) = s(v, a) → ∃ ks poly, kss[j]? = some ks ∧ m.polygons[j]? = some poly ∧
        ((circIx d t, circIx d t') ∈ ks ∨ (circIx d t', circIx d t) ∈ ks) := by
    intro j u w hj ou huw
    have hj' : d.realPoints.list[j]? = some u := by rw [h.core.realList]; exact hj
    obtain ⟨s1, s2, poly, a0, t0, p, b, P, ks, g1, g2, g3, g4⟩ := h.cells.get hj'
    exact ⟨ks, poly, g2, g1, hop_across hv hmk g3.shape g3.fan ou hne ⟨tt, h1, by rw [huw]; exact h2⟩
      ⟨tt', h1', by rw [huw]; exact h2'⟩ hx⟩
  obtain ⟨kv, pv, c1, c2, c3⟩ := cellInfo jv v a hjv ov rfl
  obtain ⟨ka, pa, e1, e2, e3⟩ := cellInfo ja a v hja oa Sym2.eq_swap
  obtain ⟨pv', c4, c5, c6⟩ := h.cellOf c1 c3
  rw [c2] at c4; obtain rfl := Option.some.inj c4
  obtain ⟨pa', e4, e5, e6⟩ := h.cellOf e1 e3
  rw [e2] at e4; obtain rfl := Option.some.inj e4
  have hsort := cellsOf_sorted kss (circIx d t) (circIx d t')
  have hmv : (jv : Int) ∈ cellsOf kss (circIx d t) (circIx d t') := (mem_cellsOf _ _ _ _).2 ⟨jv, kv, rfl, c1, c3⟩
  have hma : (ja : Int) ∈ cellsOf kss (circIx d t) (circIx d t') := (mem_cellsOf _ _ _ _).2 ⟨ja, ka, rfl, e1, e3⟩
  have hmem := mem_cellsOf kss (circIx d t) (circIx d t')
  obtain ⟨n, n1, n2⟩ := remembered_sorted hsort hmv
  obtain ⟨n', n1', n2'⟩ := remembered_sorted hsort hma
  rw [n1] at n1'; obtain rfl := Option.some.inj n1'
  refine ⟨pv, pa, n, c2, e2, c5, c6, e5, e6, by rw [h.find]; exact n1, n2, n2', ?_⟩
  intro huniq
  generalize cellsOf kss (circIx d t) (circIx d t') = L at *
  have hL : ∀ k ∈ L, k = (jv : Int) ∨ k = (ja : Int) := by
    intro k hk
    obtain ⟨j, ks, rfl, q1, q2⟩ := (hmem k).1 hk
    obtain ⟨poly, q3, q4, q5⟩ := h.cellOf q1 q2
    rcases huniq j poly q3 q4 q5 with rfl | rfl
    · exact Or.inl rfl
    · exact Or.inr rfl
  have hne' : L ≠ [] := by rintro rfl; simp at hmv
  obtain ⟨n', i, r1, r2, r3, r4⟩ := remembered_some hne'
  rw [n1] at r1; obtain rfl := Option.some.inj r1
  obtain ⟨i', w1, w2, w3⟩ := n2
  obtain ⟨i'', w1', w2', w3'⟩ := n2'
  rw [r2] at w1 w1'
  obtain rfl := Option.some.inj w1
  obtain rfl := Option.some.inj w1'
  have hi := hL i (List.mem_of_head? r3)
  have hin : i = (jv : Int) := by omega
  have hn2 : n.n2 = (ja : Int) := by
    rcases r4 with ⟨r4, _⟩ | ⟨_, r4⟩
    · rw [r4] at hma; simp at hma; omega
    · have := hL _ (List.mem_of_getLast? r4)
      omega
  obtain ⟨x1, x2⟩ := n
  simp only at r2 hn2
  rw [r2, hn2, hin]

/-! A concrete case for C83 -/

theorem ShareEdge.symm' {tris : List (Int × Int × Int)} {v : Int} {t t' : Nat}
    (h : ShareEdge tris v t t') : ShareEdge tris v t' t := by
  obtain ⟨x, tt, tt', h1, h2, h3, h4⟩ := h
  exact ⟨x, tt', tt, h2, h1, h4, h3⟩

/-- Triangles listed in a fan that contains all triangles at `v` hang together. -/
theorem oneFan_of_isFan {tris : List (Int × Int × Int)} (hp : ProperTris tris) {v : Int}
    {ns : List Int} {ts : List Nat} (h : IsFan tris v ns ts)
    (hall : ∀ t, UsesVertex tris v t → t ∈ ts) : OneFan tris v := by
  have chain : ∀ (ts : List Nat) (ns : List Int), IsFan tris v ns ts → ∀ t ∈ ts, ∀ t' ∈ ts,
      Relation.ReflTransGen (ShareEdge tris v) t t' := by
    intro ts
    induction ts with
    | nil => intro ns _ t ht; simp at ht
    | cons t0 ts ih =>
      intro ns hF
      match ns, hF with
      | a :: b :: ns, ⟨h3, hF⟩ =>
        have ih := ih _ hF
        have link : ∀ t ∈ ts, Relation.ReflTransGen (ShareEdge tris v) t0 t ∧
            Relation.ReflTransGen (ShareEdge tris v) t t0 := by
          intro t ht
          cases ts with
          | nil => simp at ht
          | cons t1 ts =>
            have hs : ShareEdge tris v t0 t1 := by
              match ns, hF with
              | c :: ns, ⟨h3', _⟩ =>
                obtain ⟨tt, g1, g2⟩ := (h3.side hp b).2 (Or.inr rfl)
                obtain ⟨tt', g1', g2'⟩ := (h3'.side hp b).2 (Or.inl rfl)
                exact ⟨b, tt, tt', g1, g1', g2, g2'⟩
            exact ⟨.head hs (ih t1 (by simp) t ht), .tail (ih t ht t1 (by simp)) hs.symm'⟩
        intro t ht t' ht'
        rcases List.mem_cons.1 ht with e | g
        · rcases List.mem_cons.1 ht' with e' | g'
          · rw [e, e']
          · rw [e]; exact (link t' g').1
        · rcases List.mem_cons.1 ht' with e' | g'
          · rw [e']; exact (link t g).2
          · exact ih t g t' g'
  intro t t' h1 h2
  exact chain ts ns h t (hall t h1) t' (hall t' h2)

theorem sampleOut_oneFan_4 : OneFan sampleOut.tris 4 := by
  refine oneFan_of_isFan (properTris_of_valid sampleOut_valid) (ns := [0, 1, 2, 3, 0])
    (ts := [0, 1, 2, 3]) ?_ ?_
  · refine ⟨⟨by decide, by decide, by decide, _, rfl, ?_⟩, ⟨by decide, by decide, by decide, _, rfl, ?_⟩,
      ⟨by decide, by decide, by decide, _, rfl, ?_⟩, ⟨by decide, by decide, by decide, _, rfl, ?_⟩, trivial⟩ <;>
    · intro x; simp [verts]; omega
  · rintro t ⟨tt, ht, _⟩
    have := (List.getElem?_eq_some_iff.1 ht).1
    have hl : sampleOut.tris.length = 4 := rfl
    rw [hl] at this
    simp only [List.mem_cons, List.not_mem_nil, or_false]
    omega

theorem sampleOut_oneFan_0 : OneFan sampleOut.tris 0 := by
  refine oneFan_of_isFan (properTris_of_valid sampleOut_valid) (ns := [1, 4, 3])
    (ts := [0, 3]) ?_ ?_
  · refine ⟨⟨by decide, by decide, by decide, _, rfl, ?_⟩, ⟨by decide, by decide, by decide, _, rfl, ?_⟩,
      trivial⟩ <;>
    · intro x; simp [verts]; try omega
  · rintro t ⟨tt, ht, hm⟩
    have := (List.getElem?_eq_some_iff.1 ht).1
    have hl : sampleOut.tris.length = 4 := rfl
    rw [hl] at this
    simp only [List.mem_cons, List.not_mem_nil, or_false]
    match t, this with
    | 0, _ => simp
    | 1, _ => obtain rfl := Option.some.inj ht; simp [verts] at hm
    | 2, _ => obtain rfl := Option.some.inj ht; simp [verts] at hm
    | 3, _ => simp

/-- The hypotheses of C83 are met by the square with its middle point: the edge from the corner 0 to
the middle separates the triangles 0 and 3. -/
example : (firsts (sampleOut.tris.flatMap verts))[0]? = some 0 ∧
    (firsts (sampleOut.tris.flatMap verts))[2]? = some 4 ∧ OneFan sampleOut.tris 0 ∧
    OneFan sampleOut.tris 4 ∧ s(0, 4) ∈ sides (0, 1, 4) ∧ s(0, 4) ∈ sides (3, 0, 4) ∧
    ValidOut sampleOut ∧ MarkersOk sampleOut ∧
    (match DelInfo.importOut (1/100000 : ℚ) DelInfo.empty sampleOut with
      | .ok d => (match voronoi (1/100000 : ℚ) d with
        | .ok m => decide (m.edges.find (ISeg.mk' 0 3) = some ⟨some 0, 2⟩ ∧
          m.points.list.take 4 = [⟨1, 0⟩, ⟨2, 1⟩, ⟨1, 2⟩, ⟨0, 1⟩])
        | _ => false)
      | _ => false) = true :=
  ⟨by decide, by decide, sampleOut_oneFan_0, sampleOut_oneFan_4, by decide, by decide, sampleOut_valid,
    sampleOut_markers, by decide +kernel⟩

/-! ### C84 -/

/-- The point map of the construction as a log of insertions. -/
theorem Cells.plog {tol : K} {out : TriOut K} {d : DelInfo K} {n : Nat} {s0 s : VState K}
    {vs : List Int} {polys : List (Poly K)} {kss : List (List (Int × Int))}
    (h : Cells tol out d n s0 vs polys kss s) :
    ∃ L : List (Pt K × Int), s.pmap = L.foldl (fun m e => m.insert tol e.1 e.2) s0.pmap ∧
      (∀ e ∈ L, ∃ (j : Nat) (poly : Poly K) (i : Int), e.2 = ((n + j : Nat) : Int) ∧
        polys[j]? = some poly ∧ i ∈ poly.points ∧ vecGet s.circ.list i = .ok e.1) ∧
      (∀ (j : Nat) (poly : Poly K) (i : Int) (q : Pt K), polys[j]? = some poly → i ∈ poly.points →
        vecGet s.circ.list i = .ok q → (q, ((n + j : Nat) : Int)) ∈ L) := by
  induction h with
  | nil => exact ⟨[], rfl, by simp, by simp⟩
  | @cons n s0 s1 s2 v vs poly polys a0 t0 p b P ks kss h1 h2 ih =>
    obtain ⟨L, l1, l2, l3⟩ := ih
    obtain ⟨qs, q1, q2, q3⟩ := h1.pts
    refine ⟨qs.map (fun q => (q, (n : Int))) ++ L, ?_, ?_, ?_⟩
    · rw [l1, q1, List.foldl_append, List.foldl_map]; rfl
    · intro e he
      rcases List.mem_append.1 he with he | he
      · obtain ⟨q, hq, rfl⟩ := List.mem_map.1 he
        obtain ⟨i, hi, hg⟩ := q2 q hq
        exact ⟨0, poly, i, rfl, rfl, (mem_poly_points h1.points i).2 hi, h2.grows.get hg⟩
      · obtain ⟨j, poly', i, e1, e2, e3⟩ := l2 e he
        exact ⟨j + 1, poly', i, by rw [e1]; congr 1; omega, by simpa using e2, e3⟩
    · intro j poly' i q hj hi hg
      cases j with
      | zero =>
        simp at hj; subst hj
        obtain ⟨q', hq', hg'⟩ := q3 i ((mem_poly_points h1.points i).1 hi)
        have := h2.grows.get hg'
        rw [hg] at this
        obtain rfl := Outcome.ok.inj this
        exact List.mem_append_left _ (List.mem_map.2 ⟨q, hq', rfl⟩)
      | succ j =>
        have := l3 j poly' i q (by simpa using hj) hi hg
        rw [show n + (j + 1) = n + 1 + j by omega]
        exact List.mem_append_right _ this

/-- C84, the part that holds: the point map of the Voronoi mesh lists, for each point of the mesh,
exactly the cells that have a vertex there (up to the tolerance), provided the points of the mesh are
tolerance-separated.  Missing: each cell once (refuted below). -/
theorem C84_points_partial (tol : K) (ht : 0 < tol) (out : TriOut K) (hv : ValidOut out)
    (d : DelInfo K) (hd : DelInfo.importOut tol DelInfo.empty out = .ok d)
    (m : Mesh K (Poly K)) (hm : voronoi tol d = .ok m) (hS : TolSeparated tol {p | p ∈ m.points.list})
    (q : Pt K) (hq : q ∈ m.points.list) (k : Int) :
    k ∈ (m.pointMap.get tol q).2 ↔ ∃ (j : Nat) (poly : Poly K) (i : Int) (q' : Pt K), k = (j : Int) ∧
      m.polygons[j]? = some poly ∧ i ∈ poly.points ∧ vecGet m.points.list i = .ok q' ∧
      Close tol q' q := by
  obtain ⟨s, kss, h⟩ := meshLog_of hv hd hm
  have hpts : m.points = s.circ := by rw [h.mesh]
  have hpm : m.pointMap = s.pmap := by rw [h.mesh]
  obtain ⟨L, l1, l2, l3⟩ := h.cells.plog
  have hrun : m.pointMap = PtMap.run tol (L.map (fun e => PtMap.Op.insert e.1 e.2)) := by
    rw [hpm, l1]
    unfold PtMap.run
    rw [List.foldl_map]; rfl
  rw [← hpts] at l2 l3
  have hget := C61_get tol ht _ hS (L.map (fun e => PtMap.Op.insert e.1 e.2)) (by
    intro o ho
    obtain ⟨e, he, rfl⟩ := List.mem_map.1 ho
    obtain ⟨j, poly, i, _, _, _, g⟩ := l2 e he
    exact mem_of_vecGet g) q hq
  rw [hrun, hget, List.mem_flatMap]
  constructor
  · rintro ⟨o, ho, hk⟩
    obtain ⟨h1, h2⟩ := List.mem_filter.1 ho
    obtain ⟨e, he, rfl⟩ := List.mem_map.1 h1
    obtain ⟨j, poly, i, g1, g2, g3, g4⟩ := l2 e he
    have hk : k = e.2 := by simpa [PtMap.Op.added] using hk
    exact ⟨j, poly, i, e.1, by rw [hk, g1]; simp, g2, g3, g4, of_decide_eq_true h2⟩
  · rintro ⟨j, poly, i, q', rfl, g2, g3, g4, g5⟩
    have := l3 j poly i q' g2 g3 g4
    refine ⟨_, List.mem_filter.2 ⟨List.mem_map_of_mem (f := fun e : Pt K × Int => PtMap.Op.insert e.1 e.2) this, decide_eq_true g5⟩, ?_⟩
    simp [PtMap.Op.added]

/-- C84 is violated: cells are listed several times.  In the Voronoi mesh of the square with its
middle point, the cell of the middle point (number 2) is listed twice at its vertex (1, 0). -/
theorem C84_once_refuted : ∃ d m, DelInfo.importOut (1/100000 : ℚ) DelInfo.empty sampleOut = .ok d ∧
    voronoi (1/100000 : ℚ) d = .ok m ∧ ValidOut sampleOut ∧ MarkersOk sampleOut ∧
    TolSeparated (1/100000 : ℚ) {p | p ∈ m.points.list} ∧ (⟨1, 0⟩ : Pt ℚ) ∈ m.points.list ∧
    ¬ (m.pointMap.get (1/100000 : ℚ) ⟨1, 0⟩).2.Nodup := by
  have key : (match DelInfo.importOut (1/100000 : ℚ) DelInfo.empty sampleOut with
    | .ok d => (match voronoi (1/100000 : ℚ) d with
      | .ok m => decide ((∀ a ∈ m.points.list, ∀ b ∈ m.points.list,
          (a.x = b.x ∨ (1/100000 : ℚ) ≤ |a.x - b.x|) ∧ (a.y = b.y ∨ (1/100000 : ℚ) ≤ |a.y - b.y|)) ∧
          (⟨1, 0⟩ : Pt ℚ) ∈ m.points.list ∧
          ¬ (m.pointMap.get (1/100000 : ℚ) ⟨1, 0⟩).2.Nodup)
      | _ => false)
    | _ => false) = true := by decide +kernel
  split at key
  · rename_i d hd
    split at key
    · rename_i m hm
      obtain ⟨h1, h2, h3⟩ := of_decide_eq_true key
      refine ⟨d, m, hd, hm, sampleOut_valid, sampleOut_markers, ?_, h2, h3⟩
      exact C09_separated_of_gap (1/100000 : ℚ) (by decide +kernel) _
        (fun a ha b hb => (h1 a ha b hb).1) (fun a ha b hb => (h1 a ha b hb).2)
    · cases key
  · cases key

end Delynoi
