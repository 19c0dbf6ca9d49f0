import Verif.Proofs.Walk
/-! Helper lemmas: one cell of the Voronoi construction. -/
set_option linter.unusedSectionVars false
namespace Delynoi
variable {K : Type} [Field K] [LinearOrder K] [IsStrictOrderedRing K]

/-- The indices of a cell and the Voronoi edges recorded for it, in terms of the fan `p` (latest
first) from the neighbour `a0` to the neighbour `b`. -/
inductive Shape (tol : K) (out : TriOut K) (d : DelInfo K) (l : List (Pt K)) (v a0 : Int) (t0 : Nat)
    (p : List (Int × Nat)) (b : Int) : List Int → List (Int × Int) → Prop
  | closed (tm : Nat) : b = a0 → (p.map Prod.snd).head? = some tm →
      Shape tol out d l v a0 t0 p b (circIx d tm :: (p.map Prod.snd).reverse.map (circIx d))
        (hops (circIx d tm :: (p.map Prod.snd).reverse.map (circIx d)))
  | flat (i2 m last T : Int) (Q : List Int) (qf ql c : Pt K) : b ≠ a0 →
      (∀ u, HasSide out.tris v b u → (p.map Prod.snd).head? = some u) →
      MidIx tol out l v b m → GcOk tol out d l v a0 T i2 →
      (T = -1 → ∀ u, HasSide out.tris v a0 u → u = t0) → (MarkersOk out → T = -1) →
      Q = i2 :: (p.map Prod.snd).reverse.map (circIx d) ++ [m] →
      (firsts Q).getLast? = some last →
      vecGet out.points v = .ok c → vecGet l i2 = .ok qf → vecGet l last = .ok ql →
      collinear tol qf c ql = true →
      Shape tol out d l v a0 t0 p b Q (hops Q ++ [(last, i2)])
  | corner (i2 m last ri T : Int) (Q : List Int) (qf ql c q : Pt K) : b ≠ a0 →
      (∀ u, HasSide out.tris v b u → (p.map Prod.snd).head? = some u) →
      MidIx tol out l v b m → GcOk tol out d l v a0 T i2 →
      (T = -1 → ∀ u, HasSide out.tris v a0 u → u = t0) → (MarkersOk out → T = -1) →
      Q = i2 :: (p.map Prod.snd).reverse.map (circIx d) ++ [m] →
      (firsts Q).getLast? = some last →
      vecGet out.points v = .ok c → vecGet l i2 = .ok qf → vecGet l last = .ok ql →
      collinear tol qf c ql = false →
      vecGet l ri = .ok q → (q = c ∨ Equiv' (fun x y : Pt K => x.ltTol tol y) q c) →
      Shape tol out d l v a0 t0 p b (Q ++ [ri]) (hops Q ++ [(last, ri), (ri, i2)])

/-- Result of building one cell. -/
structure CellOk (tol : K) (out : TriOut K) (d : DelInfo K) (cell v : Int) (s0 s : VState K)
    (poly : Poly K) (a0 : Int) (t0 : Nat) (p : List (Int × Nat)) (b : Int) (P : List Int)
    (ks : List (Int × Int)) : Prop where
  fan : Fan out.tris v a0 t0 p b
  st : StOk tol out d s
  grow : Grows s0 s
  shape : Shape tol out d s.circ.list v a0 t0 p b P ks
  inR : ∀ i ∈ P, InR s.circ.list.length i
  points : poly.points = firsts P ∨ poly.points = (firsts P).reverse
  area : ∃ l, resolve s.circ.list poly.points = .ok l ∧ ∀ o, 0 ≤ refArea o l
  ved : s.vedges = segLog cell s0.vedges ks
  kmem : ∀ e ∈ ks, e.1 ∈ P ∧ e.2 ∈ P
  pts : ∃ qs, s.pmap = ptLog tol cell s0.pmap qs ∧
    (∀ q ∈ qs, ∃ i ∈ P, vecGet s.circ.list i = .ok q) ∧
    (∀ i ∈ P, ∃ q ∈ qs, vecGet s.circ.list i = .ok q)

theorem hops_mem : ∀ (l : List Int), ∀ e ∈ hops l, e.1 ∈ l ∧ e.2 ∈ l := by
  intro l
  induction l with
  | nil => simp [hops]
  | cons a l ih =>
    cases l with
    | nil => simp [hops]
    | cons b l =>
      intro e he
      have he : e ∈ (if a = b then [] else [(a, b)]) ++ hops (b :: l) := he
      rcases List.mem_append.1 he with he | he
      · split at he
        · simp at he
        · simp at he; subst he; simp
      · obtain ⟨h1, h2⟩ := ih e he
        exact ⟨List.mem_cons_of_mem _ h1, List.mem_cons_of_mem _ h2⟩

theorem addNew_head {l : List Int} {y : Int} (h : l.head? = some y) (x : Int) :
    (addNew l x).head? = some y := by
  unfold addNew
  split
  · exact h
  · cases l with
    | nil => simp at h
    | cons a l => simpa using h

theorem firsts_head (x : Int) (l : List Int) : (firsts (x :: l)).head? = some x := by
  induction l using List.reverseRecOn with
  | nil => simp [firsts, addNew]
  | append_singleton l y ih =>
    rw [← List.cons_append, firsts_append]
    exact addNew_head ih y

section
variable {tol : K} {out : TriOut K} {d : DelInfo K}

theorem vecGet_last {α : Type} {l : List α} {a : α} (h : l.getLast? = some a) :
    vecGet l ((l.length : Int) - 1) = .ok a := by
  have hne : l ≠ [] := by rintro rfl; simp at h
  have hpos := List.length_pos_iff.2 hne
  rw [vecGet_ok_iff]
  refine ⟨by omega, ?_⟩
  rw [List.getLast?_eq_getElem?] at h
  rw [← h]
  congr 1; omega

theorem vecGet_head {α : Type} {l : List α} {a : α} (h : l.head? = some a) :
    vecGet l 0 = .ok a := by
  rw [vecGet_ok_iff]
  refine ⟨le_refl _, ?_⟩
  cases l with
  | nil => simp at h
  | cons x l => simpa using h

/-- The final polygon. -/
theorem finish_ok (tol : K) {l : List (Pt K)} {P : List Int} (hne : P ≠ []) (hP : ∀ i ∈ P, InR l.length i) :
    ∃ poly, ((do let p ← Poly.ofIndices tol (firsts P) l; p.fixCCW l) : Outcome (Poly K)) = .ok poly ∧
      (poly.points = firsts P ∨ poly.points = (firsts P).reverse) ∧
      ∃ r, resolve l poly.points = .ok r ∧ ∀ o, 0 ≤ refArea o r := by
  have hof : Poly.ofIndices tol (firsts P) l = .ok (Poly.fresh (firsts P)) := rfl
  have hfr : (Poly.fresh (firsts P) : Poly K).points = firsts P := rfl
  obtain ⟨r, hr⟩ := (resolve_ok_iff (p := l) (is := firsts P)).2
    (fun i hi => hP i ((mem_firsts _ _).1 hi))
  have hne' : (Poly.fresh (firsts P) : Poly K).points ≠ [] := by
    rw [hfr]
    cases P with
    | nil => exact absurd rfl hne
    | cons x P => intro hc; have := firsts_head x P; rw [hc] at this; simp at this
  have key := fun o => C20_fixCCW (Poly.fresh (firsts P)) l r o hne' (by rw [hfr]; exact hr)
  obtain ⟨g, l', g1, g2, g3, g4, _⟩ := key ⟨0, 0⟩
  rw [hof, Outcome.bind_ok]
  refine ⟨g, g1, by rw [hfr] at g3; exact g3, l', g2, ?_⟩
  intro o
  obtain ⟨g', l'', g1', g2', _, g4', _⟩ := key o
  rw [g1] at g1'; obtain rfl := Outcome.ok.inj g1'
  rw [g2] at g2'; obtain rfl := Outcome.ok.inj g2'
  rw [g4']; exact abs_nonneg _

theorem voronoiCell_eq (tol : K) (d : DelInfo K) (cell index : Int) (s : VState K) {center : Pt K}
    {pd : PointData} {init : EdgeData} {r : VState K × UList Int} {n : VState K × EdgeData}
    {w : EdgeData × VState K × UList Int} {c : VState K × UList Int}
    (h1 : vecGet d.meshPoints index = .ok center) (h2 : vecGet d.points index = .ok pd)
    (h3 : vecGet d.edges pd.edge = .ok init)
    (h4 : crossEdge tol d cell init.t1 init.t2 pd.edge s UList.empty = .ok r)
    (h5 : nextEdgeOf d r.1 init.t1 index init = .ok n)
    (h6 : walk tol d cell index init (3 * d.triangles.length) n.2 init.t1 n.1 r.2 = .ok w)
    (h7 : closeCell tol cell center w.1 w.2.1 w.2.2 = .ok c) {poly : Poly K}
    (h8 : ((do let p ← Poly.ofIndices tol c.2.list c.1.circ.list; p.fixCCW c.1.circ.list) :
      Outcome (Poly K)) = .ok poly) :
    voronoiCell tol d cell index s = .ok (c.1, poly) := by
  unfold voronoiCell
  rw [h1, Outcome.bind_ok, h2, Outcome.bind_ok, h3, Outcome.bind_ok, h4, Outcome.bind_ok, h5,
    Outcome.bind_ok, h6, Outcome.bind_ok, h7, Outcome.bind_ok]
  have hof : ∀ is l, Poly.ofIndices tol is l = .ok (Poly.fresh is) := fun _ _ => rfl
  rw [hof, Outcome.bind_ok] at h8 ⊢
  rw [h8, Outcome.bind_ok, Outcome.pure_eq]

/-- A vertex of a triangle has a first edge, and its record. -/
theorem init_edge (hv : ValidOut out) (h : TriCore tol out out.tris d) {v : Int} {t : Nat}
    (hu : UsesVertex out.tris v t) :
    ∃ c pd init k a0, vecGet out.points v = .ok c ∧ vecGet d.points v = .ok pd ∧
      pd.edge = ((k : Nat) : Int) ∧ EdgeAt out d v a0 k init ∧
      (∀ b u, (∀ w, HasSide out.tris v b w → w = u) → HasSide out.tris v b u → MarkersOk out →
        init.t2 = -1) := by
  have hp := properTris_of_valid hv
  obtain ⟨tt, htt, hvm⟩ := hu
  have hpt := hp tt (List.mem_of_getElem? htt)
  -- a side at `v`
  obtain ⟨x, hx⟩ : ∃ x, s(v, x) ∈ sides tt := by
    obtain ⟨x, y, z⟩ := tt
    simp only [verts, List.mem_cons, List.not_mem_nil, or_false] at hvm
    rcases hvm with rfl | rfl | rfl
    · exact ⟨y, by simp [sides]⟩
    · exact ⟨z, by simp [sides]⟩
    · exact ⟨x, by simp [sides]⟩
  obtain ⟨k', e', hk', he', _⟩ := side_idx hv (List.mem_of_getElem? htt) hx
  have hmem' := List.mem_of_getElem? hk'
  obtain ⟨⟨a0, a1⟩, ⟨b0, b1⟩, _⟩ := hv.edgeRange e' hmem'
  have hvR : InR out.points.length v := by
    rcases Sym2.eq_iff.1 (show s(e'.1, e'.2.1) = s(v, x) from he') with ⟨h1, _⟩ | ⟨_, h1⟩
    · rw [← h1]; exact ⟨a0, a1⟩
    · rw [← h1]; exact ⟨b0, b1⟩
  obtain ⟨c, hc⟩ := vecGet_inR hvR
  obtain ⟨pd, hpd⟩ := vecGet_inR (show InR d.points.length v by rw [h.plen]; exact hvR)
  obtain ⟨hv0, hpd'⟩ := vecGet_ok_iff.1 hpd
  have hvn : ((v.toNat : Nat) : Int) = v := by omega
  have hpo := h.pdata v.toNat pd hpd'
  rw [hvn] at hpo
  rcases hpo with ⟨_, h2⟩ | ⟨k, e, h1, h2, h3, h4⟩
  · exfalso
    apply h2 e' hmem'
    rw [he']; simp
  · obtain ⟨a, ha⟩ := Sym2.mem_iff_exists.1 h3
    obtain ⟨init, hE⟩ := edgeAt_of_idx hv h h2 ha
    refine ⟨c, pd, init, k, a, hc, hpd, h1, hE, ?_⟩
    intro b u hsing hside hmk
    obtain ⟨tt', ht', hs'⟩ := hside
    obtain ⟨k2, e2, hk2, he2, _⟩ := side_idx hv (List.mem_of_getElem? ht') hs'
    have hm2 := List.mem_of_getElem? hk2
    have hlen : (incident out.tris (eEnds e2)).length = 1 := by
      rw [he2]
      have hn := incident_nodup out.tris s(v, b)
      have hall : ∀ j ∈ incident out.tris s(v, b), j = (u : Int) := by
        intro j hj
        obtain ⟨n, t, rfl, g1, g2⟩ := (mem_incident _ _ _).1 hj
        rw [hsing n ⟨t, g1, g2⟩]
      have hin : (u : Int) ∈ incident out.tris s(v, b) :=
        (hasSide_iff _ _ _ _).1 ⟨tt', ht', hs'⟩
      match hl : incident out.tris s(v, b) with
      | [] => rw [hl] at hin; simp at hin
      | [_] => rfl
      | x :: y :: l =>
        rw [hl] at hall hn
        have e1 := hall x (by simp)
        have e2 := hall y (by simp)
        rw [e1, e2] at hn
        simp at hn
    have hmark : e.2.2 = 1 := h4 ⟨e2, hm2, by rw [he2]; simp, (hmk e2 hm2).2 hlen⟩
    have := (hmk e (List.mem_of_getElem? h2)).1 hmark
    rw [ha] at this
    rcases hE.inc with ⟨g1, _⟩ | ⟨_, _, g3⟩
    · exact g1
    · rw [g3] at this; simp at this

theorem cell_ok (hv : ValidOut out) (h : TriCore tol out out.tris d) {s0 : VState K} (hs : StOk tol out d s0)
    (cell : Int) {v : Int} {t : Nat} (hu : UsesVertex out.tris v t) :
    ∃ s poly a0 t0 p b P ks, voronoiCell tol d cell v s0 = .ok (s, poly) ∧
      CellOk tol out d cell v s0 s poly a0 t0 p b P ks := by
  have hp := properTris_of_valid hv
  have h2 := twoSided_of_valid hv
  obtain ⟨c, pd, init, k0, a0, hc, hpd, hpe, hE, hmk⟩ := init_edge hv h hu
  obtain ⟨t0, ht0, hside⟩ := hE.hasSide1
  obtain ⟨b1, hb1⟩ := hside.third hp
  obtain ⟨s1, cp1, i2, hcr, hgc, hrun⟩ := run_first hv h hs cell hE ht0 hside.lt
  obtain ⟨k1, r1, hn, hE1⟩ := nextEdgeOf_ok hv h hrun.st hE hb1
  obtain ⟨r', s', cp', q, b, k', hw, hF, hE', hg, hcase⟩ := walk_ok hv h (s0 := s0) (cell := cell) hE
    (3 * d.triangles.length) (p := []) (path := [i2]) (Fan.one hb1) hE1
    (by rw [h.tlen]; simp; omega) hrun
  have hgc' := hgc.mono hg
  have g1 : vecGet d.meshPoints v = .ok c := by rw [h.mesh]; exact hc
  have g3 : vecGet d.edges pd.edge = .ok init := by rw [hpe]; exact vecGet_nat hE.recd
  have g4 : crossEdge tol d cell init.t1 init.t2 pd.edge s0 UList.empty = .ok (s1, cp1) := by
    rw [hpe]; exact hcr
  have g5 : nextEdgeOf d (s1, cp1).1 init.t1 v init = .ok (s1, r1) := by rw [ht0]; exact hn
  have g6 : walk tol d cell v init (3 * d.triangles.length) (s1, r1).2 init.t1 (s1, r1).1
      (s1, cp1).2 = .ok (r', s', cp') := by rw [ht0]; exact hw
  have hfi := hF.inv hp h2
  set p := q ++ [(a0, t0)] with hpdef
  have hpath : [i2] ++ [circIx d t0] ++ (q.map Prod.snd).reverse.map (circIx d)
      = i2 :: (p.map Prod.snd).reverse.map (circIx d) := by
    rw [hpdef]; simp
  rcases hcase with ⟨hb, hr⟩ | ⟨hb, ht2, hsing, m, hmid, hr⟩
  · -- closed
    rw [hpath] at hr
    subst hb
    obtain ⟨tm, am, p', hpm⟩ : ∃ tm am p', p = (am, tm) :: p' := by
      cases q with
      | nil => exact ⟨t0, b, [], rfl⟩
      | cons f q => exact ⟨f.2, f.1, q ++ [(b, t0)], rfl⟩
    have hhead : Fan3 out.tris v am b tm := by
      have : Fan out.tris v b t0 p b := hF
      rw [hpm] at this
      exact this.head
    have sm : HasSide out.tris v b tm := (hhead.side hp b).2 (Or.inr rfl)
    have hne : tm ≠ t0 := by
      intro he
      have hst := hfi.start
      have hab : am ≠ b := hhead.2.2.1
      rw [hpm] at hst
      rcases List.mem_cons.1 hst with hm | hm
      · exact hab (congrArg Prod.fst hm).symm
      · have hnd := hfi.nodup
        rw [hpm, List.map_cons, List.nodup_cons] at hnd
        apply hnd.1
        have := List.mem_map_of_mem (f := Prod.snd) hm
        simp only at this
        rw [he]; exact this
    have hi2 : i2 = circIx d tm ∧ r'.t2 ≠ -1 := by
      have s1 := (hasSide_iff _ _ _ _).1 sm
      have s0 := (hasSide_iff _ _ _ _).1 hside
      constructor
      · rcases hE.inc with ⟨e1, e2⟩ | ⟨e1, e2, e3⟩
        · rw [e2] at s1; simp at s1; omega
        · rw [e3] at s1; simp at s1
          have ht : init.t2 = (tm : Int) := by
            rcases s1 with s1 | s1
            · omega
            · exact s1.symm
          rcases hgc with ⟨u, hu, _, hi⟩ | ⟨hu, _⟩
          · rw [ht] at hu
            have : u = tm := by omega
            rw [hi, this]
          · omega
      · rcases hE'.inc with ⟨e1, e2⟩ | ⟨e1, e2, e3⟩
        · rw [e2] at s1 s0; simp at s1 s0; omega
        · omega
    obtain ⟨rfl, hr2⟩ := hi2
    have g7 : closeCell tol cell c r' s' cp' = .ok (s', cp') := by
      unfold closeCell; rw [if_neg hr2]
    obtain ⟨poly, f1, f2, f3⟩ := finish_ok tol (l := s'.circ.list)
      (P := circIx d tm :: (p.map Prod.snd).reverse.map (circIx d)) (by simp) hr.inR
    rw [← hr.cpList] at f1
    refine ⟨s', poly, b, t0, p, b, _, _, voronoiCell_eq tol d cell v s0 g1 hpd g3 g4 g5 g6 g7 f1,
      ⟨hF, hr.st, hr.grow, Shape.closed tm rfl (by rw [hpm]; rfl), hr.inR, f2, f3, hr.ved, hops_mem _,
        hr.pts⟩⟩
  · -- open
    rw [hpath] at hr
    have hTs : init.t2 = -1 → ∀ u, HasSide out.tris v a0 u → u = t0 := by
      intro hT u hu
      have hu' := (hasSide_iff _ _ _ _).1 hu
      rcases hE.inc with ⟨e1, e2⟩ | ⟨e1, e2, e3⟩
      · rw [e2] at hu'; simp at hu'; omega
      · omega
    have hmk' : MarkersOk out → init.t2 = -1 := by
      obtain ⟨f, p', hpm⟩ : ∃ f p', p = f :: p' := by
        cases q with
        | nil => exact ⟨_, _, rfl⟩
        | cons f q => exact ⟨_, _, rfl⟩
      have hhead : Fan3 out.tris v f.1 b f.2 := by
        have : Fan out.tris v a0 t0 p b := hF
        rw [hpm] at this
        exact this.head
      refine hmk b f.2 ?_ ((hhead.side hp b).2 (Or.inr rfl))
      intro w hw
      have := hsing w hw
      rw [hpm] at this
      simpa using this.symm
    set Q := i2 :: (p.map Prod.snd).reverse.map (circIx d) ++ [m] with hQ
    have hhd : cp'.list.head? = some i2 := by rw [hr.cpList, hQ]; exact firsts_head _ _
    obtain ⟨last, hlast⟩ : ∃ last, (firsts Q).getLast? = some last := by
      cases hl : (firsts Q).getLast? with
      | some x => exact ⟨x, rfl⟩
      | none =>
        exfalso
        rw [List.getLast?_eq_none_iff, ← hr.cpList] at hl
        rw [hl] at hhd; simp at hhd
    have hlmem : last ∈ Q := (mem_firsts _ _).1 (List.mem_of_getLast? hlast)
    have hfmem : i2 ∈ Q := by rw [hQ]; simp
    obtain ⟨qf, hqf⟩ := vecGet_inR (hr.inR i2 hfmem)
    obtain ⟨ql, hql⟩ := vecGet_inR (hr.inR last hlmem)
    have e1 := vecGet_head hhd
    have e2 : vecGet cp'.list ((cp'.list.length : Int) - 1) = .ok last := by
      rw [hr.cpList]; exact vecGet_last hlast
    by_cases hcol : collinear tol qf c ql = true
    · have g7 : closeCell tol cell c r' s' cp' =
          .ok ({ s' with vedges := s'.vedges.insert (ISeg.mk' last i2) cell }, cp') := by
        unfold closeCell
        rw [if_pos ht2, e1, Outcome.bind_ok, e2, Outcome.bind_ok, hqf, Outcome.bind_ok, hql,
          Outcome.bind_ok, if_pos hcol, Outcome.pure_eq]
      obtain ⟨poly, f1, f2, f3⟩ := finish_ok tol (l := s'.circ.list) (P := Q) (by rw [hQ]; simp) hr.inR
      rw [← hr.cpList] at f1
      refine ⟨_, poly, a0, t0, p, b, Q, _, voronoiCell_eq tol d cell v s0 g1 hpd g3 g4 g5 g6 g7 f1,
        ⟨hF, ⟨hr.st.em, hr.st.dec, hr.st.pre, hr.st.bd, hr.st.inv⟩, hr.grow,
          Shape.flat i2 m last init.t2 Q qf ql c hb hsing hmid hgc' hTs hmk' hQ hlast hc hqf hql hcol,
          hr.inR, f2, f3, ?_, ?_, hr.pts⟩⟩
      · simp only [hr.ved, segLog, List.foldl_append, List.foldl_cons, List.foldl_nil]
      · intro e he
        rcases List.mem_append.1 he with he | he
        · exact hops_mem _ e he
        · simp at he; subst he; exact ⟨hlmem, hfmem⟩
    · obtain ⟨w1, ⟨y, w2, w3⟩, ⟨tail, w4⟩⟩ :=
        UList.pushBack_weak (lt := fun x y : Pt K => x.ltTol tol y) hr.st.dec c
      set u := s'.circ.pushBack (fun x y => x.ltTol tol y) c with hudef
      have hgy := vecGet_nat w2
      have g7 : closeCell tol cell c r' s' cp' = .ok ({ s' with
          circ := u.1
          pmap := s'.pmap.insert tol y cell
          vedges := (s'.vedges.insert (ISeg.mk' last (u.2 : Int)) cell).insert
            (ISeg.mk' (u.2 : Int) i2) cell }, (cp'.pushBack ltInt (u.2 : Int)).1) := by
        unfold closeCell
        rw [if_pos ht2, e1, Outcome.bind_ok, e2, Outcome.bind_ok, hqf, Outcome.bind_ok, hql,
          Outcome.bind_ok, if_neg hcol]
        simp only
        rw [hgy, Outcome.bind_ok, Outcome.pure_eq]
      have hgr : ∀ {i : Int} {z : Pt K}, vecGet s'.circ.list i = .ok z → vecGet u.1.list i = .ok z := by
        intro i z hz; rw [w4]; exact vecGet_append hz
      have hR : ∀ i ∈ Q ++ [(u.2 : Int)], InR u.1.list.length i := by
        intro i hi
        rcases List.mem_append.1 hi with hi | hi
        · obtain ⟨z, hz⟩ := vecGet_inR (hr.inR i hi)
          exact inR_of_vecGet (hgr hz)
        · simp at hi; subst hi; exact inR_of_vecGet hgy
      obtain ⟨poly, f1, f2, f3⟩ := finish_ok tol (l := u.1.list) (P := Q ++ [(u.2 : Int)]) (by simp) hR
      have hcpl : (cp'.pushBack ltInt (u.2 : Int)).1.list = firsts (Q ++ [(u.2 : Int)]) := by
        rw [(pushInt hr.cpInv (u.2 : Int)).2, firsts_append, hr.cpList]
      rw [← hcpl] at f1
      have hmid' : MidIx tol out u.1.list v b m := by
        obtain ⟨pv, pa, z, z1, z2, z3, z4⟩ := hmid
        exact ⟨pv, pa, z, z1, z2, hgr z3, z4⟩
      have hgc'' : GcOk tol out d u.1.list v a0 init.t2 i2 := by
        rcases hgc' with hh | ⟨hh, pv, pa, z, z1, z2, z3, z4⟩
        · exact Or.inl hh
        · exact Or.inr ⟨hh, pv, pa, z, z1, z2, hgr z3, z4⟩
      refine ⟨_, poly, a0, t0, p, b, Q ++ [(u.2 : Int)], _,
        voronoiCell_eq tol d cell v s0 g1 hpd g3 g4 g5 g6 g7 f1,
        ⟨hF, ⟨hr.st.em, w1, ?_, ?_, ?_⟩, hr.grow.trans ⟨tail, w4⟩,
          Shape.corner i2 m last (u.2 : Int) init.t2 Q qf ql c y hb hsing hmid' hgc'' hTs hmk' hQ hlast hc
            (hgr hqf) (hgr hql) (by simpa using hcol) hgy w3,
          hR, f2, f3, ?_, ?_, ?_⟩⟩
      · obtain ⟨tl, htl⟩ := hr.st.pre
        exact ⟨tl ++ tail, by simp only; rw [w4, htl, List.append_assoc]⟩
      · have hin : incident out.tris s(v, b) = [r'.t1] := by
          rcases hE'.inc with ⟨_, g⟩ | ⟨g, _⟩
          · exact g
          · omega
        obtain ⟨pv, pa, _, z1, z2, _⟩ := hmid
        rw [hc] at z1
        exact drop_grow (x := c) hr.st.len hr.st.bd
          ⟨v, b, r'.t1, c, pa, hin, hc, z2, Or.inr rfl⟩ (UList.pushBack_tail _ _)
      · have hin : incident out.tris s(v, b) = [r'.t1] := by
          rcases hE'.inc with ⟨_, g⟩ | ⟨g, _⟩
          · exact g
          · omega
        obtain ⟨pv, pa, _, z1, z2, _⟩ := hmid
        rw [hc] at z1
        intro S hS hB hI
        exact UList.inv_pushBack hS (hr.st.inv S hS hB hI)
          (hB _ ⟨v, b, r'.t1, c, pa, hin, hc, z2, Or.inr rfl⟩)
      · simp only [hr.ved, segLog, List.foldl_append, List.foldl_cons, List.foldl_nil]
      · intro e he
        rcases List.mem_append.1 he with he | he
        · obtain ⟨x1, x2⟩ := hops_mem _ e he
          exact ⟨List.mem_append_left _ x1, List.mem_append_left _ x2⟩
        · simp at he
          rcases he with rfl | rfl
          · exact ⟨List.mem_append_left _ hlmem, by simp⟩
          · exact ⟨by simp, List.mem_append_left _ hfmem⟩
      · obtain ⟨qs, x1, x2, x3⟩ := hr.pts
        refine ⟨qs ++ [y], ?_, ?_, ?_⟩
        · simp only [x1, ptLog, List.foldl_append, List.foldl_cons, List.foldl_nil]
        · intro z hz
          rcases List.mem_append.1 hz with hz | hz
          · obtain ⟨i, hi, hgi⟩ := x2 z hz
            exact ⟨i, List.mem_append_left _ hi, hgr hgi⟩
          · simp at hz; subst hz; exact ⟨_, by simp, hgy⟩
        · intro i hi
          rcases List.mem_append.1 hi with hi | hi
          · obtain ⟨z, hz, hgi⟩ := x3 i hi
            exact ⟨z, List.mem_append_left _ hz, hgr hgi⟩
          · simp at hi; subst hi; exact ⟨y, by simp, hgy⟩

/-! ### All cells -/

/-- The cells built from the state `s0` for the points `vs`, numbered from `n` on. -/
inductive Cells (tol : K) (out : TriOut K) (d : DelInfo K) :
    Nat → VState K → List Int → List (Poly K) → List (List (Int × Int)) → VState K → Prop
  | nil (n : Nat) (s : VState K) : Cells tol out d n s [] [] [] s
  | cons {n : Nat} {s0 s1 s2 : VState K} {v : Int} {vs : List Int} {poly : Poly K}
      {polys : List (Poly K)} {a0 : Int} {t0 : Nat} {p : List (Int × Nat)} {b : Int} {P : List Int}
      {ks : List (Int × Int)} {kss : List (List (Int × Int))} :
      CellOk tol out d (n : Int) v s0 s1 poly a0 t0 p b P ks →
      Cells tol out d (n + 1) s1 vs polys kss s2 →
      Cells tol out d n s0 (v :: vs) (poly :: polys) (ks :: kss) s2

theorem cells_ok (hv : ValidOut out) (h : TriCore tol out out.tris d) :
    ∀ (vs : List Int) (done : List (Poly K)) {s0 : VState K}, StOk tol out d s0 →
      (∀ v ∈ vs, ∃ t, UsesVertex out.tris v t) →
      ∃ s polys kss, voronoiCells tol d vs s0 done = .ok (s, done ++ polys) ∧
        Cells tol out d done.length s0 vs polys kss s := by
  intro vs
  induction vs with
  | nil => intro done s0 hs _; exact ⟨s0, [], [], by simp [voronoiCells], Cells.nil _ _⟩
  | cons v vs ih =>
    intro done s0 hs hvs
    obtain ⟨t, ht⟩ := hvs v (by simp)
    obtain ⟨s1, poly, a0, t0, p, b, P, ks, h1, h2⟩ := cell_ok hv h hs (done.length : Int) ht
    obtain ⟨s, polys, kss, h3, h4⟩ := ih (done ++ [poly]) h2.st (fun v hv => hvs v (by simp [hv]))
    refine ⟨s, poly :: polys, ks :: kss, ?_, Cells.cons h2 (by simpa using h4)⟩
    unfold voronoiCells
    rw [h1, Outcome.bind_ok]
    simp only
    rw [h3]; simp

theorem Cells.grows {n : Nat} {s0 s : VState K} {vs : List Int} {polys : List (Poly K)}
    {kss : List (List (Int × Int))} (h : Cells tol out d n s0 vs polys kss s) : Grows s0 s := by
  induction h with
  | nil => exact Grows.refl _
  | cons h1 _ ih => exact h1.grow.trans ih

theorem Cells.length {n : Nat} {s0 s : VState K} {vs : List Int} {polys : List (Poly K)}
    {kss : List (List (Int × Int))} (h : Cells tol out d n s0 vs polys kss s) :
    polys.length = vs.length ∧ kss.length = vs.length := by
  induction h with
  | nil => exact ⟨rfl, rfl⟩
  | cons _ _ ih => simp [ih.1, ih.2]

/-- The cell number `n + j`. -/
theorem Cells.get {n : Nat} {s0 s : VState K} {vs : List Int} {polys : List (Poly K)}
    {kss : List (List (Int × Int))} (h : Cells tol out d n s0 vs polys kss s) {j : Nat} {v : Int}
    (hj : vs[j]? = some v) :
    ∃ s1 s2 poly a0 t0 p b P ks, polys[j]? = some poly ∧ kss[j]? = some ks ∧
      CellOk tol out d ((n + j : Nat) : Int) v s1 s2 poly a0 t0 p b P ks ∧ Grows s2 s := by
  induction h generalizing j with
  | nil => simp at hj
  | @cons n' _ _ _ _ _ _ _ _ _ _ _ _ _ _ h1 h2 ih =>
    cases j with
    | zero =>
      simp at hj; subst hj
      exact ⟨_, _, _, _, _, _, _, _, _, rfl, rfl, h1, h2.grows⟩
    | succ j =>
      simp at hj
      obtain ⟨s1, s2, poly, a0, t0, p, b, P, ks, g1, g2, g3, g4⟩ := ih hj
      refine ⟨s1, s2, poly, a0, t0, p, b, P, ks, by simpa using g1, by simpa using g2, ?_, g4⟩
      rw [show n' + (j + 1) = n' + 1 + j by omega]
      exact g3

/-- The whole construction. -/
theorem voronoi_ok (hv : ValidOut out) (h : TriCore tol out out.tris d) :
    ∃ s polys kss, voronoi tol d = .ok ⟨s.circ, polys, s.vedges, s.pmap⟩ ∧
      Cells tol out d 0 ⟨d.circumcenters, d.edgeMap, SegMap.empty, PtMap.empty⟩ d.realPoints.list
        polys kss s := by
  have h0 : StOk tol out d ⟨d.circumcenters, d.edgeMap, SegMap.empty, PtMap.empty⟩ :=
    ⟨rfl, h.circ, ⟨[], by simp⟩, by simp, fun _ _ _ h => h⟩
  obtain ⟨s, polys, kss, h1, h2⟩ := cells_ok hv h d.realPoints.list [] h0 (by
    intro v hvm
    rw [h.realList] at hvm
    have := (mem_firsts _ _).1 hvm
    obtain ⟨tt, htt, hvt⟩ := List.mem_flatMap.1 this
    obtain ⟨k, hk⟩ := List.mem_iff_getElem?.1 htt
    exact ⟨k, tt, hk, hvt⟩)
  refine ⟨s, polys, kss, ?_, h2⟩
  unfold voronoi
  rw [h1, Outcome.bind_ok, Outcome.pure_eq]
  simp

/-! ### What the maps contain -/

/-- Keys and values of the Voronoi edge map are valid, for cells below `n`. -/
def VedOk (n : Int) (len : Nat) (m : SegMap) : Prop :=
  ∀ e ∈ m, InR len e.1.p1 ∧ InR len e.1.p2 ∧
    (∃ i, e.2.n1 = some i ∧ 0 ≤ i ∧ i < n) ∧ (e.2.n2 = -1 ∨ (0 ≤ e.2.n2 ∧ e.2.n2 < n))

theorem upsert_all {α β H : Type} [DecidableEq H] {hf : α → H} {eq : α → α → Bool} {Q : α × β → Prop} (dflt : β) (f : β → β)
    (m : List (α × β)) (k : α) (hm : ∀ e ∈ m, Q e) (hk : Q (k, dflt)) (hff : ∀ e ∈ m, Q (e.1, f e.2)) :
    ∀ e ∈ (UMap.upsert hf eq dflt f m k : List (α × β)), Q e := by
  induction m with
  | nil => intro e he; simp [UMap.upsert] at he; subst he; exact hk
  | cons a m ih =>
    intro e he
    rw [UMap.upsert_cons] at he
    split at he
    · rcases List.mem_cons.1 he with rfl | he
      · exact hff a (by simp)
      · exact hm e (by simp [he])
    · rcases List.mem_cons.1 he with rfl | he
      · exact hm _ (by simp)
      · exact ih (fun e he => hm e (by simp [he])) (fun e he => hff e (by simp [he])) e he

theorem VedOk.insert {n : Int} {len : Nat} {m : SegMap} (h : VedOk n len m) {a b c : Int}
    (ha : InR len a) (hb : InR len b) (hc : 0 ≤ c ∧ c < n) :
    VedOk n len (m.insert (ISeg.mk' a b) c) := by
  unfold VedOk SegMap.insert
  have e1 : (ISeg.mk' a b).p1 = a := rfl
  have e2 : (ISeg.mk' a b).p2 = b := rfl
  refine upsert_all (Q := fun e : ISeg × NbSeg => InR len e.1.p1 ∧ InR len e.1.p2 ∧
    (∃ i, e.2.n1 = some i ∧ 0 ≤ i ∧ i < n) ∧ (e.2.n2 = -1 ∨ (0 ≤ e.2.n2 ∧ e.2.n2 < n))) _ _ m _ h ?_ ?_
  · simp only
    rw [e1, e2]
    exact ⟨ha, hb, ⟨c, rfl, hc⟩, Or.inl rfl⟩
  · intro e he
    obtain ⟨h1, h2, h3, _⟩ := h e he
    exact ⟨h1, h2, h3, Or.inr hc⟩

theorem VedOk.segLog {n : Int} {len : Nat} {c : Int} (hc : 0 ≤ c ∧ c < n) :
    ∀ (ks : List (Int × Int)) {m : SegMap}, VedOk n len m → (∀ e ∈ ks, InR len e.1 ∧ InR len e.2) →
      VedOk n len (segLog c m ks) := by
  intro ks
  induction ks with
  | nil => intro m h _; exact h
  | cons k ks ih =>
    intro m h hk
    have := hk k (by simp)
    exact ih (h.insert this.1 this.2 hc) (fun e he => hk e (by simp [he]))

theorem VedOk.mono {n n' : Int} {len len' : Nat} {m : SegMap} (h : VedOk n len m) (hn : n ≤ n')
    (hl : len ≤ len') : VedOk n' len' m := by
  intro e he
  obtain ⟨h1, h2, ⟨i, h3, h4, h5⟩, h6⟩ := h e he
  refine ⟨h1.mono hl, h2.mono hl, ⟨i, h3, h4, by omega⟩, ?_⟩
  rcases h6 with h6 | h6
  · exact Or.inl h6
  · exact Or.inr ⟨h6.1, by omega⟩

theorem Grows.le {s s' : VState K} (h : Grows s s') : s.circ.list.length ≤ s'.circ.list.length := by
  obtain ⟨t, ht⟩ := h
  rw [ht]; simp

theorem Cells.vedOk {n : Nat} {s0 s : VState K} {vs : List Int} {polys : List (Poly K)}
    {kss : List (List (Int × Int))} (h : Cells tol out d n s0 vs polys kss s)
    (h0 : VedOk n s0.circ.list.length s0.vedges) :
    VedOk ((n + vs.length : Nat) : Int) s.circ.list.length s.vedges := by
  induction h with
  | nil => simpa using h0
  | @cons n s0 s1 s2 v vs poly polys a0 t0 p b P ks kss h1 h2 ih =>
    have := ih (by
      rw [h1.ved]
      refine VedOk.segLog (by omega) ks (h0.mono (by omega) h1.grow.le) ?_
      intro e he
      obtain ⟨k1, k2⟩ := h1.kmem e he
      exact ⟨h1.inR _ k1, h1.inR _ k2⟩)
    simpa [Nat.add_comm, Nat.add_left_comm] using this

/-- Values of the point map are valid cells. -/
def PtOk (n : Int) (m : PtMap K) : Prop := ∀ e ∈ m, ∀ i ∈ e.2, 0 ≤ i ∧ i < n

theorem smap_upsert_all {T V : Type} {lt : T → T → Bool} {Q : V → Prop} (dflt : V) (f : V → V)
    (m : List (T × V)) (k : T) (hm : ∀ e ∈ m, Q e.2) (hd : Q (f dflt)) (hff : ∀ x, Q x → Q (f x)) :
    ∀ e ∈ SMap.upsert lt dflt f m k, Q e.2 := by
  induction m with
  | nil => intro e he; simp [SMap.upsert] at he; subst he; exact hd
  | cons a m ih =>
    intro e he
    unfold SMap.upsert at he
    split at he
    · rcases List.mem_cons.1 he with rfl | he
      · exact hm _ (by simp)
      · exact ih (fun e he => hm e (by simp [he])) e he
    · split at he
      · rcases List.mem_cons.1 he with rfl | he
        · exact hd
        · exact hm e he
      · rcases List.mem_cons.1 he with rfl | he
        · exact hff _ (hm a (by simp))
        · exact hm e (by simp [he])

theorem PtOk.insert {n : Int} {m : PtMap K} (h : PtOk n m) (q : Pt K) {c : Int} (hc : 0 ≤ c ∧ c < n) :
    PtOk n (m.insert tol q c) := by
  unfold PtOk PtMap.insert
  split
  · intro e he
    rcases SMap.mem_insert _ _ _ e he with rfl | he
    · intro i hi; simp at hi; subst hi; exact hc
    · exact h e he
  · refine smap_upsert_all (Q := fun l : List Int => ∀ i ∈ l, 0 ≤ i ∧ i < n) _ _ m _ h ?_ ?_
    · intro i hi; simp at hi; subst hi; exact hc
    · intro x hx i hi
      rcases List.mem_append.1 hi with hi | hi
      · exact hx i hi
      · simp at hi; subst hi; exact hc

theorem PtOk.ptLog {n c : Int} (hc : 0 ≤ c ∧ c < n) : ∀ (qs : List (Pt K)) {m : PtMap K},
    PtOk n m → PtOk n (ptLog tol c m qs) := by
  intro qs
  induction qs with
  | nil => intro m h; exact h
  | cons q qs ih => intro m h; exact ih (h.insert q hc)

theorem Cells.ptOk {n : Nat} {s0 s : VState K} {vs : List Int} {polys : List (Poly K)}
    {kss : List (List (Int × Int))} (h : Cells tol out d n s0 vs polys kss s)
    (h0 : PtOk n s0.pmap) : PtOk ((n + vs.length : Nat) : Int) s.pmap := by
  induction h with
  | nil => simpa using h0
  | @cons n s0 s1 s2 v vs poly polys a0 t0 p b P ks kss h1 h2 ih =>
    have := ih (by
      obtain ⟨qs, hq, _⟩ := h1.pts
      rw [hq]
      refine PtOk.ptLog (by omega) qs ?_
      intro e he i hi
      have := h0 e he i hi
      omega)
    simpa [Nat.add_comm, Nat.add_left_comm] using this

end
end Delynoi
