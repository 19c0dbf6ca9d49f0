import Verif.Proofs.Flags
import Verif.Props.Voronoi
import Verif.Props.DelaunayMesh
import Verif.Props.Triangle
import Verif.Props.VoronoiMaps
/-!
# Property C96: boundary flags of the points of a mesh
-/
set_option linter.unusedSectionVars false
namespace Delynoi
variable {K : Type} [Field K] [LinearOrder K] [IsStrictOrderedRing K]

theorem boundaryEdge_of_incident {tris : List (Int × Int × Int)} {v a t : Int}
    (h : incident tris s(v, a) = [t]) : BoundaryEdge tris v a := by
  have hm : ∀ (u : Nat) uu, tris[u]? = some uu → s(v, a) ∈ sides uu → (u : Int) = t := by
    intro u uu h1 h2
    have : (u : Int) ∈ incident tris s(v, a) := by
      unfold incident
      rw [List.mem_map]
      refine ⟨(uu, u), List.mem_filter.2 ⟨?_, by simpa using h2⟩, rfl⟩
      rw [List.mem_zipIdx_iff_getElem?]; exact h1
    rw [h] at this
    simpa using this
  have ht : t ∈ incident tris s(v, a) := by rw [h]; simp
  unfold incident at ht
  obtain ⟨⟨tt, k⟩, hk, rfl⟩ := List.mem_map.1 ht
  obtain ⟨h1, h2⟩ := List.mem_filter.1 hk
  rw [List.mem_zipIdx_iff_getElem?] at h1
  refine ⟨k, ⟨tt, h1, by simpa using h2⟩, fun u uu h3 h4 => ?_⟩
  exact_mod_cast hm u uu h3 h4

theorem Cells.st {tol : K} {out : TriOut K} {d : DelInfo K} {n : Nat} {s0 s : VState K} {vs : List Int}
    {polys : List (Poly K)} {kss : List (List (Int × Int))} (h : Cells tol out d n s0 vs polys kss s)
    (h0 : StOk tol out d s0) : StOk tol out d s := by
  induction h with
  | nil => exact h0
  | cons h1 _ ih => exact ih h1.st

/-- The flags of a Voronoi mesh and the point list of the mesh. -/
theorem flags_split (tol : K) {out : TriOut K} (hv : ValidOut out) {d : DelInfo K}
    (hd : DelInfo.importOut tol DelInfo.empty out = .ok d) {m : Mesh K (Poly K)} {fl : List Bool}
    (hm : voronoiF tol d = .ok (m, fl)) :
    voronoi tol d = .ok m ∧ StOk tol out d ⟨m.points, d.edgeMap, m.edges, m.pointMap⟩ ∧
    fl = List.replicate d.circumcenters.list.length false ++
      List.replicate (m.points.list.length - d.circumcenters.list.length) true := by
  rw [voronoiF_eq] at hm
  cases h : voronoi tol d with
  | exn => rw [h] at hm; cases hm
  | ub => rw [h] at hm; cases hm
  | ok m' =>
    rw [h, Outcome.bind_ok, Outcome.pure_eq] at hm
    obtain ⟨rfl, rfl⟩ := Prod.mk.inj (Outcome.ok.inj hm)
    have hi := (imported_of tol hv hd).core
    obtain ⟨s, kss, hme, hc⟩ := cells_of tol hv hd h
    have hs := hc.st ⟨rfl, hi.circ, ⟨[], by simp⟩, by simp, fun _ _ _ h => h⟩
    refine ⟨rfl, ?_, rfl⟩
    rw [hme]
    exact ⟨rfl, hs.dec, hs.pre, hs.bd, hs.inv⟩

/-- C96: setting flags does not change the mesh: for every imported triangulation the flagged
construction ends exactly when the other one does, with the same mesh, and every point of the mesh
has one flag. -/
theorem C96_same_mesh (tol : K) (out : TriOut K) (hv : ValidOut out)
    (d : DelInfo K) (hd : DelInfo.importOut tol DelInfo.empty out = .ok d) :
    ∃ m fl, voronoi tol d = .ok m ∧ voronoiF tol d = .ok (m, fl) ∧ fl.length = m.points.list.length := by
  obtain ⟨s, polys, kss, h1, _⟩ := voronoi_ok hv (imported_of tol hv hd).core
  have hF : voronoiF tol d = _ := voronoiF_eq tol d
  rw [h1, Outcome.bind_ok, Outcome.pure_eq] at hF
  refine ⟨_, _, h1, hF, ?_⟩
  obtain ⟨_, hs, _⟩ := flags_split tol hv hd hF
  have := hs.len
  simp only at this
  rw [List.length_append, List.length_replicate, List.length_replicate]
  simp only
  omega

/-- C96: a flagged point of the Voronoi mesh is exactly the middle or an end of an edge of the
boundary; a point without flag is exactly the circumcenter of a triangle. -/
theorem C96_flag_sound (tol : K) (out : TriOut K) (hv : ValidOut out)
    (d : DelInfo K) (hd : DelInfo.importOut tol DelInfo.empty out = .ok d) (m : Mesh K (Poly K))
    (fl : List Bool) (hm : voronoiF tol d = .ok (m, fl)) (k : Nat) (q : Pt K)
    (hq : m.points.list[k]? = some q) :
    (fl[k]? = some true ∧ OnBoundaryEdge out q) ∨ (fl[k]? = some false ∧ IsCenterOf out q) := by
  obtain ⟨_, hs, hfl⟩ := flags_split tol hv hd hm
  obtain ⟨tail, htail⟩ := hs.pre
  have hlen := hs.len
  simp only at htail hlen
  have hk := (List.getElem?_eq_some_iff.1 hq).1
  by_cases hlt : k < d.circumcenters.list.length
  · refine Or.inr ⟨?_, ?_⟩
    · rw [hfl, List.getElem?_append_left (by simpa using hlt), List.getElem?_replicate, if_pos hlt]
    · rw [htail, List.getElem?_append_left hlt] at hq
      obtain ⟨t, ht, a, b, c, h1, h2, h3, h4⟩ :=
        (imported_of tol hv hd).core.cen q (List.mem_of_getElem? hq)
      have hturn : turn a b c ≠ 0 := (C37_defined_iff a b c).1 (by rw [h4]; rfl)
      obtain ⟨e1, e2⟩ := (C37_circumcenter a b c q hturn).1 h4
      exact ⟨t, ht, a, b, c, h1, h2, h3, hturn, e1, e2⟩
  · refine Or.inl ⟨?_, ?_⟩
    · rw [hfl, List.getElem?_append_right (by simpa using hlt), List.getElem?_replicate, if_pos]
      simp only [List.length_replicate]
      omega
    · have hmem : q ∈ m.points.list.drop d.circumcenters.list.length := by
        rw [List.mem_iff_getElem?]
        refine ⟨k - d.circumcenters.list.length, ?_⟩
        rw [List.getElem?_drop, show d.circumcenters.list.length + (k - d.circumcenters.list.length) = k by omega]
        exact hq
      obtain ⟨v, a, t, pv, pa, h1, h2, h3, h4⟩ := hs.bd q hmem
      exact ⟨v, a, pv, pa, boundaryEdge_of_incident h1, h2, h3, h4⟩

/-- A side at `v` that only one triangle of a fan around `v` has is the first or the last. -/
theorem isFan_end {tris : List (Int × Int × Int)} (hp : ProperTris tris) {v a : Int} {t : Nat}
    (hu : ∀ u, HasSide tris v a u → u = t) : ∀ {ns : List Int} {ts : List Nat},
    IsFan tris v ns ts → ts.Nodup → t ∈ ts → HasSide tris v a t →
    (ns.head? = some a ∨ ns.getLast? = some a) ∧ ¬ (ns.head? = some a ∧ ns.getLast? = some a) := by
  intro ns ts
  induction ts generalizing ns with
  | nil => intro _ _ h; simp at h
  | cons t1 ts ih =>
    intro hF hn hmem hside
    match ns, hF with
    | x :: y :: ns', hF =>
      have h3 : Fan3 tris v x y t1 := hF.1
      have hF' : IsFan tris v (y :: ns') ts := hF.2
      have hxy : x ≠ y := h3.2.2.1
      obtain ⟨hn1, hn2⟩ := List.nodup_cons.1 hn
      have hlast : (x :: y :: ns').getLast? = (y :: ns').getLast? := by simp
      rw [hlast, List.head?_cons]
      rcases List.mem_cons.1 hmem with rfl | hmem
      · rcases (h3.side hp a).1 hside with rfl | rfl
        · refine ⟨Or.inl rfl, ?_⟩
          rintro ⟨-, hl⟩
          -- the last triangle would have the side, too
          by_cases hts : ts = []
          · subst hts
            match ns', hF' with
            | [], _ => simp at hl; exact hxy hl.symm
          · have : ∀ {ns : List Int} {ts : List Nat}, IsFan tris v ns ts → ts ≠ [] →
                ns.getLast? = some a → ∃ u ∈ ts, HasSide tris v a u := by
              intro ns ts
              induction ts generalizing ns with
              | nil => intro _ h; exact absurd rfl h
              | cons u us ih2 =>
                intro hG _ hgl
                match ns, hG with
                | z :: w :: nn, hG =>
                  by_cases hus : us = []
                  · subst hus
                    match nn, hG.2 with
                    | [], _ =>
                      simp at hgl; subst hgl
                      exact ⟨u, by simp, (hG.1.side hp w).2 (Or.inr rfl)⟩
                  · obtain ⟨r, hr, hr2⟩ := ih2 hG.2 hus (by simpa using hgl)
                    exact ⟨r, by simp [hr], hr2⟩
            obtain ⟨r, hr, hr2⟩ := this hF' hts hl
            rw [hu r hr2] at hr
            exact hn1 hr
        · match ts, ns', hF' with
          | [], [], _ => exact ⟨Or.inr (by simp), by rintro ⟨h, -⟩; exact hxy (Option.some.inj h)⟩
          | t2 :: ts, z :: nn, hF' =>
            have : HasSide tris v a t2 := (hF'.1.side hp a).2 (Or.inl rfl)
            have := hu t2 this
            subst this
            exact absurd (by simp) hn1
      · have hxa : x ≠ a := by
          rintro rfl
          have := hu t1 ((h3.side hp x).2 (Or.inl rfl))
          subst this
          exact hn1 hmem
        obtain ⟨h4, h5⟩ := ih hF' hn2 hmem hside
        refine ⟨Or.inr ?_, by rintro ⟨h, -⟩; exact hxa (Option.some.inj h)⟩
        rcases h4 with h4 | h4
        · rw [List.head?_cons] at h4
          have hya : y = a := Option.some.inj h4
          subst hya
          have := hu t1 ((h3.side hp y).2 (Or.inr rfl))
          subst this
          exact absurd hmem hn1
        · exact h4

/-- C96 (partial): the middle of every edge of the boundary is a point of the mesh (up to the
tolerance), and that point has the flag unless it is the circumcenter of a triangle.  Missing: a
circumcenter that lies on the boundary keeps `false` (`C96_complete_refuted`). -/
theorem C96_complete_partial (tol : K) (ht : 0 < tol) (out : TriOut K) (hv : ValidOut out)
    (hmk : MarkersOk out) (d : DelInfo K) (hd : DelInfo.importOut tol DelInfo.empty out = .ok d)
    (m : Mesh K (Poly K)) (fl : List Bool) (hm : voronoiF tol d = .ok (m, fl)) (v a : Int)
    (pv pa : Pt K) (hb : BoundaryEdge out.tris v a) (hone : OneFan out.tris v)
    (hpv : vecGet out.points v = .ok pv) (hpa : vecGet out.points a = .ok pa) :
    ∃ (k : Nat) (q : Pt K), m.points.list[k]? = some q ∧
      Close tol q ⟨(pv.x + pa.x) / 2, (pv.y + pa.y) / 2⟩ ∧ (fl[k]? = some true ∨ IsCenterOf out q) := by
  have hp := properTris_of_valid hv
  obtain ⟨t, hside, huniq⟩ := hb
  have huniq' : ∀ u, HasSide out.tris v a u → u = t := fun u ⟨uu, h1, h2⟩ => huniq u uu h1 h2
  have huse : UsesVertex out.tris v t := by
    obtain ⟨tt, h1, h2⟩ := hside
    exact ⟨tt, h1, ((mem_sides_iff (hp tt (List.mem_of_getElem? h1)) v a).1 h2).1⟩
  have hvm : v ∈ firsts (out.tris.flatMap verts) := by
    rw [mem_firsts]
    obtain ⟨tt, h1, h2⟩ := huse
    exact List.mem_flatMap.2 ⟨tt, List.mem_of_getElem? h1, h2⟩
  obtain ⟨j, hj⟩ := List.mem_iff_getElem?.1 hvm
  have hvor := (flags_split tol hv hd hm).1
  obtain ⟨poly, ns, ts, idx, _, hF, _, hnd, _, hall, hci, _⟩ :=
    C70_cell tol ht out hv hmk d hd m hvor j v hj
  obtain ⟨hend, hnot⟩ := isFan_end hp huniq' hF hnd (hall hone t huse) hside
  -- an index that denotes the middle will do
  have fin : ∀ i, DenotesMid tol out m.points.list v a i → ∃ (k : Nat) (q : Pt K),
      m.points.list[k]? = some q ∧ Close tol q ⟨(pv.x + pa.x) / 2, (pv.y + pa.y) / 2⟩ ∧
      (fl[k]? = some true ∨ IsCenterOf out q) := by
    rintro i ⟨pv', pa', h1, h2, y, h3, h4⟩
    rw [hpv] at h1; obtain rfl := Outcome.ok.inj h1
    rw [hpa] at h2; obtain rfl := Outcome.ok.inj h2
    obtain ⟨_, h5⟩ := vecGet_ok_iff.1 h3
    refine ⟨_, y, h5, h4, ?_⟩
    rcases C96_flag_sound tol out hv d hd m fl hm _ y h5 with h | h
    · exact Or.inl h.1
    · exact Or.inr h.2
  cases hci with
  | inner cs c hhl _ _ =>
    exfalso
    rcases hend with h | h
    · exact hnot ⟨h, by rw [← hhl]; exact h⟩
    · exact hnot ⟨by rw [hhl]; exact h, h⟩
  | flat a' b' i mm e cs qf ql p h1 h2 _ _ h5 _ h7 =>
    rcases hend with h | h
    · rw [h1] at h; obtain rfl := Option.some.inj h; exact fin i h5
    · rw [h2] at h; obtain rfl := Option.some.inj h; exact fin mm h7
  | corner a' b' i mm e r cs qf ql p h1 h2 _ _ h5 _ h7 =>
    rcases hend with h | h
    · rw [h1] at h; obtain rfl := Option.some.inj h; exact fin i h5
    · rw [h2] at h; obtain rfl := Option.some.inj h; exact fin mm h7

/-- A right triangle: the circumcenter is the middle of the longest side. -/
def rightOut : TriOut ℚ :=
  ⟨[⟨0, 0⟩, ⟨2, 0⟩, ⟨0, 2⟩], [(0, 1, 1), (1, 2, 1), (2, 0, 1)], [(0, 1, 2)]⟩

theorem rightOut_valid : ValidOut rightOut := by
  refine ⟨by decide +kernel, by decide +kernel, ?_, by decide +kernel, by decide +kernel, by decide +kernel⟩
  intro t ht
  simp only [rightOut, List.mem_cons, List.not_mem_nil, or_false] at ht
  subst ht
  exact ⟨⟨0, 0⟩, ⟨2, 0⟩, ⟨0, 2⟩, rfl, rfl, rfl, by decide +kernel⟩

/-- C96 (refuted): not every point of a Voronoi mesh that lies on the boundary has the flag, not even
if it is the middle of an edge of the boundary. -/
theorem C96_complete_refuted : ¬ ∀ (tol : ℚ) (out : TriOut ℚ), 0 < tol → ValidOut out → MarkersOk out →
    ∀ d m fl, DelInfo.importOut tol DelInfo.empty out = .ok d → voronoiF tol d = .ok (m, fl) →
    ∀ (k : Nat) q, m.points.list[k]? = some q → OnBoundaryEdge out q → fl[k]? = some true := by
  intro h
  have key : (match DelInfo.importOut (1/100000 : ℚ) DelInfo.empty rightOut with
    | .ok d => (match voronoiF (1/100000 : ℚ) d with
      | .ok (m, fl) => decide (m.points.list[0]? = some ⟨1, 1⟩ ∧ fl[0]? = some false)
      | _ => false)
    | _ => false) = true := by decide +kernel
  split at key
  · rename_i d hd
    split at key
    · rename_i m fl hm
      obtain ⟨k1, k2⟩ := of_decide_eq_true key
      have := h (1/100000) rightOut (by norm_num) rightOut_valid (by unfold MarkersOk; decide +kernel) d m fl hd hm 0 ⟨1, 1⟩ k1
        ⟨1, 2, ⟨2, 0⟩, ⟨0, 2⟩, boundaryEdge_of_incident (t := 0) (by decide +kernel), rfl, rfl,
          Or.inl (by decide +kernel)⟩
      rw [k2] at this
      cases this
    · cases key
  · cases key

/-- The hypotheses of the theorems above are met by the sample triangulation, and the flags there are
not all equal. -/
example : (match DelInfo.importOut (1/100000 : ℚ) DelInfo.empty sampleOut with
    | .ok d => (match voronoiF (1/100000 : ℚ) d with
      | .ok (_, fl) => decide (true ∈ fl ∧ false ∈ fl)
      | _ => false)
    | _ => false) = true ∧ ValidOut sampleOut ∧ MarkersOk sampleOut ∧ OneFan sampleOut.tris 0 ∧
    BoundaryEdge sampleOut.tris 0 1 :=
  ⟨by decide +kernel, sampleOut_valid, sampleOut_markers, sampleOut_oneFan_0,
    boundaryEdge_of_incident (t := 0) (by decide +kernel)⟩

theorem pushListFlagged_fresh (tol : K) {S : Set (Pt K)}
    (hw : SWO (fun a b : Pt K => a.ltTol tol b) S) : ∀ (xs : List (Pt K × Bool)) {u : UList (Pt K)}
    (fl : List Bool), UList.Inv (fun a b : Pt K => a.ltTol tol b) S u → (∀ x ∈ xs, x.1 ∈ S) →
    NoDup (fun a b : Pt K => a.ltTol tol b) (u.list ++ xs.map Prod.fst) →
    (pushListFlagged tol u fl xs).1.list = u.list ++ xs.map Prod.fst ∧
    (pushListFlagged tol u fl xs).2 = fl ++ xs.map Prod.snd := by
  intro xs
  induction xs with
  | nil => intro u fl _ _ _; simp [pushListFlagged]
  | cons x xs ih =>
    intro u fl hi hS hn
    have hx : x.1 ∈ S := hS x (by simp)
    have hne : ∀ y ∈ u.list, ¬ Equiv' (fun a b : Pt K => a.ltTol tol b) y x.1 := by
      intro y hy
      unfold NoDup at hn
      exact (List.pairwise_append.1 hn).2.2 y hy x.1 (by simp)
    have hl : (u.pushBack (fun a b : Pt K => a.ltTol tol b) x.1).1.list = u.list ++ [x.1] := by
      rw [UList.pushBack_list hw hi hx]
      unfold specPush
      rw [if_neg]
      rintro ⟨y, hy, he⟩
      exact hne y hy he
    have hinv := UList.inv_pushBack hw hi hx
    unfold pushListFlagged pushFlagged
    simp only
    rw [if_neg (by rw [hl]; simp)]
    obtain ⟨h1, h2⟩ := ih (fl ++ [x.2]) hinv (fun y hy => hS y (by simp [hy])) (by
      rw [hl]; simpa using hn)
    rw [h1, h2, hl]
    simp

/-- C96: in the mesh of the triangulation itself the flags are those the triangulator reports:
exactly the points with marker 1 are flagged, for points that the tolerance tells apart. -/
theorem C96_delaunay_flags (tol : K) (h : 0 < tol) (pts : List (Pt K)) (markers : List Int)
    (hlen : markers.length = pts.length) (hS : TolSeparated tol {p | p ∈ pts})
    (hp : pts.Pairwise (fun a b => ¬ Close tol a b)) :
    (delaunayFlags tol pts markers).1.list = pts ∧
    ∀ (k : Nat) (mk : Int), markers[k]? = some mk →
      ((delaunayFlags tol pts markers).2[k]? = some true ↔ mk = 1) ∧
      ((delaunayFlags tol pts markers).2[k]? = some false ↔ mk ≠ 1) := by
  have hw := C09_swo_of_separated tol h _ hS
  have hml : (meshFlags markers).length = pts.length := by simp [meshFlags, hlen]
  obtain ⟨h1, h2⟩ := pushListFlagged_fresh tol hw (pts.zip (meshFlags markers)) (u := UList.empty) []
    UList.inv_empty (fun x hx => (List.of_mem_zip hx).1) (by
      rw [List.map_fst_zip (by omega)]
      show NoDup _ ([] ++ pts)
      rw [List.nil_append]
      exact hp.imp (fun hab he => hab ((equiv_iff_close tol h _ _).1 he)))
  rw [List.map_fst_zip (by omega)] at h1
  rw [List.map_snd_zip (by omega)] at h2
  have e1 : (delaunayFlags tol pts markers).1.list = pts := h1
  have e2 : (delaunayFlags tol pts markers).2 = meshFlags markers := h2
  refine ⟨e1, fun k mk hk => ?_⟩
  rw [e2]
  have : (meshFlags markers)[k]? = some (decide (mk = 1)) := by
    unfold meshFlags; rw [List.getElem?_map, hk]; rfl
  rw [this]
  by_cases hmk : mk = 1 <;> simp [hmk]

/-- C96: with points the tolerance cannot tell apart the flags shift: the flag of a merged point is
lost and the mesh point keeps the flag of the first. -/
theorem C96_delaunay_merged : (delaunayFlags (1/100000 : ℚ) [⟨0, 0⟩, ⟨0, 1/1000000⟩, ⟨5, 0⟩] [0, 1, 1]).2
    = [false, true] := by decide +kernel

example : (sampleOut.points.length = 5) ∧ TolSeparated (1/100000 : ℚ) {p | p ∈ sampleOut.points} ∧
    sampleOut.points.Pairwise (fun a b => ¬ Close (1/100000) a b) :=
  ⟨rfl, sampleOut_separated, by decide +kernel⟩

end Delynoi
