import Verif.Proofs.Tiling
/-!
Helper lemmas: cells of a mesh in which the tolerance merges nothing.
-/
set_option linter.unusedSectionVars false
namespace Delynoi
variable {K : Type} [Field K] [LinearOrder K] [IsStrictOrderedRing K]

/-- What the points of the mesh are, and that no point is listed twice. -/
theorem mesh_points {tol : K} (ht : 0 < tol) {out : TriOut K} (hv : ValidOut out) (hS : MergesNothing tol out)
    {d : DelInfo K} (hd : DelInfo.importOut tol DelInfo.empty out = .ok d) {m : Mesh K (Poly K)}
    (hm : voronoi tol d = .ok m) :
    (∀ q ∈ m.points.list, Feature out q) ∧
    (∀ i j q, vecGet m.points.list i = .ok q → vecGet m.points.list j = .ok q → i = j) := by
  obtain ⟨m', fl, h1, h2, h3⟩ := C96_same_mesh tol out hv d hd
  rw [hm] at h1; obtain rfl := Outcome.ok.inj h1
  have hfeat : ∀ q ∈ m.points.list, Feature out q := by
    intro q hq
    obtain ⟨k, hk⟩ := List.mem_iff_getElem?.1 hq
    rcases C96_flag_sound tol out hv d hd m fl h2 k q hk with ⟨_, h⟩ | ⟨_, h⟩
    · exact Or.inr h
    · exact Or.inl h
  refine ⟨hfeat, ?_⟩
  obtain ⟨_, hst, _⟩ := flags_split tol hv hd h2
  have hswo := C09_swo_of_separated tol ht _ hS.separated
  have hinv := hst.inv {q | Feature out q} hswo (by
    rintro q ⟨v, a, t, pv, pa, g1, g2, g3, g4⟩
    exact Or.inr ⟨v, a, pv, pa, boundaryEdge_of_incident g1, g2, g3, g4⟩)
    ((imported_of tol hv hd).core.cinv _ hswo (by
      intro t htm a b c q g1 g2 g3 g4
      have hturn : turn a b c ≠ 0 := (C37_defined_iff a b c).1 (by rw [g4]; rfl)
      obtain ⟨e1, e2⟩ := (C37_circumcenter a b c q hturn).1 g4
      exact Or.inl ⟨t, htm, a, b, c, g1, g2, g3, hturn, e1, e2⟩))
  have hnd := hinv.nodup hswo
  simp only at hnd
  unfold NoDup at hnd
  rw [List.pairwise_iff_getElem] at hnd
  have key : ∀ (i j : Nat) (q : Pt K), i < j → m.points.list[i]? = some q → m.points.list[j]? = some q → False := by
    intro i j q hij hi hj
    obtain ⟨l1, e1⟩ := List.getElem?_eq_some_iff.1 hi
    obtain ⟨l2, e2⟩ := List.getElem?_eq_some_iff.1 hj
    apply hnd i j l1 l2 hij
    rw [e1, e2]
    have := hswo.irrefl q (hfeat q (List.mem_of_getElem? hi))
    exact ⟨this, this⟩
  intro i j q hi hj
  rw [vecGet_ok_iff] at hi hj
  obtain ⟨a1, a2⟩ := hi
  obtain ⟨b1, b2⟩ := hj
  rcases Nat.lt_trichotomy i.toNat j.toNat with h | h | h
  · exact (key _ _ q h a2 b2).elim
  · omega
  · exact (key _ _ q h b2 a2).elim

/-- An index that denotes a feature up to the tolerance denotes it exactly. -/
theorem denotes_exact {tol : K} {out : TriOut K} (hS : MergesNothing tol out) {l : List (Pt K)}
    (hl : ∀ q ∈ l, Feature out q) {i : Int} {q : Pt K} (hq : Feature out q) (h : Denotes tol l i q) :
    vecGet l i = .ok q := by
  obtain ⟨y, h1, h2⟩ := h
  have hy : y ∈ l := by
    rw [vecGet_ok_iff] at h1
    exact List.mem_of_getElem? h1.2
  rw [← hS.eq y q (hl y hy) hq h2]
  exact h1

theorem center_exact {tol : K} {out : TriOut K} (hv : ValidOut out) (hS : MergesNothing tol out) {l : List (Pt K)}
    (hl : ∀ q ∈ l, Feature out q) {t : Nat} {i : Int} (h : DenotesCenter tol out l t i) :
    vecGet l i = .ok (cenOf out t) := by
  obtain ⟨tt, a, b, c, q, h1, h2, h3, h4, h5, h6, h7⟩ := h
  obtain ⟨-, -, hu⟩ := cenOf_spec hv h1 h2 h3 h4
  rw [← hu q h5 h6]
  obtain ⟨a', b', c', g1, g2, g3, hturn⟩ := hv.triProper tt (List.mem_of_getElem? h1)
  rw [h2] at g1; obtain rfl := Outcome.ok.inj g1
  rw [h3] at g2; obtain rfl := Outcome.ok.inj g2
  rw [h4] at g3; obtain rfl := Outcome.ok.inj g3
  exact denotes_exact hS hl (Or.inl ⟨tt, List.mem_of_getElem? h1, a, b, c, h2, h3, h4, hturn, h5, h6⟩) h7

theorem mid_exact {tol : K} {out : TriOut K} (hS : MergesNothing tol out) {l : List (Pt K)}
    (hl : ∀ q ∈ l, Feature out q) {v a i : Int} (hb : BoundaryEdge out.tris v a)
    (h : DenotesMid tol out l v a i) :
    ∃ q, vecGet l i = .ok q ∧
      relTo (ptOf out.points v) q = half (relTo (ptOf out.points v) (ptOf out.points a)) := by
  obtain ⟨pv, pa, h1, h2, h3⟩ := h
  refine ⟨_, denotes_exact hS hl (Or.inr ⟨v, a, pv, pa, hb, h1, h2, Or.inl rfl⟩) h3, ?_⟩
  rw [half_relTo, ptOf_ok h1, ptOf_ok h2]

/-- Position `s` of the path `idx` is the point `z`, relative to `pv`. -/
def At (l : List (Pt K)) (pv : Pt K) (idx : List Int) (s : Nat) (z : Pt K) : Prop :=
  ∃ u q, idx[s]? = some u ∧ vecGet l u = .ok q ∧ relTo pv q = z

/-- The path around a cell as exact points. -/
theorem cell_exact {tol : K} {out : TriOut K} (hv : ValidOut out) (hC : Conforming out)
    (hS : MergesNothing tol out) {l : List (Pt K)} (hl : ∀ q ∈ l, Feature out q) {v : Int} {ns : List Int}
    {ts : List Nat} {idx : List Int} (hF : IsFan out.tris v ns ts) (hn : ts.Nodup) (hne : ts ≠ [])
    (hci : CellIdx tol out l v ns ts idx) :
    (fanA out v ns 0 = fanA out v ns ts.length ∧ ns.head? = ns.getLast? ∧ idx.length = ts.length + 1 ∧
      (∃ c, idx.head? = some c ∧ idx.getLast? = some c) ∧
      ∀ s ≤ ts.length, At l (ptOf out.points v) idx s (zc ts.length (fanX out v ts) s)) ∨
    (fanA out v ns 0 ≠ fanA out v ns ts.length ∧ ns.head? ≠ ns.getLast? ∧
      BoundaryEdge out.tris v (ns.getD 0 0) ∧ BoundaryEdge out.tris v (ns.getD ts.length 0) ∧
      (∀ j ≤ ts.length, 0 ≤ pw (half (fanA out v ns 0)) (fanA out v ns j)) ∧
      (∀ j ≤ ts.length, 0 ≤ pw (half (fanA out v ns ts.length)) (fanA out v ns j)) ∧
      (∀ s < idx.length, At l (ptOf out.points v) idx s (zo ts.length (fanA out v ns) (fanX out v ts) s)) ∧
      ((idx.length = ts.length + 2 ∧ ∃ i e qf ql, idx.head? = some i ∧ (firsts idx).getLast? = some e ∧
        vecGet l i = .ok qf ∧ vecGet l e = .ok ql ∧ |turn qf (ptOf out.points v) ql| < tol) ∨
       idx.length = ts.length + 3)) := by
  obtain ⟨hlen, hg⟩ := isFan_get hF
  have hpos : 0 < ts.length := List.length_pos_of_ne_nil hne
  have hhead : ns.head? = some (ns.getD 0 0) := by
    rw [List.head?_eq_getElem?, List.getElem?_eq_getElem (by omega), List.getD_eq_getElem _ _ (by omega)]
  have hlast : ns.getLast? = some (ns.getD ts.length 0) := by
    rw [List.getLast?_eq_getElem?, hlen, Nat.add_sub_cancel, List.getElem?_eq_getElem (by omega),
      List.getD_eq_getElem _ _ (by omega)]
  have hcen : ∀ cs, List.Forall₂ (DenotesCenter tol out l) ts cs → cs.length = ts.length ∧
      ∀ s < ts.length, At l (ptOf out.points v) cs s (fanX out v ts s) := by
    intro cs hf
    refine ⟨hf.length_eq.symm, fun s hs => ?_⟩
    have hs' : s < cs.length := by rw [← hf.length_eq]; exact hs
    have h := List.Forall₂.get hf hs hs'
    simp only [List.get_eq_getElem] at h
    refine ⟨cs[s], _, List.getElem?_eq_getElem hs', center_exact hv hS hl h, ?_⟩
    unfold fanX
    rw [List.getD_eq_getElem _ _ hs]
  -- the case of a boundary point
  have hbd : ∀ (a b i m : Int) (cs : List Int), ns.head? = some a → ns.getLast? = some b →
      BoundaryEdge out.tris v a → BoundaryEdge out.tris v b → DenotesMid tol out l v a i →
      List.Forall₂ (DenotesCenter tol out l) ts cs → DenotesMid tol out l v b m →
      fanA out v ns 0 ≠ fanA out v ns ts.length ∧ ns.head? ≠ ns.getLast? ∧
      BoundaryEdge out.tris v (ns.getD 0 0) ∧ BoundaryEdge out.tris v (ns.getD ts.length 0) ∧
      (∀ j ≤ ts.length, 0 ≤ pw (half (fanA out v ns 0)) (fanA out v ns j)) ∧
      (∀ j ≤ ts.length, 0 ≤ pw (half (fanA out v ns ts.length)) (fanA out v ns j)) ∧
      (i :: cs ++ [m]).length = ts.length + 2 ∧
      (∀ s < ts.length + 2,
        At l (ptOf out.points v) (i :: cs ++ [m]) s (zo ts.length (fanA out v ns) (fanX out v ts) s)) := by
    intro a b i m cs h1 h2 h3 h4 h5 h6 h7
    rw [hhead] at h1
    rw [hlast] at h2
    obtain rfl := Option.some.inj h1
    obtain rfl := Option.some.inj h2
    have hsite : ∀ j ≤ ts.length, SiteAt out (ns.getD j 0) (ptOf out.points (ns.getD j 0)) := by
      intro j hj
      rcases Nat.lt_or_ge j ts.length with hlt | hge
      · obtain ⟨tt, g1, g2, g3, _⟩ := fan_tri (hg j hlt)
        exact site_of_tri hv g1 g3
      · obtain ⟨tt, g1, g2, _, g4⟩ := fan_tri (hg (ts.length - 1) (by omega))
        rw [show ts.length - 1 + 1 = j by omega] at g4
        exact site_of_tri hv g1 g4
    have hsv : SiteAt out v (ptOf out.points v) := by
      obtain ⟨tt, g1, g2, _, _⟩ := fan_tri (hg 0 hpos)
      exact site_of_tri hv g1 g2
    have hne' : ns.getD 0 0 ≠ ns.getD ts.length 0 := by
      intro he
      obtain ⟨t, _, hu⟩ := h3
      have hp := properTris_of_valid hv
      obtain ⟨n1, n2, n3, tt, g1, g2⟩ := hg 0 hpos
      obtain ⟨o1, o2, o3, tt', k1, k2⟩ := hg (ts.length - 1) (by omega)
      rw [show ts.length - 1 + 1 = ts.length by omega, ← he] at k2 o2 o3
      have u1 := hu _ tt g1 ((mem_sides_iff (hp tt (List.mem_of_getElem? g1)) _ _).2
        ⟨(g2 _).2 (Or.inl rfl), (g2 _).2 (Or.inr (Or.inl rfl)), n1⟩)
      have u2 := hu _ tt' k1 ((mem_sides_iff (hp tt' (List.mem_of_getElem? k1)) _ _).2
        ⟨(k2 _).2 (Or.inl rfl), (k2 _).2 (Or.inr (Or.inr rfl)), o2⟩)
      rw [← u2, List.getD_eq_getElem _ _ hpos, List.getD_eq_getElem _ _ (by omega)] at u1
      have := (List.Nodup.getElem_inj_iff hn).1 u1
      rw [← this] at o3
      exact o3 rfl
    refine ⟨?_, ?_, h3, h4, ?_, ?_, ?_, ?_⟩
    · intro he
      have e1 := relTo_inj he
      have s0 := hsite 0 (by omega)
      rw [e1] at s0
      exact hne' (hC.distinct _ _ _ s0 (hsite ts.length (le_refl _)))
    · rw [hhead, hlast]
      intro he
      exact hne' (Option.some.inj he)
    · intro j hj
      unfold fanA
      rw [half_relTo, pw_relTo]
      have := hC.noEncroachment v _ _ _ h3 hsv.1 (hsite 0 (by omega)).1 _ _ (hsite j hj)
      linarith
    · intro j hj
      unfold fanA
      rw [half_relTo, pw_relTo]
      have := hC.noEncroachment v _ _ _ h4 hsv.1 (hsite ts.length (le_refl _)).1 _ _ (hsite j hj)
      linarith
    · simp [h6.length_eq]
    · obtain ⟨c1, c2⟩ := hcen cs h6
      intro s hs
      unfold zo
      rcases Nat.eq_zero_or_pos s with hs0 | hs0
      · rw [if_pos hs0]
        obtain ⟨q, g1, g2⟩ := mid_exact hS hl h3 h5
        exact ⟨i, q, by rw [hs0]; rfl, g1, g2⟩
      · rw [if_neg (by omega)]
        rcases Nat.lt_or_ge ts.length s with hlt | hge
        · rw [if_neg (by omega), if_pos (by omega)]
          obtain ⟨q, g1, g2⟩ := mid_exact hS hl h4 h7
          refine ⟨m, q, ?_, g1, g2⟩
          rw [List.getElem?_append_right (by rw [List.length_cons, c1]; omega), List.length_cons, c1,
            show s - (ts.length + 1) = 0 by omega]
          rfl
        · rw [if_pos hge]
          obtain ⟨u, q, g1, g2, g3⟩ := c2 (s - 1) (by omega)
          refine ⟨u, q, ?_, g2, g3⟩
          rw [List.getElem?_append_left (by rw [List.length_cons, c1]; omega),
            show s = (s - 1) + 1 by omega, List.getElem?_cons_succ]
          exact g1
  cases hci with
  | inner cs c h1 h2 h3 =>
    left
    obtain ⟨c1, c2⟩ := hcen cs h2
    have hcl : ns.getD 0 0 = ns.getD ts.length 0 := by
      rw [hhead, hlast] at h1; exact Option.some.inj h1
    refine ⟨by unfold fanA; rw [hcl], h1, by simp [c1], ⟨c, rfl, ?_⟩, ?_⟩
    · cases cs with
      | nil => simp at h3
      | cons x cs => simpa using h3
    intro s hs
    unfold zc
    rcases Nat.eq_zero_or_pos s with hs0 | hs0
    · rw [if_pos hs0]
      obtain ⟨u, q, g1, g2, g3⟩ := c2 (ts.length - 1) (by omega)
      refine ⟨u, q, ?_, g2, g3⟩
      rw [hs0, List.getElem?_cons_zero]
      rw [List.getLast?_eq_getElem?, c1] at h3
      rw [← h3, g1]
    · rw [if_neg (by omega)]
      obtain ⟨u, q, g1, g2, g3⟩ := c2 (s - 1) (by omega)
      refine ⟨u, q, ?_, g2, g3⟩
      rw [show s = (s - 1) + 1 by omega, List.getElem?_cons_succ]
      exact g1
  | flat a b i m e cs qf ql p h1 h2 h3 h4 h5 h6 h7 h8 h9 h10 h11 h12 =>
    right
    obtain ⟨f1, f2, f3, f4, f5, f6, f7, f8⟩ := hbd a b i m cs h1 h2 h3 h4 h5 h6 h7
    refine ⟨f1, f2, f3, f4, f5, f6, fun s hs => f8 s (by omega), Or.inl ⟨f7, i, e, qf, ql, rfl, h8, h9, h11, ?_⟩⟩
    rw [ptOf_ok h10]; exact h12
  | corner a b i m e r cs qf ql p h1 h2 h3 h4 h5 h6 h7 h8 h9 h10 h11 h12 h13 =>
    right
    obtain ⟨f1, f2, f3, f4, f5, f6, f7, f8⟩ := hbd a b i m cs h1 h2 h3 h4 h5 h6 h7
    have hlen' : (i :: cs ++ [m] ++ [r]).length = ts.length + 3 := by
      rw [List.length_append, f7]; rfl
    refine ⟨f1, f2, f3, f4, f5, f6, fun s hs => ?_, Or.inr hlen'⟩
    rcases Nat.lt_or_ge s (ts.length + 2) with hlt | hge
    · obtain ⟨u, q, g1, g2, g3⟩ := f8 s hlt
      exact ⟨u, q, by rw [List.getElem?_append_left (by rw [f7]; exact hlt)]; exact g1, g2, g3⟩
    · have hs2 : s = ts.length + 2 := by omega
      obtain ⟨pv, pa, g1, g2, _⟩ := h5
      have hfe : Feature out p := by
        rw [h10] at g1; obtain rfl := Outcome.ok.inj g1
        exact Or.inr ⟨v, a, p, pa, h3, h10, g2, Or.inr rfl⟩
      refine ⟨r, p, ?_, denotes_exact hS hl hfe h13, ?_⟩
      · rw [List.getElem?_append_right (by rw [f7]; omega), f7, hs2, Nat.sub_self]; rfl
      · rw [ptOf_ok h10, relTo_self, hs2]
        unfold zo
        rw [if_neg (by omega), if_neg (by omega), if_neg (by omega)]

end Delynoi
