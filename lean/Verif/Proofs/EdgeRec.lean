import Verif.Proofs.Import
/-! Helper lemmas: what the imported edge records say. -/
set_option linter.unusedSectionVars false
namespace Delynoi
variable {K : Type} [Field K] [LinearOrder K] [IsStrictOrderedRing K]

theorem mem_incident (ts : List (Int × Int × Int)) (p : Sym2 Int) (j : Int) :
    j ∈ incident ts p ↔ ∃ (n : Nat) (t : Int × Int × Int), j = (n : Int) ∧ ts[n]? = some t ∧
      p ∈ sides t := by
  unfold incident
  simp only [List.mem_map, List.mem_filter, decide_eq_true_eq, Prod.exists]
  constructor
  · rintro ⟨a, b, c, n, ⟨h1, h2⟩, rfl⟩
    have := List.mem_zipIdx_iff_getElem?.1 h1
    exact ⟨n, a, b, c, rfl, this, h2⟩
  · rintro ⟨n, a, b, c, rfl, h1, h2⟩
    exact ⟨a, b, c, n, ⟨List.mem_zipIdx_iff_getElem?.2 h1, h2⟩, rfl⟩

theorem incident_nodup (ts : List (Int × Int × Int)) (p : Sym2 Int) : (incident ts p).Nodup := by
  induction ts using List.reverseRecOn with
  | nil => simp [incident]
  | append_singleton ts t ih =>
    rw [incident_append]
    by_cases h : p ∈ sides t
    · rw [if_pos h]
      rw [List.nodup_append]
      refine ⟨ih, by simp, ?_⟩
      intro a ha b hb
      obtain ⟨n, t', rfl, hn, _⟩ := (mem_incident _ _ _).1 ha
      have := (List.getElem?_eq_some_iff.1 hn).1
      simp at hb; omega
    · rw [if_neg h]; simpa using ih

/-- The record of an edge of a valid triangulation. -/
theorem edgeRec_cases {out : TriOut K} (hv : ValidOut out) {e : Int × Int × Int}
    (he : e ∈ out.edges) :
    ∃ t1 t2, edgeRec e (incident out.tris (eEnds e)) = ⟨e.1, e.2.1, t1, t2⟩ ∧ 0 ≤ t1 ∧
      ((t2 = -1 ∧ incident out.tris (eEnds e) = [t1]) ∨
       (0 ≤ t2 ∧ t1 ≠ t2 ∧ incident out.tris (eEnds e) = [t1, t2])) := by
  have h2 := hv.atMostTwo e he
  have hn := incident_nodup out.tris (eEnds e)
  have hpos : ∀ j ∈ incident out.tris (eEnds e), 0 ≤ j := by
    intro j hj; obtain ⟨n, _, rfl, _⟩ := (mem_incident _ _ _).1 hj; omega
  have hne : incident out.tris (eEnds e) ≠ [] := by
    obtain ⟨t, ht, hs⟩ := hv.edgesAreSides e he
    obtain ⟨n, hn⟩ := List.mem_iff_getElem?.1 ht
    have := (mem_incident out.tris (eEnds e) n).2 ⟨n, t, rfl, hn, hs⟩
    intro h; rw [h] at this; simp at this
  match hl : incident out.tris (eEnds e), hne, h2 with
  | [a], _, _ =>
    rw [hl] at hpos
    have ha := hpos a (by simp)
    refine ⟨a, -1, ?_, ha, Or.inl ⟨rfl, rfl⟩⟩
    simp [edgeRec, EdgeData.setTriangle, EdgeData.mk']
  | [a, b], _, _ =>
    rw [hl] at hpos hn
    have ha := hpos a (by simp)
    have hb := hpos b (by simp)
    have hne : a ≠ -1 := by omega
    refine ⟨a, b, ?_, ha, Or.inr ⟨hb, by simpa using hn, rfl⟩⟩
    simp [edgeRec, EdgeData.setTriangle, EdgeData.mk', hne]

theorem mem_pair_of_cases {l : List Int} {t1 t2 : Int}
    (h : (t2 = -1 ∧ l = [t1]) ∨ (0 ≤ t2 ∧ t1 ≠ t2 ∧ l = [t1, t2])) (n : Int) (hn : 0 ≤ n) :
    (t1 = n ∨ t2 = n) ↔ n ∈ l := by
  rcases h with ⟨h1, h2⟩ | ⟨h1, h2, h3⟩
  · rw [h2]; simp; constructor
    · rintro (h | h) <;> omega
    · intro h; exact Or.inl h.symm
  · rw [h3]; simp [eq_comm]

/-- Imported edge records. -/
theorem TriCore.edgeAt {tol : K} {out : TriOut K} {d : DelInfo K} (hv : ValidOut out)
    (h : TriCore tol out out.tris d) {k : Nat} {e : Int × Int × Int} (hk : out.edges[k]? = some e) :
    ∃ r, d.edges[k]? = some r ∧ r.p1 = e.1 ∧ r.p2 = e.2.1 ∧ 0 ≤ r.t1 ∧
      ((r.t2 = -1 ∧ incident out.tris (eEnds e) = [r.t1]) ∨
       (0 ≤ r.t2 ∧ r.t1 ≠ r.t2 ∧ incident out.tris (eEnds e) = [r.t1, r.t2])) := by
  obtain ⟨t1, t2, h1, h2, h3⟩ := edgeRec_cases hv (List.mem_of_getElem? hk)
  refine ⟨⟨e.1, e.2.1, t1, t2⟩, ?_, rfl, rfl, h2, h3⟩
  rw [h.edges, List.getElem?_map, hk, Option.map_some, h1]

/-- The reported neighbours: assigning along a list of edges with different ends. -/
theorem foldl_assign (m : SegMap) (es : List EdgeData) (hm : ∀ e ∈ m, HashOk e.1)
    (hd : (es.map (fun e => s(e.p1, e.p2))).Nodup) :
    let m' := es.foldl (fun m e => SegMap.assign m (ISeg.mk' e.p1 e.p2) (NbSeg.two e.t1 e.t2)) m
    (∀ a b : Int, s(a, b) ∉ es.map (fun e => s(e.p1, e.p2)) →
      m'.find (ISeg.mk' a b) = m.find (ISeg.mk' a b)) ∧
    (∀ e ∈ es, ∀ a b : Int, s(a, b) = s(e.p1, e.p2) →
      m'.find (ISeg.mk' a b) = some (NbSeg.two e.t1 e.t2)) := by
  induction es generalizing m with
  | nil => simp
  | cons e es ih =>
    have hd' := List.nodup_cons.1 (show (s(e.p1, e.p2) :: es.map (fun e => s(e.p1, e.p2))).Nodup
      from hd)
    have hk : ∀ e' ∈ SegMap.assign m (ISeg.mk' e.p1 e.p2) (NbSeg.two e.t1 e.t2), HashOk e'.1 :=
      UMap.upsert_keys _ _ m _ hm (hashOk_mk' _ _)
    obtain ⟨i1, i2⟩ := ih _ hk hd'.2
    have hends : ∀ a b : Int, ends (ISeg.mk' a b) = s(a, b) := by
      intro a b
      have e1 : (ISeg.mk' a b).p1 = a := rfl
      have e2 : (ISeg.mk' a b).p2 = b := rfl
      unfold ends; rw [e1, e2]
    have hu := fun a b => UMap.find_upsert seg_kernel (NbSeg.two e.t1 e.t2)
      (fun _ => NbSeg.two e.t1 e.t2) m (ISeg.mk' e.p1 e.p2) (ISeg.mk' a b) hm (hashOk_mk' _ _)
      (hashOk_mk' _ _)
    simp only [List.foldl_cons]
    refine ⟨?_, ?_⟩
    · intro a b hab
      have hab : s(a, b) ∉ (s(e.p1, e.p2) :: es.map (fun e => s(e.p1, e.p2))) := hab
      rw [List.mem_cons, not_or] at hab
      refine (i1 a b hab.2).trans ((hu a b).2 ?_)
      rw [hends, hends]
      exact Ne.symm hab.1
    · intro e' he' a b hab
      rcases List.mem_cons.1 he' with rfl | he'
      · refine (i1 a b (by rw [hab]; exact hd'.1)).trans ?_
        have := (hu a b).1 (by rw [hends, hends]; exact hab.symm)
        refine this.trans ?_
        cases UMap.find ISeg.hash ISeg.eq m (ISeg.mk' e'.p1 e'.p2) <;> rfl
      · exact i2 e' he' a b hab

end Delynoi
