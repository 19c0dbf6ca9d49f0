import Verif.Props.DelaunayGen
import Verif.Props.Triangle
/-!
# Properties C67, C68: the mesh built from a triangulation
-/
set_option linter.unusedSectionVars false
namespace Delynoi
variable {K : Type} [Field K] [LinearOrder K] [IsStrictOrderedRing K]

/-! ### C67 -/

theorem pushList_fresh {T : Type} {lt : T → T → Bool} {S : Set T} (h : SWO lt S) (xs : List T) :
    ∀ {u : UList T}, UList.Inv lt S u → (∀ x ∈ xs, x ∈ S) → NoDup lt (u.list ++ xs) →
    (u.pushList lt xs).1.list = u.list ++ xs ∧
    (u.pushList lt xs).2 = List.range' u.list.length xs.length := by
  induction xs with
  | nil => intro u _ _ _; simp [UList.pushList]
  | cons x xs ih =>
    intro u hi hS hn
    have hx : x ∈ S := hS x (by simp)
    have hne : ∀ y ∈ u.list, ¬ Equiv' lt y x := by
      intro y hy
      unfold NoDup at hn
      exact (List.pairwise_append.1 hn).2.2 y hy x (by simp)
    rcases UList.pushBack_cases h hi hx with ⟨_, hp⟩ | ⟨y, i, hy, he, _⟩
    · have hi' := UList.inv_pushBack h hi hx
      have hl : (u.pushBack lt x).1.list = u.list ++ [x] := by rw [hp]
      obtain ⟨a, b⟩ := ih hi' (fun z hz => hS z (by simp [hz])) (by rw [hl]; simpa using hn)
      refine ⟨?_, ?_⟩
      · show ((u.pushBack lt x).1.pushList lt xs).1.list = _
        rw [a, hl]; simp
      · show (u.pushBack lt x).2 :: ((u.pushBack lt x).1.pushList lt xs).2 = _
        rw [b, hl, hp]
        simp [List.range'_succ]
    · exact absurd he (hne y (List.mem_of_getElem? hy))

/-- Insertions into the point map for one triangle. -/
def triOps (pts : List (Pt K)) (i : Int) (vs : List Int) : List (PtMap.Op K) :=
  vs.filterMap (fun v => (pts[v.toNat]?).map (fun q => PtMap.Op.insert q i))

theorem meshVerts_id (tol : K) (pts : List (Pt K)) (i : Int) (vs : List Int) :
    ∀ (pm : PtMap K), (∀ v ∈ vs, 0 ≤ v ∧ v < pts.length) →
    meshVerts tol pts (List.range' 0 pts.length) i pm vs =
      .ok ((triOps pts i vs).foldl (PtMap.step tol) pm, vs) := by
  induction vs with
  | nil => intro pm _; rfl
  | cons v vs ih =>
    intro pm hv
    obtain ⟨h0, h1⟩ := hv v (by simp)
    have hlt : v.toNat < pts.length := by omega
    have g1 : vecGet (List.range' 0 pts.length) v = .ok v.toNat :=
      vecGet_ok_iff.2 ⟨h0, by rw [List.getElem?_range' (by omega)]; simp⟩
    have hv' : ((v.toNat : Nat) : Int) = v := by omega
    have hq : pts[v.toNat]? = some pts[v.toNat] := List.getElem?_eq_getElem hlt
    have g2 : vecGet pts v = .ok pts[v.toNat] := vecGet_ok_iff.2 ⟨h0, hq⟩
    unfold meshVerts
    rw [g1]
    simp only [Outcome.bind_ok]
    rw [hv', g2]
    simp only [Outcome.bind_ok]
    rw [ih _ (fun v hv'' => hv v (by simp [hv''])), Outcome.bind_ok]
    have ht : triOps pts i (v :: vs) = .insert pts[v.toNat] i :: triOps pts i vs := by
      unfold triOps
      rw [List.filterMap_cons, hq]; rfl
    rw [ht, List.foldl_cons]
    rfl

/-- Insertions into the point map for all triangles, numbered from `i`. -/
def meshOps (pts : List (Pt K)) : Int → List Tri → List (PtMap.Op K)
  | _, [] => []
  | i, t :: ts => triOps pts i t.pts ++ meshOps pts (i + 1) ts

/-- A triangle record with three different valid vertices. -/
def GoodTri (pts : List (Pt K)) (t : Tri) : Prop :=
  ∃ a b c, t.pts = [a, b, c] ∧ a ≠ b ∧ b ≠ c ∧ c ≠ a ∧ ∀ v ∈ t.pts, 0 ≤ v ∧ v < pts.length

/-- The mesh triangle a record should become. -/
def meshTri (pts : List (Pt K)) (t : Tri) (m : MTri K) : Prop :=
  m.pts = t.pts ∧ ∃ a b c pa pb pc, t.pts = [a, b, c] ∧ vecGet pts a = .ok pa ∧
    vecGet pts b = .ok pb ∧ vecGet pts c = .ok pc ∧ m.circ = circumcenter pa pb pc

theorem mkTriangle_good (pts : List (Pt K)) (t : Tri) (h : GoodTri pts t) :
    ∃ m, mkTriangle t.pts pts = .ok m ∧ meshTri pts t m := by
  obtain ⟨a, b, c, ht, hab, hbc, hca, hr⟩ := h
  have g : ∀ v ∈ t.pts, ∃ q, vecGet pts v = .ok q := by
    intro v hv
    obtain ⟨h0, h1⟩ := hr v hv
    exact ⟨_, vecGet_ok_iff.2 ⟨h0, List.getElem?_eq_getElem (by omega)⟩⟩
  obtain ⟨pa, ha⟩ := g a (by simp [ht])
  obtain ⟨pb, hb⟩ := g b (by simp [ht])
  obtain ⟨pc, hc⟩ := g c (by simp [ht])
  refine ⟨⟨t.pts, circumcenter pa pb pc⟩, ?_, rfl, a, b, c, pa, pb, pc, ht, ha, hb, hc, rfl⟩
  rw [ht]; unfold mkTriangle
  simp only [ha, hb, hc, Outcome.bind_ok, Outcome.pure_eq]

theorem meshTris_id {T : Type} (tol : K) (mk : List Int → List (Pt K) → Outcome T)
    (R : Tri → T → Prop) (pts : List (Pt K))
    (hmk : ∀ t, GoodTri pts t → ∃ g, mk t.pts pts = .ok g ∧ R t g) (ts : List Tri) :
    ∀ (i : Int) (pm : PtMap K), (∀ t ∈ ts, GoodTri pts t) →
    ∃ ms, meshTris tol mk pts (List.range' 0 pts.length) i pm ts =
      .ok ((meshOps pts i ts).foldl (PtMap.step tol) pm, ms) ∧
      List.Forall₂ R ts ms := by
  induction ts with
  | nil => intro i pm _; exact ⟨[], rfl, .nil⟩
  | cons t ts ih =>
    intro i pm hg
    obtain ⟨m, hm1, hm2⟩ := hmk t (hg t (by simp))
    obtain ⟨a, b, c, ht, hab, hbc, hca, hr⟩ := hg t (by simp)
    obtain ⟨ms, hms, hf⟩ := ih (i + 1) ((triOps pts i t.pts).foldl (PtMap.step tol) pm)
      (fun t ht' => hg t (by simp [ht']))
    refine ⟨m :: ms, ?_, .cons hm2 hf⟩
    unfold meshTris
    rw [meshVerts_id tol pts i t.pts pm hr]
    simp only [Outcome.bind_ok]
    have hci : checkTriangleIntegrity t.pts = .ok () := by
      rw [ht]; unfold checkTriangleIntegrity
      simp only
      rw [if_neg]
      rintro (h | h | h)
      · exact hab h
      · exact hbc h
      · exact hca h
    rw [hci, Outcome.bind_ok, hm1, Outcome.bind_ok, hms, Outcome.bind_ok]
    have hm : meshOps pts i (t :: ts) = triOps pts i t.pts ++ meshOps pts (i + 1) ts := rfl
    rw [hm, List.foldl_append]
    rfl

/-- Positions, counted from `i`, of the triangles with vertex `v`. -/
def usesFrom (v : Int) : Int → List Tri → List Int
  | _, [] => []
  | i, t :: ts => if v ∈ t.pts then i :: usesFrom v (i + 1) ts else usesFrom v (i + 1) ts

theorem triOps_added (tol : K) (h : 0 < tol) (pts : List (Pt K))
    (hp : pts.Pairwise (fun a b => ¬ Close tol a b)) (i : Int) (v : Nat) (p : Pt K)
    (hv : pts[v]? = some p) (vs : List Int) (hr : ∀ w ∈ vs, 0 ≤ w ∧ w < pts.length)
    (hn : vs.Nodup) :
    ((triOps pts i vs).filter (fun o => decide (|o.pt.x - p.x| < tol ∧ |o.pt.y - p.y| < tol))).flatMap
      PtMap.Op.added = if (v : Int) ∈ vs then [i] else [] := by
  have hsame : ∀ (w : Nat) (q : Pt K), pts[w]? = some q → (Close tol q p ↔ w = v) := by
    intro w q hw
    obtain ⟨hwl, hwe⟩ := List.getElem?_eq_some_iff.1 hw
    obtain ⟨hvl, hve⟩ := List.getElem?_eq_some_iff.1 hv
    constructor
    · intro hc
      rcases Nat.lt_trichotomy w v with hlt | hlt | hlt
      · have := List.pairwise_iff_getElem.1 hp w v hwl hvl hlt
        rw [hwe, hve] at this; exact absurd hc this
      · exact hlt
      · have := List.pairwise_iff_getElem.1 hp v w hvl hwl hlt
        rw [hwe, hve] at this
        refine absurd ?_ this
        unfold Close at hc ⊢
        rw [abs_sub_comm, abs_sub_comm p.y]; exact hc
    · rintro rfl
      rw [hw] at hv; obtain rfl := Option.some.inj hv
      unfold Close; simp [h]
  induction vs with
  | nil => rfl
  | cons w vs ih =>
    obtain ⟨h0, h1⟩ := hr w (by simp)
    have hq : pts[w.toNat]? = some pts[w.toNat] := List.getElem?_eq_getElem (by omega)
    have ht : triOps pts i (w :: vs) = .insert pts[w.toNat] i :: triOps pts i vs := by
      unfold triOps; rw [List.filterMap_cons, hq]; rfl
    have ih := ih (fun w hw => hr w (by simp [hw])) (List.nodup_cons.1 hn).2
    have hs := hsame w.toNat _ hq
    rw [ht]
    by_cases hwv : w.toNat = v
    · have hc := hs.2 hwv
      rw [List.filter_cons_of_pos (by exact decide_eq_true hc), List.flatMap_cons, ih]
      have hw : w = (v : Int) := by omega
      have : (v : Int) ∉ vs := by rw [← hw]; exact (List.nodup_cons.1 hn).1
      rw [if_neg this, if_pos (by simp [hw])]; rfl
    · have hc : ¬ Close tol _ p := fun hc => hwv (hs.1 hc)
      rw [List.filter_cons_of_neg (by
        intro hd; exact hc (of_decide_eq_true hd)), ih]
      have : (v : Int) ≠ w := by omega
      simp [this]

theorem meshOps_added (tol : K) (h : 0 < tol) (pts : List (Pt K))
    (hp : pts.Pairwise (fun a b => ¬ Close tol a b)) (v : Nat) (p : Pt K)
    (hv : pts[v]? = some p) (ts : List Tri) : ∀ (i : Int), (∀ t ∈ ts, GoodTri pts t) →
    ((meshOps pts i ts).filter (fun o => decide (|o.pt.x - p.x| < tol ∧ |o.pt.y - p.y| < tol))).flatMap
      PtMap.Op.added = usesFrom (v : Int) i ts := by
  induction ts with
  | nil => intro i _; rfl
  | cons t ts ih =>
    intro i hg
    obtain ⟨a, b, c, ht, hab, hbc, hca, hr⟩ := hg t (by simp)
    unfold meshOps usesFrom
    rw [List.filter_append, List.flatMap_append, ih (i + 1) (fun t h => hg t (by simp [h])),
      triOps_added tol h pts hp i v p hv t.pts hr (by
        rw [ht]; simp [hab, hbc, Ne.symm hca])]
    split <;> rfl

theorem meshOps_in (pts : List (Pt K)) (ts : List Tri) : ∀ (i : Int),
    ∀ o ∈ meshOps pts i ts, o.pt ∈ pts := by
  induction ts with
  | nil => intro i o ho; simp [meshOps] at ho
  | cons t ts ih =>
    intro i o ho
    unfold meshOps at ho
    rcases List.mem_append.1 ho with ho | ho
    · unfold triOps at ho
      obtain ⟨v, _, hv⟩ := List.mem_filterMap.1 ho
      cases hq : pts[v.toNat]? with
      | none => rw [hq] at hv; simp at hv
      | some q =>
        rw [hq] at hv
        have hv := Option.some.inj hv
        rw [← hv]
        exact List.mem_of_getElem? hq
    · exact ih _ o ho

theorem usesFrom_spec (v : Int) (ts : List Tri) : ∀ (i : Nat) (k : Int),
    k ∈ usesFrom v (i : Int) ts ↔ ∃ (j : Nat) (t : Tri), k = ((i + j : Nat) : Int) ∧ ts[j]? = some t ∧ v ∈ t.pts := by
  induction ts with
  | nil => intro i k; simp [usesFrom]
  | cons t ts ih =>
    intro i k
    have e : ((i : Int) + 1) = ((i + 1 : Nat) : Int) := by omega
    unfold usesFrom
    rw [e]
    constructor
    · intro hk
      split at hk
      · rename_i hv
        rcases List.mem_cons.1 hk with hk | hk
        · exact ⟨0, t, by simpa using hk, rfl, hv⟩
        · obtain ⟨j, t', h1, h2, h3⟩ := (ih (i + 1) k).1 hk
          exact ⟨j + 1, t', by omega, by simpa using h2, h3⟩
      · obtain ⟨j, t', h1, h2, h3⟩ := (ih (i + 1) k).1 hk
        exact ⟨j + 1, t', by omega, by simpa using h2, h3⟩
    · rintro ⟨j, t', h1, h2, h3⟩
      cases j with
      | zero =>
        simp at h2; subst h2
        rw [if_pos h3]; simp [h1]
      | succ j =>
        have := (ih (i + 1) k).2 ⟨j, t', by omega, by simpa using h2, h3⟩
        split
        · exact List.mem_cons_of_mem _ this
        · exact this

theorem usesFrom_nodup (v : Int) (ts : List Tri) : ∀ (i : Nat),
    (usesFrom v (i : Int) ts).Nodup := by
  induction ts with
  | nil => intro i; simp [usesFrom]
  | cons t ts ih =>
    intro i
    have e : ((i : Int) + 1) = ((i + 1 : Nat) : Int) := by omega
    unfold usesFrom
    rw [e]
    split
    · refine List.nodup_cons.2 ⟨?_, ih (i + 1)⟩
      intro hm
      obtain ⟨j, _, h1, _⟩ := (usesFrom_spec v ts (i + 1) i).1 hm
      omega
    · exact ih (i + 1)

theorem mesh_core {T : Type} (mk : List Int → List (Pt K) → Outcome T) (R : List (Pt K) → Tri → T → Prop)
    (hmk : ∀ pts t, GoodTri pts t → ∃ g, mk t.pts pts = .ok g ∧ R pts t g) (tol : K) (h : 0 < tol) (out : TriOut K) (hv : ValidOut out)
    (hS : TolSeparated tol {p | p ∈ out.points})
    (hp : out.points.Pairwise (fun a b => ¬ Close tol a b)) :
    ∃ d m, DelInfo.importOut tol DelInfo.empty out = .ok d ∧
      initializeMesh tol mk d = .ok m ∧
      m.points.list = out.points ∧
      m.edges = d.delaunayEdges ∧
      m.polygons.length = out.tris.length ∧
      (∀ (k : Nat) (t : Int × Int × Int), out.tris[k]? = some t → ∃ g tr,
        m.polygons[k]? = some g ∧ tr.pts = [t.1, t.2.1, t.2.2] ∧ R out.points tr g) ∧
      (∀ (v : Nat) (p : Pt K), out.points[v]? = some p →
        ((m.pointMap.get tol p).2).Nodup ∧
        ∀ k : Int, k ∈ (m.pointMap.get tol p).2 ↔
          ∃ (j : Nat) (t : Int × Int × Int), k = (j : Int) ∧ out.tris[j]? = some t ∧
            (v : Int) ∈ verts t) := by
  obtain ⟨d, hd, hi⟩ := import_ok tol hv
  have ht := hi.toTriInv
  have hmesh : d.meshPoints = out.points := ht.mesh
  have htlen : d.triangles.length = out.tris.length := ht.tlen
  have hw := C09_swo_of_separated tol h _ hS
  have hgood : ∀ t ∈ d.triangles, GoodTri out.points t := by
    intro t htm
    obtain ⟨k, hk⟩ := List.mem_iff_getElem?.1 htm
    have hkl : k < out.tris.length := by
      rw [← htlen]; exact (List.getElem?_eq_some_iff.1 hk).1
    have hk' : out.tris[k]? = some out.tris[k] := List.getElem?_eq_getElem hkl
    obtain ⟨c, a, b, e, q, cc, h1, h2, h3, h4, h5, _⟩ := ht.tris k _ hk'
    have h1 : d.triangles[k]? = some _ := h1
    rw [hk] at h1
    obtain rfl := Option.some.inj h1
    have hturn : turn a b e ≠ 0 := by
      have := (C37_defined_iff a b e).1 (by rw [h5]; rfl)
      exact this
    refine ⟨_, _, _, rfl, ?_, ?_, ?_, ?_⟩
    · intro hc; rw [hc, h3] at h2; obtain rfl := Outcome.ok.inj h2; apply hturn; unfold turn; ring
    · intro hc; rw [hc, h4] at h3; obtain rfl := Outcome.ok.inj h3; apply hturn; unfold turn; ring
    · intro hc; rw [hc, h2] at h4; obtain rfl := Outcome.ok.inj h4; apply hturn; unfold turn; ring
    · have inr : ∀ (v : Int) (x : Pt K), vecGet out.points v = .ok x → 0 ≤ v ∧ v < out.points.length := by
        intro v x hx
        obtain ⟨g0, g1⟩ := vecGet_ok_iff.1 hx
        have := (List.getElem?_eq_some_iff.1 g1).1
        omega
      intro v hvm
      simp only [List.mem_cons, List.not_mem_nil, or_false] at hvm
      rcases hvm with rfl | rfl | rfl
      · exact inr _ _ h2
      · exact inr _ _ h3
      · exact inr _ _ h4
  obtain ⟨l1, l2⟩ := pushList_fresh hw out.points (UList.inv_empty) (fun x hx => hx)
    (by
      show NoDup _ ([] ++ out.points)
      rw [List.nil_append]
      exact hp.imp (fun hab he => hab ((equiv_iff_close tol h _ _).1 he)))
  obtain ⟨ms, hms, hf⟩ := meshTris_id tol mk (R out.points) out.points (hmk out.points) d.triangles 0 PtMap.empty hgood
  refine ⟨d, ⟨(UList.pushList (fun a b : Pt K => a.ltTol tol b) UList.empty out.points).1, ms,
    d.delaunayEdges, (meshOps out.points 0 d.triangles).foldl (PtMap.step tol) PtMap.empty⟩,
    hd, ?_, ?_, rfl, ?_, ?_, ?_⟩
  · unfold initializeMesh
    simp only
    rw [hmesh, l2]
    have : (UList.empty : UList (Pt K)).list.length = 0 := rfl
    rw [this, hms, Outcome.bind_ok]; rfl
  · simp only; rw [l1]; rfl
  · simp only; rw [← hf.length_eq, htlen]
  · intro k t hk
    obtain ⟨c, a, b, e, q, cc, h1, h2, h3, h4, h5, _⟩ := ht.tris k t hk
    have h1 : d.triangles[k]? = some _ := h1
    have hkl := (List.getElem?_eq_some_iff.1 h1)
    have hml : k < ms.length := by rw [← hf.length_eq]; exact hkl.1
    have hg := List.Forall₂.get hf (i := k) hkl.1 hml
    simp only [List.get_eq_getElem] at hg
    rw [hkl.2] at hg
    exact ⟨ms[k], _, List.getElem?_eq_getElem hml, rfl, hg⟩
  · intro v p hvp
    have hg := C61_get tol h _ hS (meshOps out.points 0 d.triangles)
      (fun o ho => meshOps_in out.points d.triangles 0 o ho) p (List.mem_of_getElem? hvp)
    have hg' : (PtMap.get tol ((meshOps out.points 0 d.triangles).foldl (PtMap.step tol) PtMap.empty) p).2
        = usesFrom (v : Int) 0 d.triangles := by
      rw [← meshOps_added tol h out.points hp v p hvp d.triangles 0 hgood]
      exact hg
    simp only
    rw [hg']
    refine ⟨usesFrom_nodup (v : Int) d.triangles 0, ?_⟩
    intro k
    rw [show (0 : Int) = ((0 : Nat) : Int) from rfl, usesFrom_spec]
    constructor
    · rintro ⟨j, t, hj, h1, h2⟩
      have hjl : j < out.tris.length := by rw [← htlen]; exact (List.getElem?_eq_some_iff.1 h1).1
      have hk' : out.tris[j]? = some out.tris[j] := List.getElem?_eq_getElem hjl
      obtain ⟨c, _, _, _, _, _, g1, _⟩ := ht.tris j _ hk'
      have g1 : d.triangles[j]? = some _ := g1
      rw [h1] at g1
      obtain rfl := Option.some.inj g1
      exact ⟨j, _, by omega, hk', h2⟩
    · rintro ⟨j, t, hj, h1, h2⟩
      obtain ⟨c, _, _, _, _, _, g1, _⟩ := ht.tris j t h1
      exact ⟨j, _, by omega, g1, h2⟩

/-- C67: for a valid triangulation with pairwise different points the mesh consists of the
triangulator's points, in order, and its triangles, in order; it knows their circumcenters; and
the point map lists for each point exactly the triangles that use it, each once. -/
theorem C67_mesh (tol : K) (h : 0 < tol) (out : TriOut K) (hv : ValidOut out)
    (hS : TolSeparated tol {p | p ∈ out.points})
    (hp : out.points.Pairwise (fun a b => ¬ Close tol a b)) :
    ∃ d m, DelInfo.importOut tol DelInfo.empty out = .ok d ∧
      initializeMesh tol mkTriangle d = .ok m ∧
      m.points.list = out.points ∧
      m.edges = d.delaunayEdges ∧
      m.polygons.length = out.tris.length ∧
      (∀ (k : Nat) (t : Int × Int × Int), out.tris[k]? = some t → ∃ g a b c,
        m.polygons[k]? = some g ∧ g.pts = [t.1, t.2.1, t.2.2] ∧
        vecGet out.points t.1 = .ok a ∧ vecGet out.points t.2.1 = .ok b ∧
        vecGet out.points t.2.2 = .ok c ∧ g.circ = circumcenter a b c) ∧
      (∀ (v : Nat) (p : Pt K), out.points[v]? = some p →
        ((m.pointMap.get tol p).2).Nodup ∧
        ∀ k : Int, k ∈ (m.pointMap.get tol p).2 ↔
          ∃ (j : Nat) (t : Int × Int × Int), k = (j : Int) ∧ out.tris[j]? = some t ∧
            (v : Int) ∈ verts t) := by
  obtain ⟨d, m, h1, h2, h3, h4, h5, h6, h7⟩ :=
    mesh_core mkTriangle meshTri mkTriangle_good tol h out hv hS hp
  refine ⟨d, m, h1, h2, h3, h4, h5, ?_, h7⟩
  intro k t hk
  obtain ⟨g, tr, g1, g2, g3, a', b', c', a, b, c, g4, g5, g6, g7, g8⟩ := h6 k t hk
  rw [g2] at g3 g4
  simp only [List.cons.injEq, and_true] at g4
  obtain ⟨rfl, rfl, rfl⟩ := g4
  exact ⟨g, a, b, c, g1, g3, g5, g6, g7, g8⟩

theorem sampleOut_separated : TolSeparated (1/100000 : ℚ) {p | p ∈ sampleOut.points} := by
  refine C09_separated_of_gap (1/100000 : ℚ) (by decide +kernel) _ ?_ ?_
  · have : ∀ a ∈ sampleOut.points, ∀ b ∈ sampleOut.points, a.x = b.x ∨ (1/100000 : ℚ) ≤ |a.x - b.x| := by
      decide +kernel
    exact this
  · have : ∀ a ∈ sampleOut.points, ∀ b ∈ sampleOut.points, a.y = b.y ∨ (1/100000 : ℚ) ≤ |a.y - b.y| := by
      decide +kernel
    exact this

example : ValidOut sampleOut ∧ TolSeparated (1/100000 : ℚ) {p | p ∈ sampleOut.points} ∧
    sampleOut.points.Pairwise (fun a b => ¬ Close (1/100000) a b) :=
  ⟨sampleOut_valid, sampleOut_separated, by decide +kernel⟩

/-! ### C68 -/

/-- Two triangles on the points `A, A', B, C, D` where `A` and `A'` coincide up to tolerance. -/
def coincident : TriOut ℚ :=
  { points := [⟨0, 0⟩, ⟨1/1000000, 0⟩, ⟨2, 0⟩, ⟨2, 2⟩, ⟨0, 2⟩],
    edges := [(1, 2, 1), (2, 3, 1), (1, 3, 0), (3, 4, 1), (1, 4, 1)],
    tris := [(1, 2, 3), (1, 3, 4)] }

/-- C68 is violated: in the mesh built from `coincident` the triangles know
circumcenters that are not those of their vertices; the point map has no entry for the vertex `D`;
the mesh's edge from `A` to `B` (numbers 0 and 1) is not registered, while an edge between the
numbers 3 and 4 is, although the mesh has no point number 4. -/
theorem C68_refuted : ∃ d m, DelInfo.importOut (1/100000) DelInfo.empty coincident = .ok d ∧
    initializeMesh (1/100000) mkTriangle d = .ok m ∧
    m.points.list = [⟨0, 0⟩, ⟨2, 0⟩, ⟨2, 2⟩, ⟨0, 2⟩] ∧
    m.polygons.map MTri.pts = [[0, 1, 2], [0, 2, 3]] ∧
    m.polygons.map MTri.circ ≠ [circumcenter ⟨0, 0⟩ ⟨2, 0⟩ ⟨2, 2⟩, circumcenter ⟨0, 0⟩ ⟨2, 2⟩ ⟨0, 2⟩] ∧
    PtMap.find (1/100000) m.pointMap ⟨0, 2⟩ = none ∧
    m.edges.find (ISeg.mk' 0 1) = none ∧ m.edges.find (ISeg.mk' 3 4) = some ⟨some 1, -1⟩ := by
  have key : (match DelInfo.importOut (1/100000) DelInfo.empty coincident with
    | .ok d => (match initializeMesh (1/100000) mkTriangle d with
      | .ok m => decide (m.points.list = [⟨0, 0⟩, ⟨2, 0⟩, ⟨2, 2⟩, ⟨0, 2⟩] ∧
        m.polygons.map MTri.pts = [[0, 1, 2], [0, 2, 3]] ∧
        m.polygons.map MTri.circ ≠ [circumcenter ⟨0, 0⟩ ⟨2, 0⟩ ⟨2, 2⟩, circumcenter ⟨0, 0⟩ ⟨2, 2⟩ ⟨0, 2⟩] ∧
        PtMap.find (1/100000) m.pointMap ⟨0, 2⟩ = none ∧
        m.edges.find (ISeg.mk' 0 1) = none ∧ m.edges.find (ISeg.mk' 3 4) = some ⟨some 1, -1⟩)
      | _ => false)
    | _ => false) = true := by decide +kernel
  split at key
  · rename_i d hd
    split at key
    · rename_i m hm
      exact ⟨d, m, hd, hm, of_decide_eq_true key⟩
    · cases key
  · cases key

theorem meshVerts_decode (tol : K) (pts : List (Pt K)) (idx : List Nat) (i : Int) (vs : List Int) :
    ∀ (pm pm' : PtMap K) (ws : List Int), meshVerts tol pts idx i pm vs = .ok (pm', ws) →
    List.Forall₂ (fun v w => ∃ n : Nat, w = (n : Int) ∧ vecGet idx v = .ok n) vs ws := by
  induction vs with
  | nil =>
    intro pm pm' ws h
    obtain ⟨_, rfl⟩ := Prod.mk.inj (Outcome.ok.inj h)
    exact .nil
  | cons v vs ih =>
    intro pm pm' ws h
    unfold meshVerts at h
    cases h1 : vecGet idx v with
    | exn => rw [h1] at h; cases h
    | ub => rw [h1] at h; cases h
    | ok n =>
      rw [h1, Outcome.bind_ok] at h
      cases h2 : vecGet pts (n : Int) with
      | exn => rw [h2] at h; cases h
      | ub => rw [h2] at h; cases h
      | ok q =>
        rw [h2, Outcome.bind_ok] at h
        cases h3 : meshVerts tol pts idx i (pm.insert tol q i) vs with
        | exn => rw [h3] at h; cases h
        | ub => rw [h3] at h; cases h
        | ok r =>
          rw [h3, Outcome.bind_ok] at h
          obtain ⟨_, rfl⟩ := Prod.mk.inj (Outcome.ok.inj h)
          exact .cons ⟨n, rfl, h1⟩ (ih _ r.1 r.2 h3)

theorem meshTris_decode (tol : K) (pts : List (Pt K)) (idx : List Nat) (ts : List Tri) :
    ∀ (i : Int) (pm pm' : PtMap K) (ms : List (MTri K)),
    meshTris tol mkTriangle pts idx i pm ts = .ok (pm', ms) →
    List.Forall₂ (fun t m => List.Forall₂ (fun v w => ∃ n : Nat, w = (n : Int) ∧ vecGet idx v = .ok n)
      t.pts m.pts) ts ms := by
  induction ts with
  | nil =>
    intro i pm pm' ms h
    obtain ⟨_, rfl⟩ := Prod.mk.inj (Outcome.ok.inj h)
    exact .nil
  | cons t ts ih =>
    intro i pm pm' ms h
    unfold meshTris at h
    cases h1 : meshVerts tol pts idx i pm t.pts with
    | exn => rw [h1] at h; cases h
    | ub => rw [h1] at h; cases h
    | ok r =>
      rw [h1, Outcome.bind_ok] at h
      cases h2 : checkTriangleIntegrity r.2 with
      | exn => rw [h2] at h; cases h
      | ub => rw [h2] at h; cases h
      | ok _ =>
        rw [h2, Outcome.bind_ok] at h
        cases h3 : mkTriangle r.2 pts with
        | exn => rw [h3] at h; cases h
        | ub => rw [h3] at h; cases h
        | ok g =>
          rw [h3, Outcome.bind_ok] at h
          have hg : g.pts = r.2 := by
            unfold mkTriangle at h3
            split at h3
            · rename_i a b c rest heq
              cases e1 : vecGet pts a with
              | exn => rw [e1] at h3; cases h3
              | ub => rw [e1] at h3; cases h3
              | ok pa =>
                rw [e1, Outcome.bind_ok] at h3
                cases e2 : vecGet pts b with
                | exn => rw [e2] at h3; cases h3
                | ub => rw [e2] at h3; cases h3
                | ok pb =>
                  rw [e2, Outcome.bind_ok] at h3
                  cases e3 : vecGet pts c with
                  | exn => rw [e3] at h3; cases h3
                  | ub => rw [e3] at h3; cases h3
                  | ok pc =>
                    rw [e3, Outcome.bind_ok] at h3
                    have := Outcome.ok.inj h3
                    rw [← this]
            · cases h3
          cases h4 : meshTris tol mkTriangle pts idx (i + 1) r.1 ts with
          | exn => rw [h4] at h; cases h
          | ub => rw [h4] at h; cases h
          | ok r' =>
            rw [h4, Outcome.bind_ok] at h
            obtain ⟨_, rfl⟩ := Prod.mk.inj (Outcome.ok.inj h)
            refine .cons ?_ (ih _ _ r'.1 r'.2 h4)
            rw [hg]
            exact meshVerts_decode tol pts idx i t.pts pm r.1 r.2 h1

/-- C68, the part that holds: whenever a mesh comes out, corresponding vertices of the
triangulator's triangles and of the mesh's triangles have the same coordinates up to tolerance,
looked up in the respective point lists.  Missing: circumcenters, point map and edge map (refuted
above). -/
theorem C68_vertices_partial (tol : K) (h : 0 < tol) (d : DelInfo K) (m : Mesh K (MTri K))
    (hm : initializeMesh tol mkTriangle d = .ok m) :
    List.Forall₂ (fun (t : Tri) (g : MTri K) => List.Forall₂ (fun v w => ∃ a b : Pt K,
      vecGet d.meshPoints v = .ok a ∧ vecGet m.points.list w = .ok b ∧ Close tol b a) t.pts g.pts)
      d.triangles m.polygons := by
  unfold initializeMesh at hm
  simp only at hm
  cases h1 : meshTris tol mkTriangle d.meshPoints
      (UList.pushList (fun a b : Pt K => a.ltTol tol b) UList.empty d.meshPoints).2 0 PtMap.empty
      d.triangles with
  | exn => rw [h1] at hm; cases hm
  | ub => rw [h1] at hm; cases hm
  | ok r =>
    rw [h1, Outcome.bind_ok] at hm
    have hm := Outcome.ok.inj hm
    subst hm
    have hd := meshTris_decode tol d.meshPoints _ d.triangles 0 PtMap.empty r.1 r.2 h1
    obtain ⟨_, a2, a3, _⟩ := UList.pushList_weak (lt := fun a b : Pt K => a.ltTol tol b)
      d.meshPoints (UList.decodes_empty (T := Pt K))
    refine hd.imp ?_
    intro t g htg
    refine htg.imp ?_
    rintro v w ⟨n, rfl, hn⟩
    obtain ⟨g0, g1⟩ := vecGet_ok_iff.1 hn
    have hlt : v.toNat < d.meshPoints.length := by
      rw [← a2]; exact (List.getElem?_eq_some_iff.1 g1).1
    have hx : d.meshPoints[v.toNat]? = some d.meshPoints[v.toNat] := List.getElem?_eq_getElem hlt
    obtain ⟨i, y, b1, b2, b3⟩ := a3 _ _ hx
    rw [g1] at b1
    obtain rfl := Option.some.inj b1
    exact ⟨_, y, vecGet_ok_iff.2 ⟨g0, hx⟩, vecGet_ok_iff.2 ⟨by omega, by simpa using b2⟩,
      close_of_equiv h b3⟩

/-- C68: a triangle whose vertices merge does not make it into a mesh: the construction throws. -/
theorem C68_merged_triangle_throws : ∃ d, DelInfo.importOut (1/100000) DelInfo.empty
    ({ points := [⟨0, 0⟩, ⟨1/1000000, 0⟩, ⟨0, 1⟩], edges := [(0, 1, 1), (1, 2, 1), (2, 0, 1)],
       tris := [(0, 1, 2)] } : TriOut ℚ) = .ok d ∧
    initializeMesh (1/100000) mkTriangle d = .exn := by
  have key : (match DelInfo.importOut (1/100000) DelInfo.empty
    ({ points := [⟨0, 0⟩, ⟨1/1000000, 0⟩, ⟨0, 1⟩], edges := [(0, 1, 1), (1, 2, 1), (2, 0, 1)],
       tris := [(0, 1, 2)] } : TriOut ℚ) with
    | .ok d => (match initializeMesh (1/100000) mkTriangle d with
      | .exn => true
      | _ => false)
    | _ => false) = true := by decide +kernel
  split at key
  · rename_i d hd
    refine ⟨d, hd, ?_⟩
    split at key
    · assumption
    · cases key
  · cases key

end Delynoi
