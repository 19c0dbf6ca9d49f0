import Verif.Spec.Triangulation
import Verif.Proofs.Maps
import Verif.Proofs.WeakList
import Verif.Proofs.Resolve
import Verif.Props.IndexSegment
import Verif.Props.Neighbours
import Mathlib.Tactic.Linarith
import Mathlib.Tactic.LinearCombination
/-! Helper lemmas: importing a triangulation. -/
set_option linter.unusedSectionVars false
namespace Delynoi
variable {K : Type} [Field K] [LinearOrder K] [IsStrictOrderedRing K]

/-! ### The edge index map -/

/-- The hash field of a key agrees with its ends. -/
def KeyOk (k : Key) : Prop := k.hash = pairHash k.first k.second

theorem key_hash_field (f : Int → Int → BitVec 64) (i j : Int) : (Key.mk i j (f i j)).hash = f i j :=
  rfl

theorem keyOk_mk' (i j : Int) : KeyOk (Key.mk' i j) := key_hash_field pairHash i j

def keyEnds (k : Key) : Sym2 Int := s(k.first, k.second)

theorem key_hash_congr (f : Int → Int → BitVec 64) (hc : ∀ i j, f i j = f j i) (a b : Key)
    (ha : a.hash = f a.first a.second) (hb : b.hash = f b.first b.second)
    (h : (a.first = b.first ∧ a.second = b.second) ∨ (a.first = b.second ∧ a.second = b.first)) :
    a.hash = b.hash := by
  rw [ha, hb]
  rcases h with ⟨e1, e2⟩ | ⟨e1, e2⟩
  · rw [e1, e2]
  · rw [e1, e2, hc]

theorem key_kernel : UMap.Kernel Key.hash Key.eq KeyOk keyEnds := by
  intro a b ha hb
  have h1 : a.eq b = true ↔
      (a.first = b.first ∧ a.second = b.second) ∨ (a.first = b.second ∧ a.second = b.first) := by
    simp [Key.eq]
  unfold keyEnds
  rw [Sym2.eq_iff, h1]
  exact ⟨fun h => h.2, fun h => ⟨key_hash_congr pairHash pairHash_comm a b ha hb h, h⟩⟩

theorem keyEnds_mk' (a b : Int) : keyEnds (Key.mk' a b) = s(a, b) := by
  have e1 : (Key.mk' a b).first = a := rfl
  have e2 : (Key.mk' a b).second = b := rfl
  unfold keyEnds; rw [e1, e2]

/-- Index of the first edge with given ends. -/
def edgeIdx (es : List (Int × Int × Int)) (p : Sym2 Int) : Option Int :=
  (es.findIdx? (fun e => decide (eEnds e = p))).map Int.ofNat

theorem edgeIdx_append (es : List (Int × Int × Int)) (e : Int × Int × Int) (p : Sym2 Int) :
    edgeIdx (es ++ [e]) p = (edgeIdx es p).or
      (if eEnds e = p then some (es.length : Int) else none) := by
  unfold edgeIdx
  rw [List.findIdx?_append]
  cases h : es.findIdx? (fun e => decide (eEnds e = p)) with
  | some k => simp
  | none =>
    simp only [Option.map_none, Option.none_or, Option.map_map]
    by_cases hp : eEnds e = p
    · simp [hp, List.findIdx?_cons]
    · simp [hp, List.findIdx?_cons]

theorem edgeIdx_of_nodup {es : List (Int × Int × Int)} (hn : (es.map eEnds).Nodup) {k : Nat}
    {e : Int × Int × Int} (hk : es[k]? = some e) : edgeIdx es (eEnds e) = some (k : Int) := by
  unfold edgeIdx
  have : es.findIdx? (fun e' => decide (eEnds e' = eEnds e)) = some k := by
    obtain ⟨hlt, rfl⟩ := List.getElem?_eq_some_iff.1 hk
    rw [List.findIdx?_eq_some_iff_getElem]
    refine ⟨hlt, by simp, ?_⟩
    intro j hj
    simp only [decide_eq_true_eq]
    intro hc
    have := (List.nodup_iff_getElem?_ne_getElem?.1 hn) j k hj (by simpa using hlt)
    apply this
    simp only [List.getElem?_map]
    rw [List.getElem?_eq_getElem (by omega), List.getElem?_eq_getElem hlt]
    simp [hc]
  rw [this]; rfl

/-- The map knows exactly the edges. -/
structure EMapOk (m : UMap Key Int) (es : List (Int × Int × Int)) : Prop where
  keys : ∀ e ∈ m, KeyOk e.1
  finds : ∀ a b, UMap.find Key.hash Key.eq m (Key.mk' a b) = edgeIdx es s(a, b)

theorem emap_insert {m : UMap Key Int} {es : List (Int × Int × Int)} (h : EMapOk m es)
    (e : Int × Int × Int) :
    EMapOk (UMap.upsert Key.hash Key.eq (es.length : Int) id m (Key.mk' e.1 e.2.1)) (es ++ [e]) := by
  refine ⟨UMap.upsert_keys _ _ m _ h.keys (keyOk_mk' _ _), ?_⟩
  intro a b
  have hu := UMap.find_upsert key_kernel (es.length : Int) id m (Key.mk' e.1 e.2.1) (Key.mk' a b)
    h.keys (keyOk_mk' _ _) (keyOk_mk' _ _)
  rw [keyEnds_mk', keyEnds_mk'] at hu
  rw [edgeIdx_append]
  have he : eEnds e = s(e.1, e.2.1) := rfl
  by_cases hc : s(e.1, e.2.1) = s(a, b)
  · rw [hu.1 hc, h.finds, hc, he, if_pos hc]
    cases edgeIdx es s(a, b) <;> rfl
  · rw [hu.2 hc, h.finds, he, if_neg hc]
    cases edgeIdx es s(a, b) <;> rfl

theorem edgeMapGet_found {m : UMap Key Int} {es : List (Int × Int × Int)} (h : EMapOk m es)
    (a b k : Int) (hk : edgeIdx es s(a, b) = some k) : edgeMapGet m (Key.mk' a b) = (m, k) := by
  unfold edgeMapGet
  rw [h.finds, hk]

/-! ### Edges -/

theorem vecModify_ok {α : Type} (v : List α) (i : Nat) (f : α → α) (h : i < v.length) :
    vecModify v (i : Int) f = .ok (v.modify i f) := by
  unfold vecModify
  rw [if_pos ⟨Int.natCast_nonneg i, by simpa using h⟩]
  simp

/-- What `PointData` of the point `v` knows after the edges `done`. -/
def PointOk (done : List (Int × Int × Int)) (v : Int) (p : PointData) : Prop :=
  (p.edge = -1 ∧ ∀ e ∈ done, v ∉ eEnds e) ∨
  ∃ (k : Nat) (e : Int × Int × Int), p.edge = (k : Int) ∧ done[k]? = some e ∧ v ∈ eEnds e ∧
    ((∃ e' ∈ done, v ∈ eEnds e' ∧ e'.2.2 = 1) → e.2.2 = 1)

theorem pointOk_skip {done : List (Int × Int × Int)} {v : Int} {p : PointData}
    {e : Int × Int × Int} (h : PointOk done v p) (he : v ∉ eEnds e) : PointOk (done ++ [e]) v p := by
  rcases h with ⟨h1, h2⟩ | ⟨k, e', h1, h2, h3, h4⟩
  · left
    refine ⟨h1, ?_⟩
    intro e' he'
    rcases List.mem_append.1 he' with h | h
    · exact h2 e' h
    · simp at h; subst h; exact he
  · right
    have hlt := (List.getElem?_eq_some_iff.1 h2).1
    refine ⟨k, e', h1, by rw [List.getElem?_append_left hlt]; exact h2, h3, ?_⟩
    rintro ⟨e'', he'', h5, h6⟩
    rcases List.mem_append.1 he'' with h | h
    · exact h4 ⟨e'', h, h5, h6⟩
    · simp at h; subst h; exact absurd h5 he

theorem pointOk_set {done : List (Int × Int × Int)} {v : Int} {p : PointData}
    {e : Int × Int × Int} (h : PointOk done v p) (he : v ∈ eEnds e) :
    PointOk (done ++ [e]) v (p.setEdge (done.length : Int) e.2.2) := by
  right
  unfold PointData.setEdge
  split
  · rename_i hc
    refine ⟨done.length, e, rfl, by simp, he, ?_⟩
    rintro ⟨e', he', h5, h6⟩
    rcases List.mem_append.1 he' with h' | h'
    · rcases h with ⟨h1, h2⟩ | ⟨k, e'', h1, h2, h3, h4⟩
      · exact absurd h5 (h2 e' h')
      · rcases hc with hc | hc
        · rw [h1] at hc; omega
        · exact hc
    · simp at h'; subst h'; exact h6
  · rename_i hc
    have hc1 : p.edge ≠ -1 := fun h => hc (Or.inl h)
    have hc2 : e.2.2 ≠ 1 := fun h => hc (Or.inr h)
    rcases h with ⟨h1, _⟩ | ⟨k, e'', h1, h2, h3, h4⟩
    · exact absurd h1 hc1
    · have hlt := (List.getElem?_eq_some_iff.1 h2).1
      refine ⟨k, e'', h1, by rw [List.getElem?_append_left hlt]; exact h2, h3, ?_⟩
      rintro ⟨e', he', h5, h6⟩
      rcases List.mem_append.1 he' with h' | h'
      · exact h4 ⟨e', h', h5, h6⟩
      · simp at h'; subst h'; exact absurd h6 hc2

/-- Invariant of the loop over the edges. -/
structure EdgeInv (pts : List (Pt K)) (done : List (Int × Int × Int)) (d : DelInfo K) : Prop where
  mesh : d.meshPoints = pts
  edges : d.edges = done.map (fun e => EdgeData.mk' e.1 e.2.1)
  emap : EMapOk d.edgeMap done
  plen : d.points.length = pts.length
  pdata : ∀ (v : Nat) p, d.points[v]? = some p → PointOk done (v : Int) p
  tris : d.triangles = []
  real : d.realPoints = UList.empty
  circ : d.circumcenters = UList.empty
  del : d.delaunayEdges = SegMap.empty

theorem mem_eEnds (v : Int) (e : Int × Int × Int) : v ∈ eEnds e ↔ v = e.1 ∨ v = e.2.1 := by
  unfold eEnds; rw [Sym2.mem_iff]

theorem importEdge_inv {pts : List (Pt K)} {done : List (Int × Int × Int)} {d : DelInfo K}
    (h : EdgeInv pts done d) (e : Int × Int × Int) (h1 : 0 ≤ e.1 ∧ e.1 < pts.length)
    (h2 : 0 ≤ e.2.1 ∧ e.2.1 < pts.length) (h3 : e.1 ≠ e.2.1) :
    ∃ d', d.importEdge (done.length : Int) e = .ok d' ∧ EdgeInv pts (done ++ [e]) d' := by
  obtain ⟨a, ha⟩ := Int.eq_ofNat_of_zero_le h1.1
  obtain ⟨b, hb⟩ := Int.eq_ofNat_of_zero_le h2.1
  have hal : a < d.points.length := by rw [h.plen]; omega
  have hbl : b < d.points.length := by rw [h.plen]; omega
  have hab : a ≠ b := by intro hc; apply h3; rw [ha, hb, hc]
  have g1 := vecModify_ok d.points a (fun p => p.setEdge (done.length : Int) e.2.2) hal
  have g2 := vecModify_ok (d.points.modify a (fun p => p.setEdge (done.length : Int) e.2.2)) b
    (fun p => p.setEdge (done.length : Int) e.2.2) (by simpa using hbl)
  refine ⟨_, by
    unfold DelInfo.importEdge
    simp only
    rw [ha, g1]
    simp only [Outcome.bind_ok]
    rw [hb, g2]
    rfl, ?_⟩
  have hem := emap_insert h.emap e
  rw [ha, hb] at hem
  refine ⟨h.mesh, ?_, ?_, ?_, ?_, h.tris, h.real, h.circ, h.del⟩
  · simp [h.edges, ha, hb]
  · exact hem
  · simp [h.plen]
  · intro v p hp
    simp only at hp
    rw [List.getElem?_modify, List.getElem?_modify] at hp
    obtain ⟨q, hq, hqp⟩ : ∃ q, d.points[v]? = some q ∧
        (if b = v then fun p : PointData => p.setEdge (done.length : Int) e.2.2 else id)
          ((if a = v then fun p : PointData => p.setEdge (done.length : Int) e.2.2 else id) q)
            = p := by
      cases hq : d.points[v]? with
      | none => rw [hq] at hp; simp at hp
      | some q =>
        rw [hq] at hp
        refine ⟨q, rfl, ?_⟩
        by_cases h1 : a = v <;> by_cases h2 : b = v <;> simp [h1, h2] at hp ⊢ <;> exact hp
    have hold := h.pdata v q hq
    by_cases hav : a = v
    · have hbv : ¬ b = v := by omega
      rw [if_pos hav, if_neg hbv] at hqp
      rw [← hqp]
      exact pointOk_set hold ((mem_eEnds _ _).2 (Or.inl (by rw [ha, hav])))
    · by_cases hbv : b = v
      · rw [if_neg hav, if_pos hbv] at hqp
        rw [← hqp]
        exact pointOk_set hold ((mem_eEnds _ _).2 (Or.inr (by rw [hb, hbv])))
      · rw [if_neg hav, if_neg hbv] at hqp
        rw [← hqp]
        refine pointOk_skip hold ?_
        rw [mem_eEnds, ha, hb]
        rintro (h | h)
        · exact hav (by have : (v : Int) = (a : Int) := h; omega)
        · exact hbv (by have : (v : Int) = (b : Int) := h; omega)

theorem importEdges_inv {pts : List (Pt K)} : ∀ (es done : List (Int × Int × Int)) {d : DelInfo K},
    EdgeInv pts done d → (∀ e ∈ es, (0 ≤ e.1 ∧ e.1 < pts.length) ∧
      (0 ≤ e.2.1 ∧ e.2.1 < pts.length) ∧ e.1 ≠ e.2.1) →
    ∃ d', d.importEdges (done.length : Int) es = .ok d' ∧ EdgeInv pts (done ++ es) d' := by
  intro es
  induction es with
  | nil => intro done d h _; exact ⟨d, rfl, by simpa using h⟩
  | cons e es ih =>
    intro done d h he
    obtain ⟨r1, r2, r3⟩ := he e (by simp)
    obtain ⟨d1, hd1, hi1⟩ := importEdge_inv h e r1 r2 r3
    obtain ⟨d2, hd2, hi2⟩ := ih (done ++ [e]) hi1 (fun e he' => he e (by simp [he']))
    refine ⟨d2, ?_, by simpa using hi2⟩
    unfold DelInfo.importEdges
    rw [hd1, Outcome.bind_ok]
    have : ((done ++ [e]).length : Int) = (done.length : Int) + 1 := by simp
    rw [← this]; exact hd2

/-! ### Triangles -/

/-- Edge record with given incident triangles. -/
def edgeRec (e : Int × Int × Int) (ts : List Int) : EdgeData :=
  ts.foldl EdgeData.setTriangle (EdgeData.mk' e.1 e.2.1)

theorem edgeRec_append (e : Int × Int × Int) (ts : List Int) (t : Int) :
    edgeRec e (ts ++ [t]) = (edgeRec e ts).setTriangle t := by simp [edgeRec]

theorem incident_append (ts : List (Int × Int × Int)) (t : Int × Int × Int) (p : Sym2 Int) :
    incident (ts ++ [t]) p = incident ts p ++ (if p ∈ sides t then [(ts.length : Int)] else []) := by
  unfold incident
  rw [List.zipIdx_append]
  by_cases h : p ∈ sides t
  · simp [h]
  · simp [h]

/-- Three updates at different places, seen from one place. -/
theorem modify3 {α : Type} (l : List α) (f : α → α) (i j k n : Nat) (a : α) (hij : i ≠ j)
    (hjk : j ≠ k) (hik : i ≠ k) (h : l[n]? = some a) :
    (((l.modify i f).modify j f).modify k f)[n]? = some (if n = i ∨ n = j ∨ n = k then f a else a) := by
  rw [List.getElem?_modify, List.getElem?_modify, List.getElem?_modify, h]
  by_cases h1 : n = i
  · subst h1
    have a1 : ¬ j = n := fun h => hij h.symm
    have a2 : ¬ k = n := fun h => hik h.symm
    simp [a1, a2]
  · by_cases h2 : n = j
    · subst h2
      have a1 : ¬ i = n := hij
      have a2 : ¬ k = n := fun h => hjk h.symm
      simp [a1, a2]
    · by_cases h3 : n = k
      · subst h3
        have a1 : ¬ i = n := hik
        have a2 : ¬ j = n := hjk
        simp [a1, a2]
      · have a1 : ¬ i = n := fun h => h1 h.symm
        have a2 : ¬ j = n := fun h => h2 h.symm
        have a3 : ¬ k = n := fun h => h3 h.symm
        simp [h1, h2, h3, a1, a2, a3]

/-- `UniqueList<int>` order. -/
theorem swo_int : SWO ltInt Set.univ := by
  refine ⟨?_, ?_, ?_⟩ <;> simp [ltInt] <;> omega

theorem equiv_int (a b : Int) : Equiv' ltInt a b ↔ a = b := by
  simp [Equiv', ltInt]; omega

theorem specPush_int (acc : List Int) (x : Int) : specPush ltInt acc x = addNew acc x := by
  unfold specPush addNew
  simp [equiv_int]

theorem pushInt {u : UList Int} (h : UList.Inv ltInt Set.univ u) (x : Int) :
    UList.Inv ltInt Set.univ (u.pushBack ltInt x).1 ∧
      (u.pushBack ltInt x).1.list = addNew u.list x :=
  ⟨UList.inv_pushBack swo_int h trivial, by
    rw [UList.pushBack_list swo_int h trivial, specPush_int]⟩

/-- Invariant of the loop over the triangles, except for the reported edges. -/
structure TriCore (tol : K) (out : TriOut K) (done : List (Int × Int × Int)) (d : DelInfo K) :
    Prop where
  mesh : d.meshPoints = out.points
  edges : d.edges = out.edges.map (fun e => edgeRec e (incident done (eEnds e)))
  emap : EMapOk d.edgeMap out.edges
  plen : d.points.length = out.points.length
  pdata : ∀ (v : Nat) p, d.points[v]? = some p → PointOk out.edges (v : Int) p
  tlen : d.triangles.length = done.length
  tris : ∀ (k : Nat) t, done[k]? = some t → ∃ (c : Nat) (a b e q cc : Pt K),
    d.triangles[k]? = some ⟨[t.1, t.2.1, t.2.2], (c : Int)⟩ ∧
    vecGet out.points t.1 = .ok a ∧ vecGet out.points t.2.1 = .ok b ∧
    vecGet out.points t.2.2 = .ok e ∧ circumcenter a b e = some cc ∧
    d.circumcenters.list[c]? = some q ∧ (q = cc ∨ Equiv' (fun x y : Pt K => x.ltTol tol y) q cc)
  real : UList.Inv ltInt Set.univ d.realPoints
  realList : d.realPoints.list = (done.flatMap verts).foldl addNew []
  circ : UList.Decodes d.circumcenters
  cen : ∀ q ∈ d.circumcenters.list, ∃ t ∈ done, ∃ a b c : Pt K, vecGet out.points t.1 = .ok a ∧
    vecGet out.points t.2.1 = .ok b ∧ vecGet out.points t.2.2 = .ok c ∧ circumcenter a b c = some q
  cinv : ∀ S : Set (Pt K), SWO (fun x y : Pt K => x.ltTol tol y) S →
    (∀ t ∈ out.tris, ∀ a b c q, vecGet out.points t.1 = .ok a → vecGet out.points t.2.1 = .ok b →
      vecGet out.points t.2.2 = .ok c → circumcenter a b c = some q → q ∈ S) →
    UList.Inv (fun x y : Pt K => x.ltTol tol y) S d.circumcenters

/-- Invariant of the loop over the triangles. -/
structure TriInv (tol : K) (out : TriOut K) (done : List (Int × Int × Int)) (d : DelInfo K) :
    Prop extends TriCore tol out done d where
  del : d.delaunayEdges = SegMap.empty

theorem circumD_eq_turn (a b c : Pt K) : circumD a b c = 2 * turn a b c := by
  unfold circumD turn; ring

theorem side_idx {out : TriOut K} (hv : ValidOut out) {t : Int × Int × Int} (ht : t ∈ out.tris)
    {p : Sym2 Int} (hp : p ∈ sides t) :
    ∃ (k : Nat) (e : Int × Int × Int), out.edges[k]? = some e ∧ eEnds e = p ∧
      edgeIdx out.edges p = some (k : Int) := by
  obtain ⟨e, he, hep⟩ := List.mem_map.1 (hv.sidesAreEdges t ht p hp)
  obtain ⟨k, hk⟩ := List.mem_iff_getElem?.1 he
  exact ⟨k, e, hk, hep, by rw [← hep]; exact edgeIdx_of_nodup hv.edgeDistinct hk⟩

theorem importTri_inv (tol : K) {out : TriOut K} (hv : ValidOut out)
    {done : List (Int × Int × Int)} {d : DelInfo K} (h : TriInv tol out done d)
    (t : Int × Int × Int) (ht : t ∈ out.tris) :
    ∃ d', d.importTri tol (done.length : Int) t = .ok d' ∧ TriInv tol out (done ++ [t]) d' := by
  obtain ⟨pa, pb, pc, ga, gb, gc, hturn⟩ := hv.triProper t ht
  have hd0 : circumD pa pb pc ≠ 0 := by
    rw [circumD_eq_turn]; exact mul_ne_zero two_ne_zero hturn
  obtain ⟨cc, hcc⟩ : ∃ cc, circumcenter pa pb pc = some cc := by
    unfold circumcenter; rw [if_neg hd0]; exact ⟨_, rfl⟩
  obtain ⟨k1, e1, hk1, he1, hi1⟩ := side_idx hv ht (p := s(t.1, t.2.1)) (by simp [sides])
  obtain ⟨k2, e2, hk2, he2, hi2⟩ := side_idx hv ht (p := s(t.2.1, t.2.2)) (by simp [sides])
  obtain ⟨k3, e3, hk3, he3, hi3⟩ := side_idx hv ht (p := s(t.2.2, t.1)) (by simp [sides])
  -- the vertices are different
  have hne : t.1 ≠ t.2.1 ∧ t.2.1 ≠ t.2.2 ∧ t.2.2 ≠ t.1 := by
    refine ⟨?_, ?_, ?_⟩ <;> intro hc
    · rw [hc, gb] at ga; obtain rfl := Outcome.ok.inj ga; apply hturn; unfold turn; ring
    · rw [hc, gc] at gb; obtain rfl := Outcome.ok.inj gb; apply hturn; unfold turn; ring
    · rw [hc, ga] at gc; obtain rfl := Outcome.ok.inj gc; apply hturn; unfold turn; ring
  have hk12 : k1 ≠ k2 := by
    rintro rfl
    rw [hk1] at hk2; obtain rfl := Option.some.inj hk2
    rw [he1] at he2
    rcases Sym2.eq_iff.1 he2 with ⟨a1, a2⟩ | ⟨a1, a2⟩
    · exact hne.1 a1
    · exact hne.2.2 a1.symm
  have hk23 : k2 ≠ k3 := by
    rintro rfl
    rw [hk2] at hk3; obtain rfl := Option.some.inj hk3
    rw [he2] at he3
    rcases Sym2.eq_iff.1 he3 with ⟨a1, a2⟩ | ⟨a1, a2⟩
    · exact hne.2.1 a1
    · exact hne.1 a1.symm
  have hk13 : k1 ≠ k3 := by
    rintro rfl
    rw [hk1] at hk3; obtain rfl := Option.some.inj hk3
    rw [he1] at he3
    rcases Sym2.eq_iff.1 he3 with ⟨a1, a2⟩ | ⟨a1, a2⟩
    · exact hne.2.2 a1.symm
    · exact hne.2.1 a2
  have hlen : d.edges.length = out.edges.length := by rw [h.edges]; simp
  have hl1 : k1 < d.edges.length := by rw [hlen]; exact (List.getElem?_eq_some_iff.1 hk1).1
  have hl2 : k2 < d.edges.length := by rw [hlen]; exact (List.getElem?_eq_some_iff.1 hk2).1
  have hl3 : k3 < d.edges.length := by rw [hlen]; exact (List.getElem?_eq_some_iff.1 hk3).1
  set f : EdgeData → EdgeData := fun e => e.setTriangle (done.length : Int) with hf
  have m1 := edgeMapGet_found h.emap t.1 t.2.1 _ hi1
  have m2 := edgeMapGet_found h.emap t.2.1 t.2.2 _ hi2
  have m3 := edgeMapGet_found h.emap t.2.2 t.1 _ hi3
  have v1 := vecModify_ok d.edges k1 f hl1
  have v2 := vecModify_ok (d.edges.modify k1 f) k2 f (by simpa using hl2)
  have v3 := vecModify_ok ((d.edges.modify k1 f).modify k2 f) k3 f (by simpa using hl3)
  have hpush := UList.pushBack_weak (lt := fun x y : Pt K => x.ltTol tol y) h.circ cc
  obtain ⟨pd1, ⟨q, pq1, pq2⟩, ⟨tail, ptail⟩⟩ := hpush
  obtain ⟨ra, rb⟩ := pushInt h.real t.1
  obtain ⟨rc, rd⟩ := pushInt ra t.2.1
  obtain ⟨re, rf⟩ := pushInt rc t.2.2
  refine ⟨_, by
    unfold DelInfo.importTri
    simp only [h.mesh, ga, gb, gc, Outcome.bind_ok, hcc, m1, m2, m3]
    rw [v1, Outcome.bind_ok, v2, Outcome.bind_ok, v3, Outcome.bind_ok]
    rfl, ?_⟩
  refine ⟨⟨rfl, ?_, h.emap, h.plen, h.pdata, ?_, ?_, re, ?_, pd1, ?_, ?_⟩, h.del⟩
  · -- edge records
    apply List.ext_getElem?
    intro n
    simp only [List.getElem?_map]
    cases hn : out.edges[n]? with
    | none =>
      have : out.edges.length ≤ n := List.getElem?_eq_none_iff.1 hn
      simp; omega
    | some e =>
      have hdn : d.edges[n]? = some (edgeRec e (incident done (eEnds e))) := by
        rw [h.edges]; simp [hn]
      rw [modify3 d.edges f k1 k2 k3 n _ hk12 hk23 hk13 hdn]
      simp only [Option.map_some, Option.some.injEq]
      rw [incident_append]
      have hiff : (n = k1 ∨ n = k2 ∨ n = k3) ↔ eEnds e ∈ sides t := by
        have huniq : ∀ (k : Nat) (e' : Int × Int × Int), out.edges[k]? = some e' →
            eEnds e' = eEnds e → n = k := by
          intro k e' hk he'
          have a1 := edgeIdx_of_nodup hv.edgeDistinct hk
          have a2 := edgeIdx_of_nodup hv.edgeDistinct hn
          rw [he', a2] at a1
          exact_mod_cast Option.some.inj a1
        constructor
        · rintro (rfl | rfl | rfl)
          · rw [hk1] at hn; obtain rfl := Option.some.inj hn; rw [he1]; simp [sides]
          · rw [hk2] at hn; obtain rfl := Option.some.inj hn; rw [he2]; simp [sides]
          · rw [hk3] at hn; obtain rfl := Option.some.inj hn; rw [he3]; simp [sides]
        · intro hm
          simp only [sides, List.mem_cons, List.not_mem_nil, or_false] at hm
          rcases hm with hm | hm | hm
          · exact Or.inl (huniq k1 e1 hk1 (he1.trans hm.symm))
          · exact Or.inr (Or.inl (huniq k2 e2 hk2 (he2.trans hm.symm)))
          · exact Or.inr (Or.inr (huniq k3 e3 hk3 (he3.trans hm.symm)))
      by_cases hm : eEnds e ∈ sides t
      · rw [if_pos (hiff.2 hm), if_pos hm, edgeRec_append]
      · rw [if_neg (fun hc => hm (hiff.1 hc)), if_neg hm, List.append_nil]
  · simp [h.tlen]
  · intro k t' hk
    simp only
    by_cases hlt : k < done.length
    · rw [List.getElem?_append_left hlt] at hk
      obtain ⟨c, a, b, e, q', cc', h1, h2, h3, h4, h5, h6, h7⟩ := h.tris k t' hk
      refine ⟨c, a, b, e, q', cc', ?_, h2, h3, h4, h5, ?_, h7⟩
      · rw [List.getElem?_append_left (by rw [h.tlen]; exact hlt)]; exact h1
      · rw [ptail, List.getElem?_append_left (List.getElem?_eq_some_iff.1 h6).1]; exact h6
    · rw [List.getElem?_append_right (by omega)] at hk
      have hk0 : k = done.length := by
        have := (List.getElem?_eq_some_iff.1 hk).1
        simp at this; omega
      subst hk0
      simp at hk; subst hk
      refine ⟨_, pa, pb, pc, q, cc, ?_, ga, gb, gc, hcc, pq1, pq2⟩
      rw [List.getElem?_append_right (by rw [h.tlen])]
      simp [h.tlen]
  · simp only
    rw [rf, rd, rb, h.realList, List.flatMap_append, List.foldl_append]
    rfl
  · intro q' hq'
    simp only at hq'
    have hcase : q' ∈ d.circumcenters.list ∨ q' = cc := by
      rcases UList.pushBack_tail (lt := fun x y : Pt K => x.ltTol tol y) d.circumcenters cc with hl | hl
      · rw [hl] at hq'; exact Or.inl hq'
      · rw [hl] at hq'; simpa using hq'
    rcases hcase with hq' | rfl
    · obtain ⟨t', ht', a, b, c, h1⟩ := h.cen q' hq'
      exact ⟨t', List.mem_append_left _ ht', a, b, c, h1⟩
    · exact ⟨t, by simp, pa, pb, pc, ga, gb, gc, hcc⟩
  · intro S hS hC
    exact UList.inv_pushBack hS (h.cinv S hS hC) (hC t ht pa pb pc cc ga gb gc hcc)

theorem importTris_inv (tol : K) {out : TriOut K} (hv : ValidOut out) :
    ∀ (ts done : List (Int × Int × Int)) {d : DelInfo K},
    TriInv tol out done d → (∀ t ∈ ts, t ∈ out.tris) →
    ∃ d', d.importTris tol (done.length : Int) ts = .ok d' ∧ TriInv tol out (done ++ ts) d' := by
  intro ts
  induction ts with
  | nil => intro done d h _; exact ⟨d, rfl, by simpa using h⟩
  | cons t ts ih =>
    intro done d h ht
    obtain ⟨d1, hd1, hi1⟩ := importTri_inv tol hv h t (ht t (by simp))
    obtain ⟨d2, hd2, hi2⟩ := ih (done ++ [t]) hi1 (fun t ht' => ht t (by simp [ht']))
    refine ⟨d2, ?_, by simpa using hi2⟩
    unfold DelInfo.importTris
    rw [hd1, Outcome.bind_ok]
    have : ((done ++ [t]).length : Int) = (done.length : Int) + 1 := by simp
    rw [← this]; exact hd2

/-- Everything known about the imported information. -/
structure Imported (tol : K) (out : TriOut K) (d : DelInfo K) : Prop extends
    (TriInv tol out out.tris { d with delaunayEdges := SegMap.empty }) where
  reported : d.delaunayEdges = d.edges.foldl
    (fun m e => SegMap.assign m (ISeg.mk' e.p1 e.p2) (NbSeg.two e.t1 e.t2)) SegMap.empty

theorem Imported.core {tol : K} {out : TriOut K} {d : DelInfo K} (h : Imported tol out d) :
    TriCore tol out out.tris d :=
  ⟨h.mesh, h.edges, h.emap, h.plen, h.pdata, h.tlen, h.tris, h.real, h.realList, h.circ, h.cen, h.cinv⟩

theorem import_ok (tol : K) {out : TriOut K} (hv : ValidOut out) :
    ∃ d, DelInfo.importOut tol DelInfo.empty out = .ok d ∧ Imported tol out d := by
  have h0 : EdgeInv out.points [] ((DelInfo.empty : DelInfo K).importPoints out.points) := by
    refine ⟨by simp [DelInfo.importPoints, DelInfo.empty], rfl, ⟨by simp [DelInfo.importPoints, DelInfo.empty], ?_⟩,
      by simp [DelInfo.importPoints, DelInfo.empty], ?_, rfl, rfl, rfl, rfl⟩
    · intro a b; rfl
    · intro v p hp
      simp only [DelInfo.importPoints, DelInfo.empty, List.nil_append, List.getElem?_map] at hp
      left
      cases hq : out.points[v]? with
      | none => rw [hq] at hp; simp at hp
      | some q => rw [hq] at hp; simp at hp; rw [← hp]; simp
  obtain ⟨d1, hd1, hi1⟩ := importEdges_inv out.edges [] h0 hv.edgeRange
  have hi1' : EdgeInv out.points out.edges d1 := by simpa using hi1
  have h2 : TriInv tol out [] d1 := by
    refine ⟨⟨hi1'.mesh, ?_, hi1'.emap, hi1'.plen, hi1'.pdata, by simp [hi1'.tris], by simp, ?_, ?_, ?_, ?_, ?_⟩,
      hi1'.del⟩
    · rw [hi1'.edges]; rfl
    · rw [hi1'.real]; exact UList.inv_empty
    · rw [hi1'.real]; rfl
    · rw [hi1'.circ]; exact UList.decodes_empty
    · rw [hi1'.circ]; intro q hq; simp [UList.empty] at hq
    · rw [hi1'.circ]; intro S _ _; exact UList.inv_empty
  obtain ⟨d2, hd2, hi2⟩ := importTris_inv tol hv out.tris [] h2 (fun t h => h)
  have hi2' : TriInv tol out out.tris d2 := by simpa using hi2
  refine ⟨d2.reportEdges, ?_, ?_⟩
  · unfold DelInfo.importOut
    have e1 : ((([] : List (Int × Int × Int)).length : Nat) : Int) = 0 := rfl
    rw [e1] at hd1 hd2
    rw [hd1, Outcome.bind_ok, hd2, Outcome.bind_ok]; rfl
  · refine ⟨?_, ?_⟩
    · have : ({ d2.reportEdges with delaunayEdges := SegMap.empty } : DelInfo K) = d2 := by
        have := hi2'.del
        cases d2; simp only at this; subst this; rfl
      rw [this]; exact hi2'
    · unfold DelInfo.reportEdges
      simp only
      rw [hi2'.del]

end Delynoi
