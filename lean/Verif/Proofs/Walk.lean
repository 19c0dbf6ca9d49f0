import Verif.Proofs.EdgeRec
import Verif.Proofs.Fan
import Verif.Props.Triangle
import Verif.Props.Area
/-! Helper lemmas: the walk of the Voronoi construction around one vertex. -/
set_option linter.unusedSectionVars false
namespace Delynoi
variable {K : Type} [Field K] [LinearOrder K] [IsStrictOrderedRing K]

/-! ### Small facts -/

/-- A valid `int` index of a vector of length `n`. -/
def InR (n : Nat) (i : Int) : Prop := 0 ≤ i ∧ i < n

theorem vecGet_inR {α : Type} {l : List α} {i : Int} (h : InR l.length i) :
    ∃ a, vecGet l i = .ok a := by
  obtain ⟨h0, h1⟩ := h
  refine ⟨l[i.toNat]'(by omega), vecGet_ok_iff.2 ⟨h0, ?_⟩⟩
  exact List.getElem?_eq_getElem _

theorem inR_of_vecGet {α : Type} {l : List α} {i : Int} {a : α} (h : vecGet l i = .ok a) :
    InR l.length i := by
  obtain ⟨h0, h1⟩ := vecGet_ok_iff.1 h
  have := (List.getElem?_eq_some_iff.1 h1).1
  exact ⟨h0, by omega⟩

theorem vecGet_append {α : Type} {l t : List α} {i : Int} {a : α} (h : vecGet l i = .ok a) :
    vecGet (l ++ t) i = .ok a := by
  obtain ⟨h0, h1⟩ := vecGet_ok_iff.1 h
  refine vecGet_ok_iff.2 ⟨h0, ?_⟩
  rw [List.getElem?_append_left (List.getElem?_eq_some_iff.1 h1).1]; exact h1

theorem vecGet_nat {α : Type} {l : List α} {k : Nat} {a : α} (h : l[k]? = some a) :
    vecGet l (k : Int) = .ok a := vecGet_ok_iff.2 ⟨by omega, by simpa using h⟩

theorem mem_of_vecGet {α : Type} {l : List α} {i : Int} {a : α} (h : vecGet l i = .ok a) :
    a ∈ l := List.mem_of_getElem? (vecGet_ok_iff.1 h).2

theorem InR.mono {n m : Nat} {i : Int} (h : InR n i) (hnm : n ≤ m) : InR m i :=
  ⟨h.1, by have := h.2; omega⟩

theorem mem_addNew (l : List Int) (x y : Int) : y ∈ addNew l x ↔ y ∈ l ∨ y = x := by
  unfold addNew
  split
  · rename_i h
    constructor
    · exact Or.inl
    · rintro (h' | rfl)
      · exact h'
      · exact h
  · simp

theorem nodup_addNew {l : List Int} (h : l.Nodup) (x : Int) : (addNew l x).Nodup := by
  unfold addNew
  split
  · exact h
  · rename_i hx
    rw [List.nodup_append]
    refine ⟨h, by simp, ?_⟩
    intro a ha b hb hab
    simp at hb; subst hb; subst hab; exact hx ha

theorem firsts_append (l : List Int) (x : Int) : firsts (l ++ [x]) = addNew (firsts l) x := by
  simp [firsts]

theorem mem_firsts (l : List Int) (x : Int) : x ∈ firsts l ↔ x ∈ l := by
  induction l using List.reverseRecOn with
  | nil => simp [firsts]
  | append_singleton l y ih => rw [firsts_append, mem_addNew, ih]; simp

theorem nodup_firsts (l : List Int) : (firsts l).Nodup := by
  induction l using List.reverseRecOn with
  | nil => simp [firsts]
  | append_singleton l y ih => rw [firsts_append]; exact nodup_addNew ih y

theorem addNew_mem {l : List Int} {x : Int} (h : x ∈ l) : addNew l x = l := by
  unfold addNew; rw [if_pos h]

/-! ### Triangulation facts in the vocabulary of fans -/

theorem properTris_of_valid {out : TriOut K} (hv : ValidOut out) : ProperTris out.tris := by
  intro t ht
  obtain ⟨pa, pb, pc, ga, gb, gc, hturn⟩ := hv.triProper t ht
  refine ⟨?_, ?_, ?_⟩ <;> intro hc
  · rw [hc, gb] at ga; obtain rfl := Outcome.ok.inj ga; apply hturn; unfold turn; ring
  · rw [hc, gc] at gb; obtain rfl := Outcome.ok.inj gb; apply hturn; unfold turn; ring
  · rw [hc, ga] at gc; obtain rfl := Outcome.ok.inj gc; apply hturn; unfold turn; ring

theorem hasSide_iff (tris : List (Int × Int × Int)) (v a : Int) (t : Nat) :
    HasSide tris v a t ↔ (t : Int) ∈ incident tris s(v, a) := by
  rw [mem_incident]
  constructor
  · rintro ⟨tt, h1, h2⟩; exact ⟨t, tt, rfl, h1, h2⟩
  · rintro ⟨n, tt, hn, h1, h2⟩
    obtain rfl : t = n := by exact_mod_cast hn
    exact ⟨tt, h1, h2⟩

theorem HasSide.lt {tris : List (Int × Int × Int)} {v a : Int} {t : Nat} (h : HasSide tris v a t) :
    t < tris.length := by
  obtain ⟨tt, h1, _⟩ := h
  exact (List.getElem?_eq_some_iff.1 h1).1

theorem twoSided_of_valid {out : TriOut K} (hv : ValidOut out) : TwoSided out.tris := by
  intro v x t1 t2 t3 h1 h2 h3
  have hlen : (incident out.tris s(v, x)).length ≤ 2 := by
    obtain ⟨tt, g1, g2⟩ := h1
    obtain ⟨e, he, hee⟩ := List.mem_map.1 (hv.sidesAreEdges tt (List.mem_of_getElem? g1) _ g2)
    rw [← hee]; exact hv.atMostTwo e he
  rw [hasSide_iff] at h1 h2 h3
  match hl : incident out.tris s(v, x), hlen with
  | [], _ => rw [hl] at h1; simp at h1
  | [a], _ => rw [hl] at h1 h2; simp at h1 h2; left; omega
  | [a, b], _ =>
    rw [hl] at h1 h2 h3
    simp at h1 h2 h3
    omega

/-- The edge from `v` to `a` is number `k` and has the record `r`. -/
structure EdgeAt (out : TriOut K) (d : DelInfo K) (v a : Int) (k : Nat) (r : EdgeData) : Prop where
  idx : edgeIdx out.edges s(v, a) = some (k : Int)
  recd : d.edges[k]? = some r
  ends : s(r.p1, r.p2) = s(v, a)
  src : ∃ e, out.edges[k]? = some e ∧ eEnds e = s(v, a)
  t1 : 0 ≤ r.t1
  inc : (r.t2 = -1 ∧ incident out.tris s(v, a) = [r.t1]) ∨
    (0 ≤ r.t2 ∧ r.t1 ≠ r.t2 ∧ incident out.tris s(v, a) = [r.t1, r.t2])

section
variable {tol : K} {out : TriOut K} {d : DelInfo K}

theorem edgeAt_of_idx (hv : ValidOut out) (h : TriCore tol out out.tris d) {k : Nat}
    {e : Int × Int × Int} (hk : out.edges[k]? = some e) {v a : Int} (he : eEnds e = s(v, a)) :
    ∃ r, EdgeAt out d v a k r := by
  obtain ⟨r, h1, h2, h3, h4, h5⟩ := h.edgeAt hv hk
  have hi := edgeIdx_of_nodup hv.edgeDistinct hk
  rw [he] at h5 hi
  refine ⟨r, hi, h1, ?_, ⟨e, hk, he⟩, h4, h5⟩
  rw [h2, h3]; exact he

theorem edgeAt_of_side (hv : ValidOut out) (h : TriCore tol out out.tris d) {v a : Int} {t : Nat}
    (hs : HasSide out.tris v a t) : ∃ k r, EdgeAt out d v a k r := by
  obtain ⟨tt, h1, h2⟩ := hs
  obtain ⟨k, e, hk, he, _⟩ := side_idx hv (List.mem_of_getElem? h1) h2
  obtain ⟨r, hr⟩ := edgeAt_of_idx hv h hk he
  exact ⟨k, r, hr⟩

theorem EdgeAt.hasSide1 {v a : Int} {k : Nat} {r : EdgeData} (h : EdgeAt out d v a k r) :
    ∃ t : Nat, r.t1 = (t : Int) ∧ HasSide out.tris v a t := by
  obtain ⟨t, ht⟩ := Int.eq_ofNat_of_zero_le h.t1
  refine ⟨t, ht, (hasSide_iff _ _ _ _).2 ?_⟩
  rw [← ht]
  rcases h.inc with ⟨_, h2⟩ | ⟨_, _, h2⟩ <;> rw [h2] <;> simp

/-- The triangle on the other side of an edge. -/
theorem EdgeAt.other {v a : Int} {k : Nat} {r : EdgeData} (h : EdgeAt out d v a k r) {t : Nat}
    (ht : HasSide out.tris v a t) :
    ((if r.t1 ≠ (t : Int) then r.t1 else r.t2) = -1 ∧ r.t2 = -1 ∧
      ∀ u, HasSide out.tris v a u → u = t) ∨
    ∃ u : Nat, (if r.t1 ≠ (t : Int) then r.t1 else r.t2) = (u : Int) ∧ u ≠ t ∧
      HasSide out.tris v a u ∧ r.t2 ≠ -1 := by
  have ht' := (hasSide_iff _ _ _ _).1 ht
  rcases h.inc with ⟨h1, h2⟩ | ⟨h1, h2, h3⟩
  · left
    rw [h2] at ht'
    simp at ht'
    rw [if_neg (by simpa using ht'.symm)]
    refine ⟨h1, h1, ?_⟩
    intro u hu
    have hu' := (hasSide_iff _ _ _ _).1 hu
    rw [h2] at hu'; simp at hu'; omega
  · right
    rw [h3] at ht'
    simp at ht'
    by_cases hc : r.t1 = (t : Int)
    · rw [if_neg (by simpa using hc)]
      obtain ⟨u, hu⟩ := Int.eq_ofNat_of_zero_le h1
      refine ⟨u, hu, by omega, (hasSide_iff _ _ _ _).2 ?_, by omega⟩
      rw [h3]; simp; right; exact hu.symm
    · rw [if_pos hc]
      obtain ⟨u, hu, hs⟩ := h.hasSide1
      exact ⟨u, hu, by omega, hs, by omega⟩

theorem EdgeAt.eq_iff {v a b : Int} {k k' : Nat} {r r' : EdgeData} (h : EdgeAt out d v a k r)
    (h' : EdgeAt out d v b k' r') : r.eq r' = true ↔ a = b := by
  have h1 : r.eq r' = true ↔ s(r.p1, r.p2) = s(r'.p1, r'.p2) := by
    rw [Sym2.eq_iff]
    simp [EdgeData.eq]
    constructor
    · rintro (⟨h1, h2⟩ | ⟨h1, h2⟩)
      · exact Or.inl ⟨h1, h2⟩
      · exact Or.inr ⟨h2, h1⟩
    · rintro (⟨h1, h2⟩ | ⟨h1, h2⟩)
      · exact Or.inl ⟨h1, h2⟩
      · exact Or.inr ⟨h2, h1⟩
  rw [h1, h.ends, h'.ends, Sym2.eq_iff]
  constructor
  · rintro (⟨_, h⟩ | ⟨h1, h2⟩)
    · exact h
    · rw [h2, h1]
  · rintro rfl; exact Or.inl ⟨rfl, rfl⟩

/-! ### Circumcenters -/

/-- Index of the circumcenter of triangle number `t`. -/
def circIx (d : DelInfo K) (t : Nat) : Int := (d.triangles[t]?).elim (-1) Tri.circ

theorem circ_spec (h : TriCore tol out out.tris d) {t : Nat} (ht : t < out.tris.length) :
    ∃ tr, vecGet d.triangles (t : Int) = .ok tr ∧ tr.circ = circIx d t ∧
      InR d.circumcenters.list.length (circIx d t) := by
  obtain ⟨c, a, b, e, q, cc, h1, _, _, _, _, h6, _⟩ := h.tris t _ (List.getElem?_eq_getElem ht)
  refine ⟨_, vecGet_nat h1, ?_, ?_⟩
  · unfold circIx; rw [h1]; rfl
  · unfold circIx; rw [h1]
    have := (List.getElem?_eq_some_iff.1 h6).1
    exact ⟨by simp, by simpa using this⟩

/-- The middle or an end of a side that belongs to one triangle only. -/
def BdPt (out : TriOut K) (q : Pt K) : Prop :=
  ∃ v a t pv pa, incident out.tris s(v, a) = [t] ∧ vecGet out.points v = .ok pv ∧
    vecGet out.points a = .ok pa ∧ (q = Seg.middle pv pa ∨ q = pv)

/-- A list that grows by points with a property. -/
theorem drop_grow {α : Type} {Q : α → Prop} {l l' : List α} {x : α} {n : Nat} (hn : n ≤ l.length)
    (h : ∀ q ∈ l.drop n, Q q) (hx : Q x) (hl : l' = l ∨ l' = l ++ [x]) : ∀ q ∈ l'.drop n, Q q := by
  rcases hl with rfl | rfl
  · exact h
  · intro q hq
    rw [List.drop_append_of_le_length hn] at hq
    rcases List.mem_append.1 hq with hq | hq
    · exact h q hq
    · simp at hq; subst hq; exact hx

/-- The parts of the state the walk relies on. -/
structure StOk (tol : K) (out : TriOut K) (d : DelInfo K) (s : VState K) : Prop where
  em : s.edgeMap = d.edgeMap
  dec : UList.Decodes s.circ
  pre : ∃ tail, s.circ.list = d.circumcenters.list ++ tail
  bd : ∀ q ∈ s.circ.list.drop d.circumcenters.list.length, BdPt out q
  inv : ∀ S : Set (Pt K), SWO (fun x y : Pt K => x.ltTol tol y) S → (∀ q, BdPt out q → q ∈ S) →
    UList.Inv (fun x y : Pt K => x.ltTol tol y) S d.circumcenters →
    UList.Inv (fun x y : Pt K => x.ltTol tol y) S s.circ

theorem StOk.len {tol : K} {out : TriOut K} {d : DelInfo K} {s : VState K} (h : StOk tol out d s) :
    d.circumcenters.list.length ≤ s.circ.list.length := by
  obtain ⟨t, ht⟩ := h.pre
  rw [ht, List.length_append]; omega

/-- The point list only grows. -/
def Grows (s s' : VState K) : Prop := ∃ tail, s'.circ.list = s.circ.list ++ tail

theorem Grows.refl (s : VState K) : Grows s s := ⟨[], by simp⟩

theorem Grows.trans {s s' s'' : VState K} (h : Grows s s') (h' : Grows s' s'') : Grows s s'' := by
  obtain ⟨t, ht⟩ := h
  obtain ⟨t', ht'⟩ := h'
  exact ⟨t ++ t', by rw [ht', ht, List.append_assoc]⟩

theorem Grows.get {s s' : VState K} (h : Grows s s') {i : Int} {q : Pt K}
    (hq : vecGet s.circ.list i = .ok q) : vecGet s'.circ.list i = .ok q := by
  obtain ⟨t, ht⟩ := h
  rw [ht]; exact vecGet_append hq

theorem Grows.inR {s s' : VState K} (h : Grows s s') {i : Int}
    (hi : InR s.circ.list.length i) : InR s'.circ.list.length i := by
  obtain ⟨q, hq⟩ := vecGet_inR hi
  exact inR_of_vecGet (h.get hq)

/-- `i` denotes (up to the tolerance) the middle of the edge `v a`. -/
def MidIx (tol : K) (out : TriOut K) (l : List (Pt K)) (v a i : Int) : Prop :=
  ∃ pv pa q, vecGet out.points v = .ok pv ∧ vecGet out.points a = .ok pa ∧ vecGet l i = .ok q ∧
    (q = Seg.middle pv pa ∨ Equiv' (fun x y : Pt K => x.ltTol tol y) q (Seg.middle pv pa))

/-- What `getCircumcenter` returns for the triangle `T` (or −1) at the edge `v a`. -/
def GcOk (tol : K) (out : TriOut K) (d : DelInfo K) (l : List (Pt K)) (v a T i : Int) : Prop :=
  (∃ t : Nat, T = (t : Int) ∧ t < out.tris.length ∧ i = circIx d t) ∨
  (T = -1 ∧ MidIx tol out l v a i)

theorem GcOk.mono {s s' : VState K} (hg : Grows s s') {v a T i : Int}
    (h : GcOk tol out d s.circ.list v a T i) : GcOk tol out d s'.circ.list v a T i := by
  rcases h with h | ⟨h1, pv, pa, q, h2, h3, h4, h5⟩
  · exact Or.inl h
  · exact Or.inr ⟨h1, pv, pa, q, h2, h3, hg.get h4, h5⟩

theorem StOk.circ_inR (hs : StOk tol out d s) {i : Int} (hi : InR d.circumcenters.list.length i) :
    InR s.circ.list.length i := by
  obtain ⟨t, ht⟩ := hs.pre
  rw [ht]
  exact hi.mono (by simp)

theorem middle_comm (a b : Pt K) : Seg.middle a b = Seg.middle b a := by
  unfold Seg.middle; rw [add_comm a.x, add_comm a.y]

theorem getCircumcenter_ok (hv : ValidOut out) (h : TriCore tol out out.tris d) {s : VState K}
    (hs : StOk tol out d s) {v a : Int} {k : Nat} {r : EdgeData} (hE : EdgeAt out d v a k r) {T : Int}
    (hT : (T = -1 ∧ r.t2 = -1) ∨ ∃ t : Nat, T = (t : Int) ∧ t < out.tris.length) :
    ∃ s' i, getCircumcenter tol d s T (k : Int) = .ok (s', i) ∧ StOk tol out d s' ∧ Grows s s' ∧
      GcOk tol out d s'.circ.list v a T i ∧ InR s'.circ.list.length i ∧ s'.vedges = s.vedges ∧
      s'.pmap = s.pmap := by
  unfold getCircumcenter
  rcases hT with ⟨rfl, hb⟩ | ⟨t, rfl, ht⟩
  · rw [if_neg (by simp)]
    obtain ⟨e, hk, he⟩ := hE.src
    obtain ⟨⟨a0, a1⟩, ⟨b0, b1⟩, _⟩ := hv.edgeRange e (List.mem_of_getElem? hk)
    obtain ⟨p1, g1⟩ := vecGet_inR (⟨a0, a1⟩ : InR out.points.length e.1)
    obtain ⟨p2, g2⟩ := vecGet_inR (⟨b0, b1⟩ : InR out.points.length e.2.1)
    have hends := hE.ends
    have hee : s(e.1, e.2.1) = s(r.p1, r.p2) := he.trans hends.symm
    have key : ∃ q1 q2 : Pt K, vecGet out.points r.p1 = .ok q1 ∧ vecGet out.points r.p2 = .ok q2 := by
      rcases Sym2.eq_iff.1 hee with ⟨h1, h2⟩ | ⟨h1, h2⟩
      · exact ⟨p1, p2, by rw [← h1]; exact g1, by rw [← h2]; exact g2⟩
      · exact ⟨p2, p1, by rw [← h2]; exact g2, by rw [← h1]; exact g1⟩
    obtain ⟨q1, q2, f1, f2⟩ := key
    have hm : ISeg.middlePoint d.meshPoints (ISeg.mk' r.p1 r.p2) = .ok (Seg.middle q1 q2) := by
      have e1 : (ISeg.mk' r.p1 r.p2).p1 = r.p1 := rfl
      have e2 : (ISeg.mk' r.p1 r.p2).p2 = r.p2 := rfl
      unfold ISeg.middlePoint
      rw [e1, e2, h.mesh, f1, Outcome.bind_ok, f2, Outcome.bind_ok, Outcome.pure_eq]
    rw [vecGet_nat hE.recd, Outcome.bind_ok, hm, Outcome.bind_ok]
    obtain ⟨w1, ⟨y, w2, w3⟩, ⟨tail, w4⟩⟩ :=
      UList.pushBack_weak (lt := fun x y : Pt K => x.ltTol tol y) hs.dec (Seg.middle q1 q2)
    have hin : incident out.tris s(v, a) = [r.t1] := by
      rcases hE.inc with ⟨_, g⟩ | ⟨g, _⟩
      · exact g
      · omega
    have hgr : Grows s { s with circ := (s.circ.pushBack (fun x y => x.ltTol tol y) (Seg.middle q1 q2)).1 } :=
      ⟨tail, w4⟩
    refine ⟨_, _, rfl, ⟨hs.em, w1, ?_, ?_, ?_⟩, hgr, Or.inr ⟨rfl, ?_⟩, inR_of_vecGet (vecGet_nat w2), rfl, rfl⟩
    · obtain ⟨t, ht⟩ := hs.pre
      exact ⟨t ++ tail, by simp only; rw [w4, ht, List.append_assoc]⟩
    · refine drop_grow (x := Seg.middle q1 q2) hs.len hs.bd
        ⟨r.p1, r.p2, r.t1, q1, q2, by rw [hends]; exact hin, f1, f2, Or.inl rfl⟩
        (UList.pushBack_tail _ _)
    · intro S hS hB hI
      exact UList.inv_pushBack hS (hs.inv S hS hB hI)
        (hB _ ⟨r.p1, r.p2, r.t1, q1, q2, by rw [hends]; exact hin, f1, f2, Or.inl rfl⟩)
    · rcases Sym2.eq_iff.1 hends with ⟨h1, h2⟩ | ⟨h1, h2⟩
      · exact ⟨q1, q2, y, by rw [← h1]; exact f1, by rw [← h2]; exact f2, vecGet_nat w2, w3⟩
      · refine ⟨q2, q1, y, by rw [← h2]; exact f2, by rw [← h1]; exact f1, vecGet_nat w2, ?_⟩
        rw [middle_comm q2 q1]; exact w3
  · rw [if_pos (by omega)]
    obtain ⟨tr, h1, h2, h3⟩ := circ_spec h ht
    rw [h1, Outcome.bind_ok, Outcome.pure_eq]
    exact ⟨s, tr.circ, rfl, hs, Grows.refl s, Or.inl ⟨t, rfl, ht, h2⟩, by rw [h2]; exact hs.circ_inR h3,
      rfl, rfl⟩

/-- Insertion of Voronoi edges for one cell. -/
def segLog (cell : Int) (m : SegMap) (ks : List (Int × Int)) : SegMap :=
  ks.foldl (fun m e => m.insert (ISeg.mk' e.1 e.2) cell) m

/-- Insertion of points for one cell. -/
def ptLog (tol : K) (cell : Int) (m : PtMap K) (qs : List (Pt K)) : PtMap K :=
  qs.foldl (fun m q => m.insert tol q cell) m

/-- The proper steps of a path of indices. -/
def hops : List Int → List (Int × Int)
  | a :: b :: l => (if a = b then [] else [(a, b)]) ++ hops (b :: l)
  | _ => []

theorem hops_snoc : ∀ (l : List Int) (a b : Int),
    hops (l ++ [a, b]) = hops (l ++ [a]) ++ (if a = b then [] else [(a, b)]) := by
  intro l
  induction l with
  | nil => intro a b; simp [hops]
  | cons x l ih =>
    intro a b
    cases l with
    | nil => simp [hops]
    | cons y l =>
      have e1 : hops (x :: y :: l ++ [a, b]) = (if x = y then [] else [(x, y)]) ++ hops (y :: l ++ [a, b]) := rfl
      have e2 : hops (x :: y :: l ++ [a]) = (if x = y then [] else [(x, y)]) ++ hops (y :: l ++ [a]) := rfl
      rw [e1, e2, ih, List.append_assoc]

/-- State of the construction of one cell after visiting the indices `path`; `s0` is the state at
the start of the cell. -/
structure Run (tol : K) (out : TriOut K) (d : DelInfo K) (cell : Int) (s0 s : VState K) (cp : UList Int)
    (path : List Int) : Prop where
  st : StOk tol out d s
  grow : Grows s0 s
  cpInv : UList.Inv ltInt Set.univ cp
  cpList : cp.list = firsts path
  inR : ∀ i ∈ path, InR s.circ.list.length i
  ved : s.vedges = segLog cell s0.vedges (hops path)
  pts : ∃ qs, s.pmap = ptLog tol cell s0.pmap qs ∧
    (∀ q ∈ qs, ∃ i ∈ path, vecGet s.circ.list i = .ok q) ∧
    (∀ i ∈ path, ∃ q ∈ qs, vecGet s.circ.list i = .ok q)

/-- The effect of crossing an edge. -/
theorem crossEdge_ok (hv : ValidOut out) (h : TriCore tol out out.tris d) {s : VState K}
    (hs : StOk tol out d s) (cell : Int) {cp : UList Int} (hcp : UList.Inv ltInt Set.univ cp)
    {v a : Int} {k : Nat} {r : EdgeData}
    (hE : EdgeAt out d v a k r) {T1 T2 : Int}
    (hT1 : (T1 = -1 ∧ r.t2 = -1) ∨ ∃ t : Nat, T1 = (t : Int) ∧ t < out.tris.length)
    (hT2 : (T2 = -1 ∧ r.t2 = -1) ∨ ∃ t : Nat, T2 = (t : Int) ∧ t < out.tris.length) :
    ∃ s' cp' i1 i2 q1 q2, crossEdge tol d cell T1 T2 (k : Int) s cp = .ok (s', cp') ∧ StOk tol out d s' ∧
      Grows s s' ∧ GcOk tol out d s'.circ.list v a T1 i1 ∧ GcOk tol out d s'.circ.list v a T2 i2 ∧
      vecGet s'.circ.list i1 = .ok q1 ∧ vecGet s'.circ.list i2 = .ok q2 ∧
      UList.Inv ltInt Set.univ cp' ∧ cp'.list = addNew (addNew cp.list i2) i1 ∧
      s'.vedges = segLog cell s.vedges (if i2 = i1 then [] else [(i2, i1)]) ∧
      s'.pmap = ptLog tol cell s.pmap (if i2 = i1 then [q1] else [q2, q1]) := by
  obtain ⟨s1, i1, c1, st1, g1, k1, r1, v1, p1⟩ := getCircumcenter_ok hv h hs hE hT1
  obtain ⟨s2, i2, c2, st2, g2, k2, r2, v2, p2⟩ := getCircumcenter_ok hv h st1 hE hT2
  obtain ⟨q1, hq1⟩ := vecGet_inR (g2.inR r1)
  obtain ⟨q2, hq2⟩ := vecGet_inR r2
  unfold crossEdge
  rw [c1, Outcome.bind_ok]
  simp only
  rw [c2, Outcome.bind_ok]
  simp only
  rw [hq1, Outcome.bind_ok]
  by_cases hne : i1 = i2
  · subst hne
    rw [if_neg (by simp), Outcome.pure_eq]
    obtain ⟨ha, hb⟩ := pushInt hcp i1
    refine ⟨_, _, i1, i1, q1, q1, rfl, ⟨st2.em, st2.dec, st2.pre, st2.bd, st2.inv⟩, g1.trans g2, k1.mono g2, k2, hq1, hq1, ha, ?_,
      ?_, ?_⟩
    · rw [hb]
      exact (addNew_mem ((mem_addNew _ _ _).2 (Or.inr rfl))).symm
    · rw [if_pos rfl]; simp only [segLog, List.foldl_nil]; rw [v2, v1]
    · rw [if_pos rfl]; simp only [ptLog, List.foldl_nil, List.foldl_cons]; rw [p2, p1]
  · rw [if_pos hne, hq2, Outcome.bind_ok, Outcome.pure_eq]
    obtain ⟨ha, hb⟩ := pushInt hcp i2
    obtain ⟨hc, hd⟩ := pushInt ha i1
    refine ⟨_, _, i1, i2, q1, q2, rfl, ⟨st2.em, st2.dec, st2.pre, st2.bd, st2.inv⟩, g1.trans g2, k1.mono g2, k2, hq1, hq2, hc, ?_,
      ?_, ?_⟩
    · rw [hd, hb]
    · rw [if_neg (Ne.symm hne)]; simp only [segLog, List.foldl_nil, List.foldl_cons]; rw [v2, v1]
    · rw [if_neg (Ne.symm hne)]; simp only [ptLog, List.foldl_nil, List.foldl_cons]; rw [p2, p1]

/-! ### Steps of the walk -/

theorem run_first (hv : ValidOut out) (h : TriCore tol out out.tris d) {s0 : VState K}
    (hs : StOk tol out d s0) (cell : Int) {v a : Int} {k : Nat} {r : EdgeData}
    (hE : EdgeAt out d v a k r) {t : Nat} (ht : r.t1 = (t : Int)) (htl : t < out.tris.length) :
    ∃ s cp i2, crossEdge tol d cell r.t1 r.t2 (k : Int) s0 UList.empty = .ok (s, cp) ∧
      GcOk tol out d s.circ.list v a r.t2 i2 ∧ Run tol out d cell s0 s cp [i2, circIx d t] := by
  have hT2 : (r.t2 = -1 ∧ r.t2 = -1) ∨ ∃ t : Nat, r.t2 = (t : Int) ∧ t < out.tris.length := by
    rcases hE.inc with ⟨h1, _⟩ | ⟨h1, _, h3⟩
    · exact Or.inl ⟨h1, h1⟩
    · obtain ⟨u, hu⟩ := Int.eq_ofNat_of_zero_le h1
      refine Or.inr ⟨u, hu, ?_⟩
      have : HasSide out.tris v a u := (hasSide_iff _ _ _ _).2 (by rw [h3, ← hu]; simp)
      exact this.lt
  obtain ⟨s, cp, i1, i2, q1, q2, c, st, g, k1, k2, e1, e2, iv, l, vd, pm⟩ :=
    crossEdge_ok hv h hs cell UList.inv_empty hE (Or.inr ⟨t, ht, htl⟩) hT2
  have hi1 : i1 = circIx d t := by
    rcases k1 with ⟨u, hu, _, hi⟩ | ⟨hu, _⟩
    · have : u = t := by omega
      rw [hi, this]
    · omega
  subst hi1
  refine ⟨s, cp, i2, c, k2, st, g, iv, ?_, ?_, ?_, ?_⟩
  · rw [l]; simp [firsts, UList.empty]
  · intro i hi
    simp at hi
    rcases hi with rfl | rfl
    · exact inR_of_vecGet e2
    · exact inR_of_vecGet e1
  · rw [vd]; simp [hops]
  · refine ⟨_, pm, ?_, ?_⟩
    · intro q hq
      split at hq
      · simp at hq; subst hq; exact ⟨_, by simp, e1⟩
      · simp at hq
        rcases hq with rfl | rfl
        · exact ⟨i2, by simp, e2⟩
        · exact ⟨_, by simp, e1⟩
    · intro i hi
      simp at hi
      by_cases hc : i2 = circIx d t
      · rw [if_pos hc]
        refine ⟨q1, by simp, ?_⟩
        rcases hi with rfl | rfl
        · rw [hc]; exact e1
        · exact e1
      · rw [if_neg hc]
        rcases hi with rfl | rfl
        · exact ⟨q2, by simp, e2⟩
        · exact ⟨q1, by simp, e1⟩

theorem ptLog_append (cell : Int) (m : PtMap K) (qs qs' : List (Pt K)) :
    ptLog tol cell (ptLog tol cell m qs) qs' = ptLog tol cell m (qs ++ qs') := by
  simp [ptLog]

theorem segLog_append (cell : Int) (m : SegMap) (ks ks' : List (Int × Int)) :
    segLog cell (segLog cell m ks) ks' = segLog cell m (ks ++ ks') := by
  simp [segLog]

theorem run_cross (hv : ValidOut out) (h : TriCore tol out out.tris d) {s0 s : VState K} {cell : Int}
    {cp : UList Int} {path : List Int} {t : Nat} (htl : t < out.tris.length)
    (hr : Run tol out d cell s0 s cp (path ++ [circIx d t])) {v a : Int} {k : Nat} {r : EdgeData}
    (hE : EdgeAt out d v a k r) {T : Int}
    (hT : (T = -1 ∧ r.t2 = -1) ∨ ∃ t : Nat, T = (t : Int) ∧ t < out.tris.length) :
    ∃ s' cp' i, crossEdge tol d cell T (t : Int) (k : Int) s cp = .ok (s', cp') ∧
      GcOk tol out d s'.circ.list v a T i ∧ Grows s s' ∧
      Run tol out d cell s0 s' cp' (path ++ [circIx d t] ++ [i]) := by
  obtain ⟨s', cp', i1, i2, q1, q2, c, st, g, k1, k2, e1, e2, iv, l, vd, pm⟩ :=
    crossEdge_ok hv h hr.st cell hr.cpInv hE hT (Or.inr ⟨t, rfl, htl⟩)
  have hi2 : i2 = circIx d t := by
    rcases k2 with ⟨u, hu, _, hi⟩ | ⟨hu, _⟩
    · have : u = t := by omega
      rw [hi, this]
    · omega
  subst hi2
  refine ⟨s', cp', i1, c, k1, g, st, hr.grow.trans g, iv, ?_, ?_, ?_, ?_⟩
  · rw [l, firsts_append, hr.cpList]
    rw [addNew_mem ((mem_firsts _ _).2 (by simp))]
  · intro i hi
    rcases List.mem_append.1 hi with hi | hi
    · exact g.inR (hr.inR i hi)
    · simp at hi; subst hi; exact inR_of_vecGet e1
  · rw [vd, hr.ved, segLog_append]
    have := hops_snoc path (circIx d t) i1
    rw [show path ++ [circIx d t, i1] = path ++ [circIx d t] ++ [i1] by simp] at this
    rw [this]
  · obtain ⟨qs, h1, h2, h3⟩ := hr.pts
    refine ⟨_, by rw [pm, h1, ptLog_append], ?_, ?_⟩
    · intro q hq
      rcases List.mem_append.1 hq with hq | hq
      · obtain ⟨i, hi, hg⟩ := h2 q hq
        exact ⟨i, List.mem_append_left _ hi, g.get hg⟩
      · split at hq
        · simp at hq; subst hq; exact ⟨i1, by simp, e1⟩
        · simp at hq
          rcases hq with rfl | rfl
          · exact ⟨circIx d t, by simp, e2⟩
          · exact ⟨i1, by simp, e1⟩
    · intro i hi
      rcases List.mem_append.1 hi with hi | hi
      · obtain ⟨q, hq, hg⟩ := h3 i hi
        exact ⟨q, List.mem_append_left _ hq, g.get hg⟩
      · simp at hi; subst hi
        refine ⟨q1, List.mem_append_right _ ?_, e1⟩
        split <;> simp

theorem nextEdgeOf_ok (hv : ValidOut out) (h : TriCore tol out out.tris d) {s : VState K}
    (hs : StOk tol out d s) {v a b : Int} {t k : Nat} {r : EdgeData} (hE : EdgeAt out d v a k r)
    (h3 : Fan3 out.tris v a b t) :
    ∃ k' r', nextEdgeOf d s (t : Int) v r = .ok (s, r') ∧ EdgeAt out d v b k' r' := by
  have hp := properTris_of_valid hv
  obtain ⟨k', r', hE'⟩ := edgeAt_of_side hv h ((h3.side hp b).2 (Or.inr rfl))
  obtain ⟨h1, h2, hab, tt, htt, hm⟩ := h3
  obtain ⟨c, _, _, _, _, _, htr, _⟩ := h.tris t tt htt
  have hpt := hp tt (List.mem_of_getElem? htt)
  have hends := Sym2.eq_iff.1 hE.ends
  have hva : r.p1 ≠ r.p2 := by
    rcases hends with ⟨e1, e2⟩ | ⟨e1, e2⟩ <;> rw [e1, e2]
    · exact h1
    · exact Ne.symm h1
  have hv' : v ∈ verts tt := (hm v).2 (Or.inl rfl)
  have ha' : a ∈ verts tt := (hm a).2 (Or.inr (Or.inl rfl))
  have hb' : b ∈ verts tt := (hm b).2 (Or.inr (Or.inr rfl))
  have hm1 : r.p1 ∈ verts tt := by
    rcases hends with ⟨e1, e2⟩ | ⟨e1, e2⟩ <;> rw [e1] <;> assumption
  have hm2 : r.p2 ∈ verts tt := by
    rcases hends with ⟨e1, e2⟩ | ⟨e1, e2⟩ <;> rw [e2] <;> assumption
  obtain ⟨w, hw, w1, w2, w3, w4⟩ := C38_thirdPoint (verts tt) r rfl
    (by
      obtain ⟨x, y, z⟩ := tt
      simp only [verts, List.nodup_cons, List.mem_cons, List.not_mem_nil, or_false, not_or,
        not_false_eq_true, List.nodup_nil, and_true] at hpt ⊢
      exact ⟨⟨hpt.1, Ne.symm hpt.2.2⟩, hpt.2.1⟩) hm1 hm2 hva
  have hwb : w = b := by
    rcases w4 b hb' with hc | hc | hc
    · rcases hends with ⟨e1, e2⟩ | ⟨e1, e2⟩ <;> rw [e1] at hc
      · exact absurd hc.symm h2
      · exact absurd hc.symm hab
    · rcases hends with ⟨e1, e2⟩ | ⟨e1, e2⟩ <;> rw [e2] at hc
      · exact absurd hc.symm hab
      · exact absurd hc.symm h2
    · exact hc.symm
  subst hwb
  have hem := edgeMapGet_found h.emap v w _ hE'.idx
  refine ⟨k', r', ?_, hE'⟩
  unfold nextEdgeOf
  rw [vecGet_nat htr, Outcome.bind_ok]
  simp only
  rw [show [tt.1, tt.2.1, tt.2.2] = verts tt from rfl, hw, Outcome.bind_ok, hs.em, hem]
  simp only
  rw [vecGet_nat hE'.recd, Outcome.bind_ok, Outcome.pure_eq, ← hs.em]

/-- The loop around a vertex ends, and this is what it did. -/
theorem walk_ok (hv : ValidOut out) (h : TriCore tol out out.tris d) {s0 : VState K} {cell v a0 : Int}
    {t0 k0 : Nat} {init : EdgeData} (hinit : EdgeAt out d v a0 k0 init) :
    ∀ (fuel : Nat) {p : List (Int × Nat)} {a b : Int} {t k : Nat} {r : EdgeData} {s : VState K}
      {cp : UList Int} {path : List Int},
    Fan out.tris v a0 t0 ((a, t) :: p) b → EdgeAt out d v b k r →
    out.tris.length ≤ fuel + p.length → Run tol out d cell s0 s cp (path ++ [circIx d t]) →
    ∃ r' s' cp' q b' k', walk tol d cell v init fuel r (t : Int) s cp = .ok (r', s', cp') ∧
      Fan out.tris v a0 t0 (q ++ (a, t) :: p) b' ∧ EdgeAt out d v b' k' r' ∧ Grows s s' ∧
      ((b' = a0 ∧ Run tol out d cell s0 s' cp'
          (path ++ [circIx d t] ++ (q.map Prod.snd).reverse.map (circIx d))) ∨
       (b' ≠ a0 ∧ r'.t2 = -1 ∧
          (∀ u, HasSide out.tris v b' u → ((q ++ (a, t) :: p).map Prod.snd).head? = some u) ∧
          ∃ m, MidIx tol out s'.circ.list v b' m ∧ Run tol out d cell s0 s' cp'
            (path ++ [circIx d t] ++ (q.map Prod.snd).reverse.map (circIx d) ++ [m]))) := by
  have hp := properTris_of_valid hv
  have h2 := twoSided_of_valid hv
  intro fuel
  induction fuel with
  | zero =>
    intro p a b t k r s cp path hF hE hfuel hr
    have := (hF.inv hp h2).length_le
    simp at this hfuel
    omega
  | succ fuel ih =>
    intro p a b t k r s cp path hF hE hfuel hr
    have hhead := hF.head
    have htl := hhead.lt
    by_cases hb : b = a0
    · refine ⟨r, s, cp, [], b, k, ?_, hF, hE, Grows.refl s, Or.inl ⟨hb, by simpa using hr⟩⟩
      unfold walk
      rw [if_pos ((hE.eq_iff hinit).2 hb)]
    · have hside : HasSide out.tris v b t := (hhead.side hp b).2 (Or.inr rfl)
      have hm := edgeMapGet_found h.emap r.p1 r.p2 (k : Int) (by rw [hE.ends]; exact hE.idx)
      have hneq : ¬ (r.eq init = true) := fun hc => hb ((hE.eq_iff hinit).1 hc)
      unfold walk
      rw [if_neg hneq]
      simp only
      rw [hr.st.em, hm]
      have hset : ({ s with edgeMap := d.edgeMap } : VState K) = s := by rw [← hr.st.em]
      simp only
      rw [hset]
      rcases hE.other hside with ⟨o1, o2, o3⟩ | ⟨u, o1, o2, o3, o4⟩
      · rw [o1]
        obtain ⟨s', cp', i, c, kk, g, hr'⟩ := run_cross hv h htl hr hE (T := -1) (Or.inl ⟨rfl, o2⟩)
        rw [c, Outcome.bind_ok, if_neg (by simp), Outcome.pure_eq]
        have hmid : MidIx tol out s'.circ.list v b i := by
          rcases kk with ⟨u, hu, _⟩ | ⟨_, hm⟩
          · omega
          · exact hm
        refine ⟨r, s', cp', [], b, k, rfl, hF, hE, g, Or.inr ⟨hb, o2, ?_, i, hmid, by simpa using hr'⟩⟩
        intro w hw
        rw [o3 w hw]; simp
      · rw [o1]
        obtain ⟨s', cp', i, c, kk, g, hr'⟩ := run_cross hv h htl hr hE (T := (u : Int))
          (Or.inr ⟨u, rfl, o3.lt⟩)
        have hi : i = circIx d u := by
          rcases kk with ⟨w, hw, _, hi⟩ | ⟨hw, _⟩
          · have : w = u := by omega
            rw [hi, this]
          · omega
        subst hi
        obtain ⟨c', hc'⟩ := o3.third hp
        obtain ⟨k', r', hn, hE'⟩ := nextEdgeOf_ok hv h hr'.st hE hc'
        rw [c, Outcome.bind_ok, if_pos (by omega)]
        simp only
        rw [hn, Outcome.bind_ok]
        have hF' := Fan.step hF hb o2 hc'
        obtain ⟨r2, s2, cp2, q, b2, k2, w1, w2, w3, w4, w5⟩ := ih hF' hE' (by simp; omega) hr'
        refine ⟨r2, s2, cp2, q ++ [(b, u)], b2, k2, w1, by simpa using w2, w3, g.trans w4, ?_⟩
        simpa using w5

end
end Delynoi
