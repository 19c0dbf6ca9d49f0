import Verif.Proofs.TriInput
import Verif.Props.DelaunayGen
import Mathlib.Algebra.Order.Ring.Rat
/-!
# C170-C172: memory pools, and the input of Triangle
-/
set_option linter.unusedSectionVars false
namespace Delynoi
open Tri

variable {K : Type} [Field K] [LinearOrder K] [IsStrictOrderedRing K] {first per : Nat}

/-- C170: after any history a pool hands out an item that is not in use; it counts the items in use, and none is in use
twice. -/
theorem C170_fresh (hf : 0 < first) (hp : 0 < per) {p : Pool} {live : List Item} (h : Reach first per p live) :
    p.alloc.1 ∉ live ∧ live.Nodup ∧ p.items = live.length := by
  have G := h.good hf hp
  exact ⟨G.fresh hp, List.Nodup.of_append_left (G.nodup hp), G.items⟩

/-- C170: the items in use lie within the blocks that exist. -/
theorem C170_places (hf : 0 < first) (hp : 0 < per) {p : Pool} {live : List Item} (h : Reach first per p live) :
    ∀ x ∈ live, x.1 < p.blocks ∧ x.2 < (if x.1 = 0 then first else per) := by
  have G := h.good hf hp
  intro x hx
  obtain ⟨k, hk, rfl⟩ := G.slots hx
  refine ⟨?_, ?_⟩
  · rw [G.blocks, G.now]
    by_cases hl : k < first
    · rw [slot_low hl]; exact Nat.succ_pos _
    · obtain ⟨q, r, hr, rfl⟩ : ∃ q r, r < per ∧ k = first + (q * per + r) := by
        refine ⟨(k - first) / per, (k - first) % per, Nat.mod_lt _ hp, ?_⟩
        have := Nat.div_add_mod (k - first) per
        rw [Nat.mul_comm] at this
        omega
      have ha : At first per (first + (q * per + r) + 1) (q + 1, r + 1) (per - (r + 1)) :=
        Or.inr ⟨q, r + 1, by omega, by omega, by omega, rfl⟩
      have := ha.block_le G.pos hk
      rw [slot_high hr]
      exact Nat.lt_succ_of_le this
  · unfold slot
    split_ifs with h1 h2 h2 <;> simp_all [Nat.mod_lt]

/-- C170: a traversal ends, and visits every place handed out so far once, in the order of their first use; so it visits all
items in use. -/
theorem C170_traverse (hf : 0 < first) (hp : 0 < per) {p : Pool} {live : List Item} (h : Reach first per p live) {fuel : Nat} (hfuel : p.maxitems < fuel) :
    ∃ l, p.walk fuel p.traversalinit = .ok l ∧ l = (List.range p.maxitems).map (slot first per) ∧ l.Nodup ∧ live ⊆ l := by
  have G := h.good hf hp
  refine ⟨_, ?_, rfl, List.nodup_range.map fun _ _ h => slot_inj hp h, fun x hx => ?_⟩
  · have := G.walk hp p.maxitems 0 fuel p.traversalinit (by
      show At first per 0 (0, 0) p.itemsfirstblock
      rw [G.ef]; exact At.zero) rfl (by omega) hfuel
    rw [this, List.range_eq_range']
  · obtain ⟨k, hk, rfl⟩ := G.slots hx
    exact List.mem_map.mpr ⟨k, List.mem_range.mpr hk, rfl⟩

/-- C170: `getvertex` finds the vertex with a given number: the one at this position of a traversal. -/
theorem C170_getvertex (hf : 0 < first) (hp : 0 < per) {p : Pool} {live l : List Item} (h : Reach first per p live) {fuel : Nat}
    (hl : p.walk fuel p.traversalinit = .ok l) (hfuel : p.maxitems < fuel) (firstnumber : Int) {k : Nat} {x : Item} (hk : l[k]? = some x) :
    p.getvertex firstnumber (firstnumber + k) fuel = .ok x := by
  obtain ⟨l', h1, h2, -⟩ := C170_traverse hf hp h hfuel
  rw [h1] at hl
  obtain rfl : l' = l := by cases hl; rfl
  rw [h2, List.getElem?_map] at hk
  have hk' : k < p.maxitems := by
    by_contra hc
    rw [List.getElem?_eq_none (by simp; omega)] at hk
    cases hk
  rw [List.getElem?_range hk'] at hk
  obtain rfl : slot first per k = x := by simpa using hk
  exact (h.good hf hp).getvertex hp firstnumber hk' (by omega)

/-- C170: with blocks of two items: three items, the second given back and taken again. -/
example : ∃ p live, Reach 2 2 p live ∧ p.maxitems = 3 ∧ live = [(0, 1), (1, 0), (0, 0)] ∧ p.walk 4 p.traversalinit = .ok [(0, 0), (0, 1), (1, 0)] :=
  ⟨_, _, ((((Reach.init.alloc).alloc).alloc).dealloc (x := (0, 1)) (by decide)).alloc, by decide, by decide, rfl⟩

/-- C171: if there are at least three vertices, Triangle reads exactly the given points: the vertex with the number
`firstnumber + k` has the coordinates, the attributes and the marker given for it (zero if there are no markers), and the
bounding box is the smallest one. -/
theorem C171_transfer {pts : List (Pt K)} (h3 : 3 ≤ pts.length) {attrs : List K} {n : Nat} (ha : attrs.length = n * pts.length)
    {marks : Option (List Int)} (hm : ∀ l, marks = some l → l.length = pts.length) :
    ∃ (s : Nodes K) (lo hi : Pt K) (at' : Nat → Item), transfernodes (flatPts pts) (attrs.map some) (marks.map (·.map some)) pts.length n = .ok s ∧ s.box = some (lo, hi) ∧ IsBox pts lo hi ∧
      s.pool.items = pts.length ∧
      ∀ (firstnumber : Int) (fuel k : Nat) (q : Pt K), pts[k]? = some q → k < fuel →
        s.pool.getvertex firstnumber (firstnumber + k) fuel = .ok (at' k) ∧
          ∃ c, s.node (at' k) = some ⟨q, (attrs.drop (n * k)).take n, c⟩ ∧ (marks = none → c = 0) ∧ ∀ l, marks = some l → l[k]? = some c := by
  obtain ⟨first, hfirst⟩ : ∃ f, f = (if 4092 < pts.length then pts.length else 4092) := ⟨_, rfl⟩
  have hf : 0 < first := by rw [hfirst]; split_ifs <;> omega
  have hp : 0 < 4092 := by decide
  have A : ∀ i < pts.length, readAttrs (attrs.map some) (n * i) n = .ok ((attrs.drop (n * i)).take n) := fun i hi => by
    refine readAttrs_spec attrs n (n * i) ?_
    rw [ha]
    calc n * i + n = n * (i + 1) := rfl
      _ ≤ n * pts.length := Nat.mul_le_mul_left _ hi
  obtain ⟨mark, M⟩ : ∃ mark : Nat → Int, (∀ i < pts.length, markAt (marks.map (·.map some)) i = .ok (mark i)) ∧
      (marks = none → ∀ i, mark i = 0) ∧ ∀ l, marks = some l → ∀ i < pts.length, l[i]? = some (mark i) := by
    cases marks with
    | none => exact ⟨fun _ => 0, fun _ _ => rfl, fun _ _ => rfl, fun l h => by cases h⟩
    | some l =>
      have hl := hm l rfl
      refine ⟨fun i => if h : i < l.length then l[i] else 0, fun i hi => ?_, fun h => by (cases h), fun l' h i hi => ?_⟩
      · have hi' : i < l.length := by omega
        show Arr.read (l.map some) i = _
        unfold Arr.read
        rw [List.getElem?_map, List.getElem?_eq_getElem hi']
        beta_reduce
        rw [dif_pos hi']
        rfl
      · obtain rfl := Option.some.inj h
        beta_reduce
        rw [dif_pos (by omega), List.getElem?_eq_getElem]
  obtain ⟨M1, M2, M3⟩ := M
  obtain ⟨s, e, H⟩ := transferLoop_spec (first := first) hf hp A M1 pts [] ⟨poolinit 4092 first, fun _ => none, none⟩ rfl
    ⟨⟨[], Reach.init, rfl⟩, rfl, rfl, fun k q h => by simp at h, fun h => absurd rfl h⟩
  obtain ⟨lo, hi, b1, b2⟩ := H.box (by rintro rfl; simp at h3)
  obtain ⟨live, hr, hn⟩ := H.reach
  have G := hr.good hf hp
  refine ⟨s, lo, hi, slot first 4092, ?_, b1, b2, by rw [G.items, hn], fun fn fuel k q hq hk => ?_⟩
  · unfold transfernodes
    rw [if_neg (by omega), ← hfirst]
    exact e
  · have hkl : k < pts.length := (List.getElem?_eq_some_iff.mp hq).1
    exact ⟨G.getvertex hp fn (by rw [H.size]; exact hkl) hk, mark k, H.node k q hq, fun h => M2 h k, fun l h => M3 l h k hkl⟩

/-- C171: with fewer than three points the program ends. -/
theorem C171_few (pointlist attrs : Arr K) (marks : Option (Arr Int)) {n a : Nat} (h : n < 3) : transfernodes pointlist attrs marks n a = .exn := by
  simp [transfernodes, h]

example : (3 ≤ [(⟨0, 0⟩ : Pt ℚ), ⟨1, 0⟩, ⟨0, 2⟩].length) ∧ [(0 : ℚ), 0, 0].length = 1 * [(⟨0, 0⟩ : Pt ℚ), ⟨1, 0⟩, ⟨0, 2⟩].length := by decide

/-- C172: if there are triangles, Triangle inserts exactly the given segments between different points, in the order given and with
their markers; a segment with an end that is not the number of a point, or whose ends have equal coordinates, is ignored. -/
theorem C172_skeleton {σ : Type} {makevertexmap markhull : σ → Outcome σ} {insertsegment : σ → Item → Item → Int → Outcome σ} {v : Nodes K}
    {pts : List (Pt K)} {firstnumber : Int} {fuel triangles : Nat} {at' : Nat → Item} {segs : List ((Int × Int) × Int)} {marks : Option (Arr Int)}
    (hv : ∀ (k : Nat) q, pts[k]? = some q → v.pool.getvertex firstnumber (firstnumber + k) fuel = .ok (at' k) ∧ v.pt (at' k) = .ok q)
    (hm : (marks = none ∧ ∀ s ∈ segs, s.2 = 0) ∨ marks = some (segs.map fun s => some s.2)) (ht : triangles ≠ 0) (hs : segs ≠ []) (s : σ) :
    formskeleton makevertexmap markhull insertsegment v true false (flatSegs (segs.map Prod.fst)) marks segs.length firstnumber pts.length triangles fuel s =
      (makevertexmap s).bind fun s => (realSegs pts firstnumber segs).foldlM (fun s e => insertsegment s (at' e.1) (at' e.2.1) e.2.2) s := by
  unfold formskeleton
  rw [if_pos rfl, if_neg ht, if_pos (List.length_pos_iff.mpr hs)]
  show Outcome.bind _ _ = _
  congr 1
  funext s
  have := skeletonLoop_spec (ins := insertsegment) (at' := at') (fuel := fuel) hv hm segs [] s rfl
  simp only [List.length_nil] at this
  rw [this]
  simp only [Bool.false_eq_true, reduceCtorEq, or_self, if_false]
  cases (realSegs pts firstnumber segs).foldlM (fun s e => insertsegment s (at' e.1) (at' e.2.1) e.2.2) s <;> rfl

/-- C172: without triangles no segments are inserted, and the hull is not marked. -/
theorem C172_flat {σ : Type} (makevertexmap markhull : σ → Outcome σ) (insertsegment : σ → Item → Item → Int → Outcome σ) (v : Nodes K)
    (convex : Bool) (segmentlist : Arr Int) (marks : Option (Arr Int)) (n : Nat) (firstnumber : Int) (nv fuel : Nat) (s : σ) :
    formskeleton makevertexmap markhull insertsegment v true convex segmentlist marks n firstnumber nv 0 fuel s = .ok s := rfl

/-- C172: what Delynoi hands over (C87), with the numbers counted from zero and at least three points: Triangle reads the points
in order, and inserts, with the marker zero, the segments of the region and the given ones that link different points. -/
theorem C172_delynoi (tol : K) (h : 0 < tol) (region : Region K) (hw : region.WF) (seeds : List (Pt K)) (restricted : List (Pt K × Pt K)) :
    ∃ inp raw, triangleInput tol region seeds restricted = .ok inp ∧ rawInput tol region seeds restricted = .ok raw ∧
      (3 ≤ inp.points.length → inp.segments ≠ [] → ∃ (s : Nodes K) (at' : Nat → Item), transfernodes raw.pointlist raw.pointattributelist none raw.numberofpoints raw.numberofpointattributes = .ok s ∧
        (∀ k q, inp.points[k]? = some q → s.node (at' k) = some ⟨q, List.replicate raw.numberofpointattributes 0, 0⟩) ∧
        ∀ (σ : Type) (makevertexmap markhull : σ → Outcome σ) (insertsegment : σ → Item → Item → Int → Outcome σ) (triangles fuel : Nat) (z : σ),
          triangles ≠ 0 → inp.points.length < fuel →
          formskeleton makevertexmap markhull insertsegment s true false raw.segmentlist none raw.numberofsegments 0 raw.numberofpoints triangles fuel z =
            (makevertexmap z).bind fun z => (realSegs inp.points 0 (inp.segments.map (·, 0))).foldlM (fun z e => insertsegment z (at' e.1) (at' e.2.1) 0) z) := by
  obtain ⟨inp, raw, h1, h2, e1, e2, -, e3, e4, e5, -⟩ := C87_input_arrays tol h region hw seeds restricted
  refine ⟨inp, raw, h1, h2, fun h3 hs => ?_⟩
  have ea : (List.replicate (inp.points.length * raw.numberofpointattributes) (0 : K)).length = raw.numberofpointattributes * inp.points.length := by
    rw [List.length_replicate, Nat.mul_comm]
  obtain ⟨s, lo, hi, at', t1, -, -, -, t2⟩ := C171_transfer h3 ea (marks := none) (by simp)
  have node : ∀ k q, inp.points[k]? = some q → s.node (at' k) = some ⟨q, List.replicate raw.numberofpointattributes 0, 0⟩ := fun k q hq => by
    obtain ⟨-, c, k1, k2, -⟩ := t2 0 (k + 1) k q hq (by omega)
    have hk : k < inp.points.length := (List.getElem?_eq_some_iff.mp hq).1
    rw [k1, k2 rfl, List.drop_replicate, List.take_replicate]
    have : raw.numberofpointattributes * (k + 1) ≤ raw.numberofpointattributes * inp.points.length := Nat.mul_le_mul_left _ hk
    rw [Nat.mul_succ] at this
    rw [Nat.mul_comm inp.points.length, min_eq_left (by omega)]
  refine ⟨s, at', ?_, node, fun σ mv mh ins tr fuel z ht hfuel => ?_⟩
  · rw [e3, e2, e1]
    rw [List.map_replicate] at t1
    exact t1
  · have hm : ((none : Option (Arr Int)) = none ∧ ∀ x ∈ inp.segments.map (fun e => (e, (0 : Int))), x.2 = 0) ∨
        (none : Option (Arr Int)) = some ((inp.segments.map (fun e => (e, (0 : Int)))).map fun s => some s.2) :=
      Or.inl ⟨rfl, fun x hx => by obtain ⟨y, -, rfl⟩ := List.mem_map.mp hx; rfl⟩
    have := C172_skeleton (makevertexmap := mv) (markhull := mh) (insertsegment := ins) (v := s) (pts := inp.points) (firstnumber := 0)
      (fuel := fuel) (triangles := tr) (at' := at') (fun k q hq => ?_) hm ht (by simpa using hs) z
    · have es : (inp.segments.map (fun e => (e, (0 : Int)))).map Prod.fst = inp.segments := by simp [Function.comp_def]
      rw [es, List.length_map] at this
      rw [e4, e5, e1, this]
      congr 1
      funext z
      have zero : ∀ e ∈ realSegs inp.points 0 (inp.segments.map (fun e => (e, (0 : Int)))), e.2.2 = 0 := fun e he => by
        unfold realSegs at he
        simp only [List.mem_filterMap, List.mem_map] at he
        obtain ⟨a, ⟨b, -, rfl⟩, hb⟩ := he
        split_ifs at hb
        cases hb
        rfl
      generalize realSegs inp.points 0 (inp.segments.map (fun e => (e, (0 : Int)))) = L at zero ⊢
      induction L generalizing z with
      | nil => rfl
      | cons e L ih =>
        rw [List.foldlM_cons, List.foldlM_cons, zero e (by simp)]
        congr 1
        funext z
        exact ih z (fun e he => zero e (List.mem_cons_of_mem _ he))
    · have hk : k < inp.points.length := (List.getElem?_eq_some_iff.mp hq).1
      obtain ⟨k0, -⟩ := t2 0 fuel k q hq (by omega)
      exact ⟨k0, by unfold Nodes.pt; rw [node k q hq]⟩

/-- C172: the square region with a segment to a point that is not in the list. -/
example : squareRegion.WF ∧ ∃ inp, triangleInput (1/100000 : ℚ) squareRegion [⟨1, 1⟩] [(⟨1, 1⟩, ⟨1/2, 1⟩)] = .ok inp ∧ 3 ≤ inp.points.length ∧ inp.segments ≠ [] :=
  ⟨⟨by decide, by intro h hh; cases hh⟩, _, C65_refuted, by decide, by decide⟩

/-- C172: a given segment with an end that is not (up to the tolerance) one of the points is handed over with the number -1 (C65), and
ignored by Triangle. -/
theorem C172_ignored {tol : K} (l : List (Pt K)) (p q : Pt K) (c : Int) (h : (∀ y ∈ l, ¬ Close tol y p) ∨ ∀ y ∈ l, ¬ Close tol y q) :
    realSegs l 0 [((UList.indexOf (fun a b : Pt K => a.eqTol tol b) l p, UList.indexOf (fun a b : Pt K => a.eqTol tol b) l q), c)] = [] := by
  have neg : ∀ x, (∀ y ∈ l, ¬ Close tol y x) → UList.indexOf (fun a b : Pt K => a.eqTol tol b) l x = -1 := fun x hx => by
    unfold UList.indexOf
    simp only
    rw [if_neg]
    rw [List.findIdx_lt_length]
    rintro ⟨y, hy, hc⟩
    exact hx y hy ((C08_eq_iff_close tol y x).1 hc)
  unfold realSegs
  simp only [List.filterMap_cons, List.filterMap_nil]
  rw [if_neg]
  rintro ⟨h1, h2, -⟩
  rcases h with h | h
  · rw [neg p h] at h1; omega
  · rw [neg q h] at h2; omega

/-- C171, C172: four points, and five segments of which two are ignored. -/
example : (match transfernodes (K := ℚ) (flatPts [⟨0, 0⟩, ⟨2, 0⟩, ⟨2, 2⟩, ⟨0, 0⟩]) (List.replicate 4 (some 0)) none 4 1 with
    | .ok s => (match formskeleton (fun l => .ok l) (fun l => .ok l) (fun l x y c => .ok (l ++ [(x, y, c)])) s true false
          (flatSegs [(0, 1), (1, 2), (0, -1), (0, 3), (2, 3)]) none 5 0 4 2 5 [] with
      | .ok l => l
      | _ => [])
    | _ => []) = [((0, 0), (0, 1), 0), ((0, 1), (0, 2), 0), ((0, 2), (0, 3), 0)] := by decide +kernel

end Delynoi
