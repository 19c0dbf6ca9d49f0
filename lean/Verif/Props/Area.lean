import Verif.Proofs.Area
import Verif.Proofs.Resolve
import Verif.Spec.Geometry
import Mathlib.Tactic.FieldSimp
import Mathlib.Data.Rat.Cast.Order
import Mathlib.Algebra.Order.Field.Rat
/-!
# Properties C17-C23: area, orientation, centroid, caches
-/
set_option linter.unusedSectionVars false
namespace Delynoi
variable {K : Type} [Field K] [LinearOrder K] [IsStrictOrderedRing K]

/-- Reference signed area: the sum of the signed triangle areas seen from an arbitrary point
`o`, indexed as in a textbook. -/
def refArea (o : Pt K) (l : List (Pt K)) : K :=
  ((List.finRange l.length).map
    (fun i => turn o l[i] (l[(i.val + 1) % l.length]'(Nat.mod_lt _ (by have := i.isLt; omega))) / 2)).sum

theorem refArea_eq (o : Pt K) (l : List (Pt K)) : refArea o l = signedArea l := by
  have hmap : (List.finRange l.length).map (fun i => turn o l[i] (l[(i.val + 1) % l.length]'(
      Nat.mod_lt _ (by have := i.isLt; omega))) / 2) =
      (cycPairs l).map (fun e => turn o e.1 e.2 / 2) := by
    apply List.ext_getElem
    · simp [cycPairs_length]
    · intro i h1 h2
      simp [cycPairs_getElem]
  unfold refArea
  rw [hmap, signedArea_eq]
  have : ∀ e : Pt K × Pt K, turn o e.1 e.2 / 2 =
      1 / 2 * (e.1.x * e.2.y - e.2.x * e.1.y) +
        ((fun p : Pt K => 1 / 2 * (o.y * p.x - o.x * p.y)) e.2 -
          (fun p : Pt K => 1 / 2 * (o.y * p.x - o.x * p.y)) e.1) := by
    intro e; simp only [turn]; ring
  rw [List.map_congr_left (fun e _ => this e), list_sum_add, list_sum_mul,
    cyc_telescope (fun p : Pt K => 1 / 2 * (o.y * p.x - o.x * p.y)), add_zero]
  rfl

/-- C17: the fan area (`getArea` of a fresh polygon) equals the shoelace area, for every
vertex list. -/
theorem C17_fan_eq_shoelace (l : List (Pt K)) : fanArea l = signedArea l := fanArea_eq l

/-- C17: both equal the reference area seen from any point. -/
theorem C17_area_reference (o : Pt K) (l : List (Pt K)) :
    fanArea l = refArea o l ∧ signedArea l = refArea o l := by
  rw [refArea_eq, fanArea_eq]; exact ⟨rfl, rfl⟩

/-- C17 on the object: `getArea` of a freshly built polygon with in-range indices returns the
reference area. -/
theorem C17_getArea_fresh (idx : List Int) (p l : List (Pt K)) (o : Pt K)
    (h : resolve p idx = .ok l) :
    ∃ g', (Poly.fresh idx : Poly K).getArea p = .ok (g', refArea o l) := by
  unfold Poly.getArea
  have ha : (Poly.fresh idx : Poly K).area = -1 := rfl
  rw [if_pos ha]
  have h' : resolve p (Poly.fresh idx : Poly K).points = .ok l := h
  rw [h']
  exact ⟨_, by simp only [Outcome.bind_ok, Outcome.pure_eq]; rw [fanArea_eq, refArea_eq]⟩

example : fanArea [(⟨0, 0⟩ : Pt ℚ), ⟨4, 0⟩, ⟨4, 3⟩, ⟨1, 1⟩, ⟨0, 3⟩] = 8 := by decide +kernel

/-- C18: cyclic rotation. -/
theorem C18_rotate (l : List (Pt K)) (k : Nat) : signedArea (l.rotate k) = signedArea l := by
  rw [signedArea_eq, signedArea_eq, shoe_rotate]

/-- C18: reversal changes the sign. -/
theorem C18_reverse (l : List (Pt K)) : signedArea l.reverse = -signedArea l := by
  rw [signedArea_eq, signedArea_eq, shoe_reverse]; ring

/-- C18: translation. -/
theorem C18_translate (v : Pt K) (l : List (Pt K)) :
    signedArea (l.map (fun p => ⟨p.x + v.x, p.y + v.y⟩)) = signedArea l := by
  have := shoe_shift v l
  rw [signedArea_eq, signedArea_eq]
  unfold shift at this
  rw [this]

example : signedArea [(⟨0, 0⟩ : Pt ℚ), ⟨4, 0⟩, ⟨0, 3⟩] = 6 ∧
    signedArea [(⟨0, 3⟩ : Pt ℚ), ⟨4, 0⟩, ⟨0, 0⟩] = -6 := by decide +kernel

/-- C19: `isClockwise` is "signed area negative" for every non-empty polygon. -/
theorem C19_isClockwise_iff (l : List (Pt K)) (hl : l ≠ []) (o : Pt K) :
    isClockwise l = .ok (decide (refArea o l < 0)) := by
  cases l with
  | nil => exact absurd rfl hl
  | cons a l => rw [isClockwise_iff, refArea_eq]

/-- C19: on the empty polygon `isClockwise` is undefined behaviour. -/
theorem C19_empty_ub : isClockwise ([] : List (Pt K)) = .ub := rfl

example : isClockwise [(⟨0, 0⟩ : Pt ℚ), ⟨0, 3⟩, ⟨4, 0⟩] = .ok true := by decide +kernel

private theorem foldl_hash (l : List Int) : ∀ h : BitVec 64,
    l.foldl (fun h i => h + (hashInt i).signExtend 64) h = h + polyHash l := by
  induction l with
  | nil => intro h; simp [polyHash]
  | cons a l ih =>
    intro h
    unfold polyHash
    rw [List.foldl_cons, ih, List.foldl_cons, ih, BitVec.zero_add, BitVec.add_assoc]

private theorem polyHash_perm {l m : List Int} (h : l.Perm m) : polyHash l = polyHash m := by
  unfold polyHash
  apply List.Perm.foldl_eq' h
  intro x _ y _ z
  rw [BitVec.add_assoc, BitVec.add_assoc, BitVec.add_comm (BitVec.signExtend 64 (hashInt x))]

private theorem poly_points (idx : List Int) (d a : K) (c : Pt K) (b : Bool) (h : BitVec 64) :
    (Poly.mk idx d a c b h).points = idx := rfl

/-- C20: `fixCCW` on a polygon with in-range indices: the result is the same cyclic polygon or
its reversal, its area is the absolute area, the hash field is untouched and still right, and a
second call does nothing. -/
theorem C20_fixCCW (g : Poly K) (p l : List (Pt K)) (o : Pt K) (hne : g.points ≠ [])
    (h : resolve p g.points = .ok l) :
    ∃ g' l', g.fixCCW p = .ok g' ∧ resolve p g'.points = .ok l' ∧
      (g'.points = g.points ∨ g'.points = g.points.reverse) ∧
      refArea o l' = |refArea o l| ∧
      g'.hash = g.hash ∧ polyHash g'.points = polyHash g.points ∧
      g'.fixCCW p = .ok g' := by
  have hl : l ≠ [] := by
    intro hl; have := resolve_length h; rw [hl] at this
    exact hne (List.length_eq_zero_iff.1 this.symm)
  unfold Poly.fixCCW
  simp only [h, Outcome.bind_ok, C19_isClockwise_iff l hl o, Outcome.pure_eq, decide_eq_true_eq]
  by_cases hc : refArea o l < 0
  · rw [if_pos hc]
    have hr := resolve_reverse h
    have hrl : l.reverse ≠ [] := by simpa using hl
    have hrev : refArea o l.reverse = -refArea o l := by rw [refArea_eq, refArea_eq, C18_reverse]
    refine ⟨_, l.reverse, rfl, hr, Or.inr rfl, ?_, rfl,
      polyHash_perm (List.reverse_perm _), ?_⟩
    · rw [hrev, abs_of_neg hc]
    · rw [hr]
      simp only [Outcome.bind_ok, C19_isClockwise_iff _ hrl o, hrev, decide_eq_true_eq]
      rw [if_neg (by linarith)]
  · rw [if_neg hc]
    refine ⟨g, l, rfl, h, Or.inl rfl, (abs_of_nonneg (not_lt.1 hc)).symm, rfl, rfl, ?_⟩
    simp only [h, Outcome.bind_ok, C19_isClockwise_iff l hl o, decide_eq_true_eq]
    rw [if_neg hc]

/-- C20: reversing keeps the set of undirected edges. -/
theorem C20_reverse_same_edges (idx : List Int) (a b : Int) :
    ((a, b) ∈ cycPairs idx.reverse ∨ (b, a) ∈ cycPairs idx.reverse) ↔
      ((a, b) ∈ cycPairs idx ∨ (b, a) ∈ cycPairs idx) := by
  have h : ∀ e, e ∈ cycPairs idx.reverse ↔ e.swap ∈ cycPairs idx := by
    intro e
    rw [(cycPairs_reverse_perm idx).mem_iff, List.mem_map]
    constructor
    · rintro ⟨e', he', rfl⟩; simpa using he'
    · intro he; exact ⟨e.swap, he, by simp⟩
  rw [h, h]; exact or_comm

example : ((Poly.fresh [0, 1, 2] : Poly ℚ).fixCCW [⟨0, 0⟩, ⟨0, 3⟩, ⟨4, 0⟩]).bind
    (fun g => .ok g.points) = .ok [2, 1, 0] := by decide +kernel

/-- Operations that keep the mesh points. -/
inductive PolyOp
  | getArea
  | getDiameter
  | fixCCW
  | copy

/-- Run a history of operations with a fixed mesh `p`. -/
def runPoly (calcD : List (Pt K) → Outcome K) (p : List (Pt K)) :
    List PolyOp → Poly K → Outcome (Poly K)
  | [], g => .ok g
  | .getArea :: ops, g => do let r ← g.getArea p; runPoly calcD p ops r.1
  | .getDiameter :: ops, g => do let r ← g.getDiameter calcD p; runPoly calcD p ops r.1
  | .fixCCW :: ops, g => do let r ← g.fixCCW p; runPoly calcD p ops r
  | .copy :: ops, g => runPoly calcD p ops g.copy

private def AreaInv (p : List (Pt K)) (g : Poly K) : Prop :=
  ∃ l, resolve p g.points = .ok l ∧ (g.area = -1 ∨ g.area = signedArea l)

private theorem areaInv_getArea {p : List (Pt K)} {g : Poly K} (h : AreaInv p g) {r}
    (hr : g.getArea p = .ok r) :
    AreaInv p r.1 ∧ ∃ l, resolve p r.1.points = .ok l ∧ r.2 = signedArea l := by
  obtain ⟨l, hl, ha⟩ := h
  unfold Poly.getArea at hr
  split at hr
  · simp only [hl, Outcome.bind_ok, Outcome.pure_eq, Outcome.ok.injEq] at hr
    subst hr
    exact ⟨⟨l, hl, Or.inr (fanArea_eq l)⟩, l, hl, fanArea_eq l⟩
  · rename_i hne
    simp only [Outcome.ok.injEq] at hr
    subst hr
    exact ⟨⟨l, hl, ha⟩, l, hl, ha.resolve_left hne⟩

private theorem areaInv_run (calcD : List (Pt K) → Outcome K) (p : List (Pt K)) :
    ∀ (ops : List PolyOp) (g g' : Poly K), AreaInv p g → runPoly calcD p ops g = .ok g' →
      AreaInv p g' := by
  intro ops
  induction ops with
  | nil => intro g g' h hr; simp only [runPoly, Outcome.ok.injEq] at hr; rwa [← hr]
  | cons o ops ih =>
    intro g g' h hr
    cases o with
    | getArea =>
      simp only [runPoly] at hr
      cases hg : g.getArea p with
      | exn => simp [hg] at hr
      | ub => simp [hg] at hr
      | ok r =>
        simp only [hg, Outcome.bind_ok] at hr
        exact ih _ _ (areaInv_getArea h hg).1 hr
    | getDiameter =>
      simp only [runPoly] at hr
      cases hg : g.getDiameter calcD p with
      | exn => simp [hg] at hr
      | ub => simp [hg] at hr
      | ok r =>
        simp only [hg, Outcome.bind_ok] at hr
        refine ih _ _ ?_ hr
        obtain ⟨l, hl, ha⟩ := h
        unfold Poly.getDiameter at hg
        split at hg
        · cases hc : calcD l with
          | exn => simp [hl, hc] at hg
          | ub => simp [hl, hc] at hg
          | ok d =>
            simp only [hl, hc, Outcome.bind_ok, Outcome.pure_eq, Outcome.ok.injEq] at hg
            subst hg; exact ⟨l, hl, ha⟩
        · simp only [Outcome.ok.injEq] at hg
          subst hg; exact ⟨l, hl, ha⟩
    | fixCCW =>
      simp only [runPoly] at hr
      cases hg : g.fixCCW p with
      | exn => simp [hg] at hr
      | ub => simp [hg] at hr
      | ok r =>
        simp only [hg, Outcome.bind_ok] at hr
        refine ih _ _ ?_ hr
        obtain ⟨l, hl, ha⟩ := h
        unfold Poly.fixCCW at hg
        cases hc : isClockwise l with
        | exn => simp [hl, hc] at hg
        | ub => simp [hl, hc] at hg
        | ok c =>
          simp only [hl, hc, Outcome.bind_ok, Outcome.pure_eq] at hg
          split at hg
          · have := Outcome.ok.inj hg
            subst this
            exact ⟨l.reverse, resolve_reverse hl, Or.inl rfl⟩
          · have := Outcome.ok.inj hg
            subst this; exact ⟨l, hl, ha⟩
    | copy =>
      simp only [runPoly] at hr
      exact ih g.copy _ h hr

/-- C21: after any history of area/diameter queries, orientation fixes and copies on a fixed
mesh, `getArea` returns the signed area of the current vertex order. -/
theorem C21_area_never_stale (calcD : List (Pt K) → Outcome K) (p : List (Pt K)) (idx : List Int)
    (hidx : ∀ i ∈ idx, 0 ≤ i ∧ i < p.length) (ops : List PolyOp) (g : Poly K)
    (hg : runPoly calcD p ops (Poly.fresh idx) = .ok g) (o : Pt K) :
    ∃ g' l, g.getArea p = .ok (g', refArea o l) ∧ resolve p g'.points = .ok l := by
  obtain ⟨l0, hl0⟩ := resolve_ok_iff.2 hidx
  have h0 : AreaInv p (Poly.fresh idx : Poly K) := ⟨l0, hl0, Or.inl rfl⟩
  have h1 := areaInv_run calcD p ops _ g h0 hg
  obtain ⟨l, hl, ha⟩ := h1
  by_cases hc : g.area = -1
  · refine ⟨{ g with area := fanArea l }, l, ?_, hl⟩
    unfold Poly.getArea
    simp only [hc, if_true, hl, Outcome.bind_ok, Outcome.pure_eq]
    rw [refArea_eq, fanArea_eq]
  · refine ⟨g, l, ?_, hl⟩
    unfold Poly.getArea
    rw [if_neg hc, refArea_eq, ha.resolve_left hc]

/-- C21: the history never raises or hits undefined behaviour on a non-empty polygon with
in-range indices when the diameter computation succeeds. -/
theorem C21_history_defined (calcD : List (Pt K) → Outcome K) (hcd : ∀ l, l ≠ [] → ∃ d, calcD l = .ok d)
    (p : List (Pt K)) (ops : List PolyOp) : ∀ (g : Poly K), g.points ≠ [] →
    (∀ i ∈ g.points, 0 ≤ i ∧ i < p.length) → ∃ g', runPoly calcD p ops g = .ok g' := by
  induction ops with
  | nil => intro g _ _; exact ⟨g, rfl⟩
  | cons o ops ih =>
    intro g hne hidx
    obtain ⟨l, hl⟩ := resolve_ok_iff.2 hidx
    have hlne : l ≠ [] := by
      intro hl0; have := resolve_length hl; rw [hl0] at this
      exact hne (List.length_eq_zero_iff.1 this.symm)
    cases o with
    | getArea =>
      simp only [runPoly, Poly.getArea]
      split
      · simp only [hl, Outcome.bind_ok, Outcome.pure_eq]; exact ih _ hne hidx
      · simp only [Outcome.bind_ok]; exact ih _ hne hidx
    | getDiameter =>
      simp only [runPoly, Poly.getDiameter]
      obtain ⟨d, hd⟩ := hcd l hlne
      split
      · simp only [hl, hd, Outcome.bind_ok, Outcome.pure_eq]; exact ih _ hne hidx
      · simp only [Outcome.bind_ok]; exact ih _ hne hidx
    | fixCCW =>
      obtain ⟨g', l', h1, h2, h3, _⟩ := C20_fixCCW g p l ⟨0, 0⟩ hne hl
      simp only [runPoly, h1, Outcome.bind_ok]
      refine ih g' ?_ ?_
      · rcases h3 with h3 | h3
        · rwa [h3]
        · rw [h3]; simpa using hne
      · rcases h3 with h3 | h3
        · rwa [h3]
        · rw [h3]; intro i hi; exact hidx i (by simpa using hi)
    | copy => simp only [runPoly]; exact ih _ hne hidx

example : ∃ g, runPoly (fun _ => .ok (1 : ℚ)) [⟨0, 0⟩, ⟨0, 3⟩, ⟨4, 0⟩]
    [.getArea, .fixCCW, .copy, .getDiameter] (Poly.fresh [0, 1, 2]) = .ok g :=
  C21_history_defined _ (fun _ _ => ⟨1, rfl⟩) _ _ _ (by decide)
    (by simp [Poly.fresh])

/-! ### C22 -/

/-- Every way of obtaining a polygon object. -/
inductive PolyObtainable (tol : K) : Poly K → Prop
  | ofIndices (idx p g) : Poly.ofIndices tol idx p = .ok g → PolyObtainable tol g
  | ofPoints (p g) : Poly.ofPoints tol p = .ok g → PolyObtainable tol g
  | mutate (g p) : PolyObtainable tol g → PolyObtainable tol (g.mutate tol p).1
  | copy (g) : PolyObtainable tol g → PolyObtainable tol g.copy
  | getArea (g p r) : PolyObtainable tol g → g.getArea p = .ok r → PolyObtainable tol r.1
  | getDiameter (g p r calcD) : PolyObtainable tol g → g.getDiameter calcD p = .ok r →
      PolyObtainable tol r.1
  | fixCCW (g p r) : PolyObtainable tol g → g.fixCCW p = .ok r → PolyObtainable tol r
  | getCentroid (g p r) : PolyObtainable tol g → g.getCentroid p = .ok r → PolyObtainable tol r.1

/-- C22 is violated in the strongest way: whatever polygon, points and history,
`getCentroid` returns the origin. -/
theorem C22_centroid_always_origin (tol : K) (g : Poly K) (h : PolyObtainable tol g)
    (p : List (Pt K)) : g.getCentroid p = .ok (g, some ⟨0, 0⟩) := by
  have key : g.centroidEmpty = true ∧ g.centroid = ⟨0, 0⟩ := by
    induction h with
    | ofIndices idx p g hg =>
      unfold Poly.ofIndices at hg
      split at hg
      · simp at hg
      · have := Outcome.ok.inj hg; subst this; exact ⟨rfl, rfl⟩
    | ofPoints p g hg => have := Outcome.ok.inj hg; subst this; exact ⟨rfl, rfl⟩
    | mutate g p _ ih =>
      unfold Poly.mutate
      split
      · exact ih
      · exact ⟨rfl, rfl⟩
    | copy g _ ih => exact ih
    | getArea g p r _ hr ih =>
      unfold Poly.getArea at hr
      split at hr
      · cases hl : resolve p g.points with
        | exn => simp [hl] at hr
        | ub => simp [hl] at hr
        | ok l =>
          simp only [hl, Outcome.bind_ok, Outcome.pure_eq, Outcome.ok.injEq] at hr
          subst hr; exact ih
      · simp only [Outcome.ok.injEq] at hr; subst hr; exact ih
    | getDiameter g p r calcD _ hr ih =>
      unfold Poly.getDiameter at hr
      split at hr
      · cases hl : resolve p g.points with
        | exn => simp [hl] at hr
        | ub => simp [hl] at hr
        | ok l =>
          cases hc : calcD l with
          | exn => simp [hl, hc] at hr
          | ub => simp [hl, hc] at hr
          | ok d =>
            simp only [hl, hc, Outcome.bind_ok, Outcome.pure_eq, Outcome.ok.injEq] at hr
            subst hr; exact ih
      · simp only [Outcome.ok.injEq] at hr; subst hr; exact ih
    | fixCCW g p r _ hr ih =>
      unfold Poly.fixCCW at hr
      cases hl : resolve p g.points with
      | exn => simp [hl] at hr
      | ub => simp [hl] at hr
      | ok l =>
        cases hc : isClockwise l with
        | exn => simp [hl, hc] at hr
        | ub => simp [hl, hc] at hr
        | ok c =>
          simp only [hl, hc, Outcome.bind_ok, Outcome.pure_eq] at hr
          split at hr
          · have := Outcome.ok.inj hr; subst this; exact ih
          · have := Outcome.ok.inj hr; subst this; exact ih
    | getCentroid g p r _ hr ih =>
      unfold Poly.getCentroid at hr
      rw [ih.1] at hr
      simp only [Bool.not_true, Bool.false_eq_true, if_false, Outcome.ok.injEq] at hr
      subst hr; exact ih
  unfold Poly.getCentroid
  rw [key.1, key.2]; simp

/-- C22, the refutation of the stated property: the unit square at (1,1)-(2,2) has centroid
(3/2,3/2) but the accessor says (0,0). -/
theorem C22_centroid_refuted :
    ∃ (idx : List Int) (p : List (Pt ℚ)) (g : Poly ℚ) (c : Pt ℚ),
      Poly.ofIndices (1/100000) idx p = .ok g ∧ calculateCentroid p = some c ∧
      c = ⟨3/2, 3/2⟩ ∧ ∃ g', g.getCentroid p = .ok (g', some ⟨0, 0⟩) := by
  refine ⟨[0, 1, 2, 3], [⟨1, 1⟩, ⟨2, 1⟩, ⟨2, 2⟩, ⟨1, 2⟩], Poly.fresh [0, 1, 2, 3], ⟨3/2, 3/2⟩,
    ?_, by decide +kernel, rfl, Poly.fresh [0, 1, 2, 3], ?_⟩
  · unfold Poly.ofIndices; rw [if_neg (by decide)]
  · unfold Poly.getCentroid; rw [if_neg (by simp [Poly.fresh])]; rfl

/-! ### C23 -/

/-- Reference centroid times area: area-weighted mean of the centroids of the triangles seen
from an arbitrary point `o`. -/
def refMoment (o : Pt K) (l : List (Pt K)) : Pt K :=
  ⟨((List.finRange l.length).map (fun i =>
      let b := l[i]
      let c := l[(i.val + 1) % l.length]'(Nat.mod_lt _ (by have := i.isLt; omega))
      turn o b c / 2 * ((o.x + b.x + c.x) / 3))).sum,
   ((List.finRange l.length).map (fun i =>
      let b := l[i]
      let c := l[(i.val + 1) % l.length]'(Nat.mod_lt _ (by have := i.isLt; omega))
      turn o b c / 2 * ((o.y + b.y + c.y) / 3))).sum⟩

private theorem refMoment_eq (o : Pt K) (l : List (Pt K)) :
    refMoment o l = ⟨momX l / 6, momY l / 6⟩ := by
  have hmap : ∀ f : Pt K → Pt K → K, (List.finRange l.length).map (fun i => f l[i]
      (l[(i.val + 1) % l.length]'(Nat.mod_lt _ (by have := i.isLt; omega)))) =
      (cycPairs l).map (fun e => f e.1 e.2) := by
    intro f
    apply List.ext_getElem
    · simp [cycPairs_length]
    · intro i h1 h2
      simp [cycPairs_getElem]
  have hx := hmap (fun b c => turn o b c / 2 * ((o.x + b.x + c.x) / 3))
  have hy := hmap (fun b c => turn o b c / 2 * ((o.y + b.y + c.y) / 3))
  unfold refMoment
  simp only at hx hy ⊢
  rw [hx, hy]
  congr 1
  · have : ∀ e : Pt K × Pt K, turn o e.1 e.2 / 2 * ((o.x + e.1.x + e.2.x) / 3) =
        1 / 6 * ((e.1.x + e.2.x) * (e.1.x * e.2.y - e.2.x * e.1.y)) +
        ((fun p : Pt K => 1 / 6 * (-o.x * (p.x * p.y) + o.y * p.x ^ 2 - o.x * (o.x * p.y - o.y * p.x))) e.2 -
         (fun p : Pt K => 1 / 6 * (-o.x * (p.x * p.y) + o.y * p.x ^ 2 - o.x * (o.x * p.y - o.y * p.x))) e.1) := by
      intro e; simp only [turn]; ring
    rw [List.map_congr_left (fun e _ => this e), list_sum_add, list_sum_mul,
      cyc_telescope (fun p : Pt K =>
        1 / 6 * (-o.x * (p.x * p.y) + o.y * p.x ^ 2 - o.x * (o.x * p.y - o.y * p.x))), add_zero]
    unfold momX; ring
  · have : ∀ e : Pt K × Pt K, turn o e.1 e.2 / 2 * ((o.y + e.1.y + e.2.y) / 3) =
        1 / 6 * ((e.1.y + e.2.y) * (e.1.x * e.2.y - e.2.x * e.1.y)) +
        ((fun p : Pt K => 1 / 6 * (o.y * (p.x * p.y) - o.x * p.y ^ 2 - o.y * (o.x * p.y - o.y * p.x))) e.2 -
         (fun p : Pt K => 1 / 6 * (o.y * (p.x * p.y) - o.x * p.y ^ 2 - o.y * (o.x * p.y - o.y * p.x))) e.1) := by
      intro e; simp only [turn]; ring
    rw [List.map_congr_left (fun e _ => this e), list_sum_add, list_sum_mul,
      cyc_telescope (fun p : Pt K =>
        1 / 6 * (o.y * (p.x * p.y) - o.x * p.y ^ 2 - o.y * (o.x * p.y - o.y * p.x))), add_zero]
    unfold momY; ring

/-- C23: the formula is the area-weighted mean of triangle centroids, from any reference
point; it is undefined exactly for zero area. -/
theorem C23_centroid_is_area_mean (l : List (Pt K)) (o : Pt K) :
    (refArea o l = 0 → calculateCentroid l = none) ∧
    (refArea o l ≠ 0 → calculateCentroid l =
      some ⟨(refMoment o l).x / refArea o l, (refMoment o l).y / refArea o l⟩) := by
  rw [refArea_eq, calculateCentroid_eq, signedArea_eq, refMoment_eq]
  constructor
  · intro h
    have : shoe l = 0 := by
      rcases mul_eq_zero.1 h with h | h
      · norm_num at h
      · exact h
    rw [if_pos this]
  · intro h
    have h0 : shoe l ≠ 0 := by intro h0; apply h; rw [h0, mul_zero]
    rw [if_neg h0]
    congr 2 <;> field_simp <;> ring

/-- C23: translation equivariance. -/
theorem C23_translate (v : Pt K) (l : List (Pt K)) :
    calculateCentroid (l.map (fun p => ⟨p.x + v.x, p.y + v.y⟩)) =
      (calculateCentroid l).map (fun c => ⟨c.x + v.x, c.y + v.y⟩) := by
  have e : (fun p : Pt K => (⟨p.x + v.x, p.y + v.y⟩ : Pt K)) = shift v := rfl
  rw [e, calculateCentroid_eq, calculateCentroid_eq, shoe_shift, momX_shift, momY_shift]
  by_cases h : shoe l = 0
  · simp [h]
  · simp only [h, if_false, Option.map_some, shift]
    congr 2 <;> field_simp

/-- C23: orientation and start vertex do not matter. -/
theorem C23_reverse_rotate (l : List (Pt K)) (k : Nat) :
    calculateCentroid l.reverse = calculateCentroid l ∧
    calculateCentroid (l.rotate k) = calculateCentroid l := by
  constructor
  · rw [calculateCentroid_eq, calculateCentroid_eq, shoe_reverse, momX_reverse, momY_reverse]
    by_cases h : shoe l = 0
    · simp [h]
    · simp only [h, neg_eq_zero, if_false]
      congr 2 <;> field_simp
  · rw [calculateCentroid_eq, calculateCentroid_eq, shoe_rotate, momX_rotate, momY_rotate]

/-- C23: for a triangle it is the mean of the vertices. -/
theorem C23_triangle (a b c : Pt K) (h : turn a b c ≠ 0) :
    calculateCentroid [a, b, c] = some ⟨(a.x + b.x + c.x) / 3, (a.y + b.y + c.y) / 3⟩ := by
  have hs : shoe [a, b, c] = turn a b c := by
    simp only [shoe, cycPairs, turn, List.drop, List.take, List.cons_append, List.nil_append,
      List.zip_cons_cons, List.zip_nil_left, List.map_cons, List.map_nil, List.sum_cons, List.sum_nil]
    ring
  have hx : momX [a, b, c] = turn a b c * (a.x + b.x + c.x) := by
    simp only [momX, cycPairs, turn, List.drop, List.take, List.cons_append, List.nil_append,
      List.zip_cons_cons, List.zip_nil_left, List.map_cons, List.map_nil, List.sum_cons, List.sum_nil]
    ring
  have hy : momY [a, b, c] = turn a b c * (a.y + b.y + c.y) := by
    simp only [momY, cycPairs, turn, List.drop, List.take, List.cons_append, List.nil_append,
      List.zip_cons_cons, List.zip_nil_left, List.map_cons, List.map_nil, List.sum_cons, List.sum_nil]
    ring
  rw [calculateCentroid_eq, hs, hx, hy, if_neg h]
  congr 2 <;> field_simp

example : calculateCentroid [(⟨1, 1⟩ : Pt ℚ), ⟨4, 1⟩, ⟨1, 7⟩] = some ⟨2, 3⟩ := by decide +kernel

end Delynoi
