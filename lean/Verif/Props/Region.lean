import Verif.Spec.Region
import Verif.Props.PolygonMisc
import Verif.Props.BoundingBox
import Verif.Proofs.Diameter
import Mathlib.Tactic.Linarith
import Mathlib.Tactic.NormNum
import Mathlib.Data.Rat.Floor
/-!
# Properties C43-C48: regions and their seeds
-/
set_option linter.unusedSectionVars false
namespace Delynoi
variable {K : Type} [Field K] [LinearOrder K] [IsStrictOrderedRing K]

/-! ### C43 -/

theorem minLoop_spec (ds : List K) : ∀ (init : K),
    Region.minLoop init ds ≤ init ∧ (∀ d ∈ ds, Region.minLoop init ds ≤ d) ∧
    (Region.minLoop init ds = init ∨ Region.minLoop init ds ∈ ds) := by
  induction ds with
  | nil => intro init; simp [Region.minLoop]
  | cons d ds ih =>
    intro init
    have e : Region.minLoop init (d :: ds) = Region.minLoop (if d < init then d else init) ds := rfl
    rw [e]
    obtain ⟨h1, h2, h3⟩ := ih (if d < init then d else init)
    by_cases hd : d < init
    · simp only [hd, if_true] at h1 h2 h3 ⊢
      refine ⟨h1.trans hd.le, ?_, ?_⟩
      · intro x hx
        rcases List.mem_cons.1 hx with rfl | hx
        · exact h1
        · exact h2 x hx
      · rcases h3 with h3 | h3
        · right; rw [h3]; simp
        · right; exact List.mem_cons_of_mem _ h3
    · simp only [hd, if_false] at h1 h2 h3 ⊢
      refine ⟨h1, ?_, ?_⟩
      · intro x hx
        rcases List.mem_cons.1 hx with rfl | hx
        · exact h1.trans (not_lt.1 hd)
        · exact h2 x hx
      · rcases h3 with h3 | h3
        · left; exact h3
        · right; exact List.mem_cons_of_mem _ h3

/-- C43: the box contains every vertex (no range condition). -/
theorem C43_box_contains (r : Region K) (v : Pt K) (hv : v ∈ r.p) : r.getBox.contains v = true := by
  rw [C42_contains_iff]
  have hx := List.mem_map_of_mem (f := Pt.x) hv
  have hy := List.mem_map_of_mem (f := Pt.y) hv
  have a := (minLoop_spec (r.p.map Pt.x) (2 ^ 63)).2.1 _ hx
  have b := (minLoop_spec (r.p.map Pt.y) (2 ^ 63)).2.1 _ hy
  have c := (maxLoop_spec (r.p.map Pt.x) (-2 ^ 63)).2.1 _ hx
  have d := (maxLoop_spec (r.p.map Pt.y) (-2 ^ 63)).2.1 _ hy
  exact ⟨Or.inl ⟨a, c⟩, Or.inl ⟨b, d⟩⟩

private theorem min_touch (vs : List K) (hne : vs ≠ []) (h : ∀ v ∈ vs, v ≤ 2 ^ 63) :
    Region.minLoop (2 ^ 63) vs ∈ vs := by
  obtain ⟨_, h2, h3⟩ := minLoop_spec vs (2 ^ 63)
  rcases h3 with h3 | h3
  · obtain ⟨v, hv⟩ := List.exists_mem_of_ne_nil _ hne
    have := h2 v hv
    rw [h3] at this
    rw [h3, le_antisymm this (h v hv)]; exact hv
  · exact h3

private theorem max_touch (vs : List K) (hne : vs ≠ []) (h : ∀ v ∈ vs, -2 ^ 63 ≤ v) :
    maxLoop (-2 ^ 63) vs ∈ vs := by
  obtain ⟨_, h2, h3⟩ := maxLoop_spec vs (-2 ^ 63 : K)
  rcases h3 with h3 | h3
  · obtain ⟨v, hv⟩ := List.exists_mem_of_ne_nil _ hne
    have := h2 v hv
    rw [h3] at this
    rw [h3, le_antisymm (h v hv) this]; exact hv
  · exact h3

/-- C43: for a non-empty region with coordinates in the range of `long long`, every side of the
box touches a vertex. -/
theorem C43_box_tight (r : Region K) (hne : r.p ≠ [])
    (hr : ∀ v ∈ r.p, |v.x| ≤ 2 ^ 63 ∧ |v.y| ≤ 2 ^ 63) :
    (∃ v ∈ r.p, v.x = r.getBox.xMin) ∧ (∃ v ∈ r.p, v.x = r.getBox.xMax) ∧
    (∃ v ∈ r.p, v.y = r.getBox.yMin) ∧ (∃ v ∈ r.p, v.y = r.getBox.yMax) := by
  have hx : r.p.map Pt.x ≠ [] := by simpa using hne
  have hy : r.p.map Pt.y ≠ [] := by simpa using hne
  have a := min_touch (r.p.map Pt.x) hx (by
    intro v hv; obtain ⟨q, hq, rfl⟩ := List.mem_map.1 hv; exact (abs_le.1 (hr q hq).1).2)
  have b := min_touch (r.p.map Pt.y) hy (by
    intro v hv; obtain ⟨q, hq, rfl⟩ := List.mem_map.1 hv; exact (abs_le.1 (hr q hq).2).2)
  have c := max_touch (r.p.map Pt.x) hx (by
    intro v hv; obtain ⟨q, hq, rfl⟩ := List.mem_map.1 hv; exact (abs_le.1 (hr q hq).1).1)
  have d := max_touch (r.p.map Pt.y) hy (by
    intro v hv; obtain ⟨q, hq, rfl⟩ := List.mem_map.1 hv; exact (abs_le.1 (hr q hq).2).1)
  have lex : r.getBox.p1.x ≤ r.getBox.p2.x :=
    (minLoop_spec (r.p.map Pt.x) (2 ^ 63)).2.1 _ c
  have ley : r.getBox.p1.y ≤ r.getBox.p2.y :=
    (minLoop_spec (r.p.map Pt.y) (2 ^ 63)).2.1 _ d
  unfold BBox.xMin BBox.xMax BBox.yMin BBox.yMax
  rw [min_eq_left lex, max_eq_right lex, min_eq_left ley, max_eq_right ley]
  exact ⟨List.mem_map.1 a, List.mem_map.1 c, List.mem_map.1 b, List.mem_map.1 d⟩

example : ((⟨Poly.fresh [0, 1, 2], [⟨1, 2⟩, ⟨4, 3⟩, ⟨2, 7⟩], [], []⟩ : Region ℚ).getBox.xMin,
    (⟨Poly.fresh [0, 1, 2], [⟨1, 2⟩, ⟨4, 3⟩, ⟨2, 7⟩], [], []⟩ : Region ℚ).getBox.yMax) = (1, 7) := by
  decide +kernel

/-- C43, outside the range: the box of a far away region is not tight. -/
theorem C43_far_not_tight : ∃ r : Region ℚ, r.p ≠ [] ∧ ¬ ∃ v ∈ r.p, v.x = r.getBox.xMin := by
  refine ⟨⟨Poly.fresh [0, 1, 2], [⟨2 ^ 64, 0⟩, ⟨2 ^ 64 + 1, 0⟩, ⟨2 ^ 64, 1⟩], [], []⟩, by simp, ?_⟩
  decide +kernel

/-! ### Well-formedness -/

theorem hole_wf_ofBoundary (pts : List (Pt K)) (c : Pt K) : (Hole.ofBoundary pts c).WF := by
  intro s hs
  have hs : s ∈ Delynoi.getSegments (trivialIndex pts.length) := hs
  obtain ⟨e, he, rfl⟩ := List.mem_map.1 hs
  have e1 : (ISeg.mk' e.1 e.2).p1 = e.1 := rfl
  have e2 : (ISeg.mk' e.1 e.2).p2 = e.2 := rfl
  have hp : (Hole.ofBoundary pts c).points = pts := rfl
  rw [e1, e2, hp]
  have triv : ∀ i ∈ trivialIndex pts.length, 0 ≤ i ∧ i < (pts.length : Int) := by
    intro i hi
    obtain ⟨k, hk, rfl⟩ := List.mem_map.1 hi
    have := List.mem_range.1 hk
    exact ⟨Int.natCast_nonneg k, Int.ofNat_lt.2 this⟩
  have h1 : e.1 ∈ trivialIndex pts.length := by
    have := List.mem_map_of_mem (f := Prod.fst) he
    rwa [cycPairs_fst] at this
  have h2 : e.2 ∈ trivialIndex pts.length := by
    have := List.mem_map_of_mem (f := Prod.snd) he
    rw [cycPairs_snd] at this
    rcases List.mem_append.1 this with h | h
    · exact List.mem_of_mem_drop h
    · exact List.mem_of_mem_take h
  exact ⟨triv _ h1, triv _ h2⟩

theorem trivial_in_range (pts : List (Pt K)) : ∀ i ∈ trivialIndex pts.length, 0 ≤ i ∧ i < (pts.length : Int) := by
  intro i hi
  obtain ⟨k, hk, rfl⟩ := List.mem_map.1 hi
  have := List.mem_range.1 hk
  exact ⟨Int.natCast_nonneg k, Int.ofNat_lt.2 this⟩

theorem region_wf_ofPoints (tol : K) (pts : List (Pt K)) :
    ∃ r : Region K, Region.ofPoints tol pts = .ok r ∧ r.WF ∧ r.p = pts ∧ r.holes = [] ∧ r.seeds = [] :=
  ⟨_, rfl, ⟨trivial_in_range pts, by intro h hh; cases hh⟩, rfl, rfl, rfl⟩

theorem poly_mutate_points (tol : K) (g : Poly K) (pts : List (Pt K)) :
    (g.mutate tol pts).1.points = trivialIndex pts.length := by
  unfold Poly.mutate
  by_cases h : isSelfIntersecting tol pts = true
  · rw [if_pos h]
  · rw [if_neg h]; rfl

theorem region_wf_mutate (tol : K) (r : Region K) (pts : List (Pt K)) (h : r.WF) :
    (r.mutate tol pts).1.WF := by
  refine ⟨?_, h.2⟩
  have : (r.mutate tol pts).1.poly.points = trivialIndex pts.length := poly_mutate_points tol r.poly pts
  rw [this]
  exact trivial_in_range pts

theorem hole_contains_total (tol : K) (h : Hole K) (hw : h.WF) (q : Pt K) :
    ∃ b, h.containsPoint tol q = .ok b := by
  have key : ∀ (ss : List ISeg) (c : ISeg), (∀ s ∈ ss, (0 ≤ s.p1 ∧ s.p1 < h.points.length) ∧
      0 ≤ s.p2 ∧ s.p2 < h.points.length) → ∃ r, Hole.lastContaining tol h.points q c ss = .ok r := by
    intro ss
    induction ss with
    | nil => intro c _; exact ⟨c, rfl⟩
    | cons s ss ih =>
      intro c hs
      obtain ⟨⟨h1, h2⟩, h3, h4⟩ := hs s (by simp)
      have g1 : vecGet h.points s.p1 = .ok (h.points[s.p1.toNat]'(by omega)) :=
        vecGet_ok_iff.2 ⟨h1, List.getElem?_eq_getElem (by omega)⟩
      have g2 : vecGet h.points s.p2 = .ok (h.points[s.p2.toNat]'(by omega)) :=
        vecGet_ok_iff.2 ⟨h3, List.getElem?_eq_getElem (by omega)⟩
      have hb : ∃ b, ISeg.contains tol h.points q s = .ok b := by
        unfold ISeg.contains
        rw [g1, g2]; exact ⟨_, rfl⟩
      obtain ⟨b, hb⟩ := hb
      obtain ⟨r, hr⟩ := ih (if b then s else c) (fun x hx => hs x (by simp [hx]))
      exact ⟨r, by simp only [Hole.lastContaining, hb, Outcome.bind_ok]; exact hr⟩
  obtain ⟨r, hr⟩ := key (h.getSegments 0) (ISeg.mk' (-1) (-1)) (by
    intro s hs
    obtain ⟨t, ht, rfl⟩ := List.mem_map.1 hs
    have := hw t ht
    have e1 : (t.add 0).p1 = t.p1 + 0 := rfl
    have e2 : (t.add 0).p2 = t.p2 + 0 := rfl
    rw [e1, e2]; simpa using this)
  unfold Hole.containsPoint
  rw [hr]
  dsimp only
  split
  · exact ⟨_, rfl⟩
  · split <;> exact ⟨_, rfl⟩

theorem region_contains_total (tol : K) (r : Region K) (hw : r.WF) (q : Pt K) :
    ∃ b, r.containsPoint tol q = .ok b := by
  obtain ⟨l, hl⟩ := resolve_ok_iff.2 hw.1
  exact ⟨_, by unfold Region.containsPoint; rw [hl]; rfl⟩

/-! ### C44 -/

private theorem keepLoop_false (tol : K) (q : Pt K) (hs : List (Hole K)) :
    Region.keepLoop tol q false hs = .ok false := by
  induction hs with
  | nil => rfl
  | cons h hs ih => simp [Region.keepLoop, ih]

private theorem keepLoop_true (tol : K) (q : Pt K) (hs : List (Hole K)) (hw : ∀ h ∈ hs, h.WF) :
    ∃ b, Region.keepLoop tol q true hs = .ok b ∧
      (b = true ↔ ∀ h ∈ hs, h.containsPoint tol q = .ok false) := by
  induction hs with
  | nil => exact ⟨true, rfl, by simp⟩
  | cons h hs ih =>
    obtain ⟨c, hc⟩ := hole_contains_total tol h (hw h (by simp)) q
    obtain ⟨b, hb, hb'⟩ := ih (fun x hx => hw x (by simp [hx]))
    cases c with
    | true =>
      refine ⟨false, ?_, ?_⟩
      · simp [Region.keepLoop, hc, keepLoop_false]
      · constructor
        · intro h; cases h
        · intro hh
          have := hh h (by simp)
          rw [hc] at this; cases this
    | false =>
      refine ⟨b, ?_, ?_⟩
      · simp [Region.keepLoop, hc, hb]
      · rw [hb']
        constructor
        · intro hh x hx
          rcases List.mem_cons.1 hx with rfl | hx
          · exact hc
          · exact hh x hx
        · intro hh x hx
          exact hh x (by simp [hx])

open Classical in
theorem keepSeeds_spec (tol : K) (r : Region K) (hw : r.WF) (qs : List (Pt (Option K))) :
    r.keepSeeds tol qs = .ok ((numericPts qs).filter (fun q => decide (GoodSeed tol r q))) := by
  induction qs with
  | nil => rfl
  | cons q qs ih =>
    obtain ⟨qx, qy⟩ := q
    cases qx with
    | none => unfold Region.keepSeeds numericPts; exact ih
    | some x =>
      cases qy with
      | none => unfold Region.keepSeeds numericPts; exact ih
      | some y =>
        unfold Region.keepSeeds numericPts
        obtain ⟨c, hc⟩ := region_contains_total tol r hw ⟨x, y⟩
        obtain ⟨b, hb, hb'⟩ := keepLoop_true tol ⟨x, y⟩ r.holes hw.2
        simp only [hc, Outcome.bind_ok, List.filter_cons]
        cases c with
        | false =>
          have : ¬ GoodSeed tol r ⟨x, y⟩ := by
            rintro ⟨h, _⟩; rw [hc] at h; cases h
          simp only [this, decide_false, Bool.false_eq_true, if_false]
          exact ih
        | true =>
          simp only [if_true, hb, ih, Outcome.bind_ok, Outcome.pure_eq]
          by_cases hg : GoodSeed tol r ⟨x, y⟩
          · have hbt : b = true := hb'.2 hg.2
            simp [hbt, hg]
          · have hbf : b = false := by
              cases b with
              | false => rfl
              | true => exact absurd ⟨hc, hb'.1 rfl⟩ hg
            simp [hbf, hg]

theorem numericPts_append (a b : List (Pt (Option K))) :
    numericPts (a ++ b) = numericPts a ++ numericPts b := by
  induction a with
  | nil => rfl
  | cons q qs ih =>
    obtain ⟨qx, qy⟩ := q
    cases qx <;> cases qy <;> simp [numericPts, ih]

theorem numericPts_num (a : List (Pt K)) : numericPts (a.map Region.num) = a := by
  induction a with
  | nil => rfl
  | cons q qs ih => simp [numericPts, Region.num, ih]

open Classical in
/-- C44: `addSeedPoints` keeps exactly the good seeds of the given list, in order; outline and
holes are unchanged. -/
theorem C44_addSeedPoints (tol : K) (r : Region K) (hw : r.WF) (s : List (Pt K)) :
    r.addSeedPoints tol s = .ok { r with seeds := s.filter (fun q => decide (GoodSeed tol r q)) } := by
  unfold Region.addSeedPoints Region.clean
  rw [keepSeeds_spec tol r hw, numericPts_num]; rfl

open Classical in
/-- C44: adding seeds read from a file keeps exactly the good ones among the old and the new
seeds, in order. -/
theorem C44_appendSeeds (tol : K) (r : Region K) (hw : r.WF) (s : List (Pt K)) :
    r.appendSeeds tol s =
      .ok { r with seeds := (r.seeds ++ s).filter (fun q => decide (GoodSeed tol r q)) } := by
  unfold Region.appendSeeds Region.clean
  rw [keepSeeds_spec tol r hw, numericPts_num]; rfl

open Classical in
/-- C44: `generateSeedPoints` keeps exactly the good ones among the old seeds and the points the
generator produced, in order (a point with a NaN coordinate is not kept); it fails only if the
generator does. -/
theorem C44_generateSeedPoints {σ : Type} (tol : K) (xf : Bool) (r : Region K) (hw : r.WF)
    (g : Gen σ K) (s : σ) (nX nY : Int) (new : List (Pt (Option K))) (s' : σ)
    (hg : g.generate xf s r.getBox nX nY = .ok (new, s')) :
    r.generateSeedPoints tol xf g s nX nY =
      .ok ({ r with seeds :=
        (r.seeds ++ numericPts new).filter (fun q => decide (GoodSeed tol r q)) }, s') := by
  unfold Region.generateSeedPoints Region.clean
  rw [hg]
  simp only [Outcome.bind_ok, keepSeeds_spec tol r hw, numericPts_append, numericPts_num, Outcome.pure_eq]

/-- C44: every seed stored by `addSeedPoints` is a good seed of the resulting region. -/
theorem C44_all_good (tol : K) (r r' : Region K) (hw : r.WF) (s : List (Pt K))
    (h : r.addSeedPoints tol s = .ok r') :
    (∀ q ∈ r'.seeds, GoodSeed tol r' q) ∧ ∀ q ∈ s, GoodSeed tol r' q → q ∈ r'.seeds := by
  classical
  rw [C44_addSeedPoints tol r hw] at h
  have h := Outcome.ok.inj h
  subst h
  constructor
  · intro q hq
    have := List.mem_filter.1 hq
    exact of_decide_eq_true this.2
  · intro q hq hg
    exact List.mem_filter.2 ⟨hq, decide_eq_true hg⟩

/-- A square with a triangular hole. -/
def exRegion : Region ℚ :=
  ⟨Poly.fresh [0, 1, 2, 3], [⟨0, 0⟩, ⟨10, 0⟩, ⟨10, 10⟩, ⟨0, 10⟩],
    [Hole.ofBoundary [⟨4, 4⟩, ⟨6, 4⟩, ⟨5, 6⟩] ⟨5, 5⟩], []⟩

example : exRegion.WF := ⟨by decide, by
  intro h hh
  rw [List.mem_singleton.1 hh]
  exact hole_wf_ofBoundary _ _⟩

example : (exRegion.addSeedPoints (1/100000) [⟨1, 1⟩, ⟨5, 5⟩, ⟨11, 1⟩, ⟨2, 3⟩]) >>= (fun r => .ok r.seeds) =
    .ok [⟨1, 1⟩, ⟨2, 3⟩] := by decide +kernel

/-! ### C45 -/

section
variable {σ : Type} [FloorRing K]

/-- C45 is false: a hole added later may swallow a seed (here by a library answering with the two
outlines), and a mutated outline may leave one outside. -/
theorem C45_refuted :
    (∃ (ops : List (ROp Unit ℚ)) (r : Region ℚ) (q : Pt ℚ) (h : Hole ℚ),
      ROp.run (1/100000) ⟨Poly.fresh [0, 1, 2, 3], [⟨0, 0⟩, ⟨10, 0⟩, ⟨10, 10⟩, ⟨0, 10⟩], [], []⟩ ops = .ok r ∧
      q ∈ r.seeds ∧ h ∈ r.holes ∧ h.containsPoint (1/100000) q = .ok true) ∧
    (∃ (ops : List (ROp Unit ℚ)) (r : Region ℚ) (q : Pt ℚ),
      ROp.run (1/100000) ⟨Poly.fresh [0, 1, 2, 3], [⟨0, 0⟩, ⟨10, 0⟩, ⟨10, 10⟩, ⟨0, 10⟩], [], []⟩ ops = .ok r ∧
      q ∈ r.seeds ∧ r.containsPoint (1/100000) q = .ok false) := by
  constructor
  · refine ⟨[.addSeedPoints [⟨5, 5⟩],
      .addHole 100 (fun s c => [s, c]) (Hole.ofBoundary [⟨4, 4⟩, ⟨6, 4⟩, ⟨6, 6⟩, ⟨4, 6⟩] ⟨5, 5⟩)],
      ⟨Poly.fresh [0, 1, 2, 3], [⟨0, 0⟩, ⟨10, 0⟩, ⟨10, 10⟩, ⟨0, 10⟩],
        [Hole.ofBoundary [⟨4, 4⟩, ⟨6, 4⟩, ⟨6, 6⟩, ⟨4, 6⟩] ⟨5, 5⟩], [⟨5, 5⟩]⟩, ⟨5, 5⟩,
      Hole.ofBoundary [⟨4, 4⟩, ⟨6, 4⟩, ⟨6, 6⟩, ⟨4, 6⟩] ⟨5, 5⟩, by decide +kernel, by simp, by simp, by decide +kernel⟩
  · refine ⟨[.addSeedPoints [⟨5, 5⟩], .mutate [⟨0, 0⟩, ⟨2, 0⟩, ⟨2, 2⟩, ⟨0, 2⟩]],
      ⟨Poly.fresh [0, 1, 2, 3], [⟨0, 0⟩, ⟨2, 0⟩, ⟨2, 2⟩, ⟨0, 2⟩], [], [⟨5, 5⟩]⟩, ⟨5, 5⟩, by decide +kernel, by simp,
      by decide +kernel⟩

theorem region_wf_addHole (tol : K) (scale : Int) (clip : Region.Clip) (r : Region K) (h : Hole K)
    (hw : r.WF) (hh : h.WF) (x : Region K × Bool) (hx : r.addHole tol scale clip h = .ok x) : x.1.WF := by
  unfold Region.addHole at hx
  cases hp : Region.scalePath scale r.p with
  | exn => rw [hp] at hx; cases hx
  | ub => rw [hp] at hx; cases hx
  | ok a =>
    cases hq : Region.scalePath scale h.points with
    | exn => rw [hp, hq] at hx; cases hx
    | ub => rw [hp, hq] at hx; cases hx
    | ok b =>
      rw [hp, hq] at hx
      simp only [Outcome.bind_ok] at hx
      split at hx
      · split at hx
        · cases hx
        · rw [← Outcome.ok.inj hx]
          exact region_wf_mutate tol r _ hw
      · obtain ⟨c, hc⟩ := region_contains_total tol r hw h.center
        rw [hc] at hx
        simp only [Outcome.bind_ok] at hx
        split at hx
        · rw [← Outcome.ok.inj hx]
          refine ⟨hw.1, ?_⟩
          intro y hy
          rcases List.mem_append.1 hy with hy | hy
          · exact hw.2 y hy
          · rw [List.mem_singleton.1 hy]; exact hh
        · rw [← Outcome.ok.inj hx]; exact hw

/-- All holes mentioned by a call are well formed. -/
def ROp.WF : ROp σ K → Prop
  | .addHole _ _ h => h.WF
  | _ => True

theorem gen_cases (tol : K) (r r' : Region K) (hw : r.WF) (o : ROp σ K) (hs : o.Seeds)
    (h : o.step tol r = .ok r') :
    r'.poly = r.poly ∧ r'.p = r.p ∧ r'.holes = r.holes ∧ ∀ q ∈ r'.seeds, GoodSeed tol r' q := by
  classical
  have fin : ∀ l : List (Pt K), ∀ q ∈ ({ r with seeds := l.filter (fun q => decide (GoodSeed tol r q)) } : Region K).seeds,
      GoodSeed tol { r with seeds := l.filter (fun q => decide (GoodSeed tol r q)) } q := by
    intro l q hq
    exact of_decide_eq_true (List.mem_filter.1 hq).2
  cases o with
  | addHole _ _ _ => exact absurd hs id
  | mutate _ => exact absurd hs id
  | cleanSeeds => exact absurd hs id
  | cleanHoles => exact absurd hs id
  | addSeedPoints s =>
    have h : r.addSeedPoints tol s = .ok r' := h
    rw [C44_addSeedPoints tol r hw] at h
    have h := Outcome.ok.inj h; subst h
    exact ⟨rfl, rfl, rfl, fin _⟩
  | appendSeeds s =>
    have h : r.appendSeeds tol s = .ok r' := h
    rw [C44_appendSeeds tol r hw] at h
    have h := Outcome.ok.inj h; subst h
    exact ⟨rfl, rfl, rfl, fin _⟩
  | generate xf g s nX nY =>
    have h : (r.generateSeedPoints tol xf g s nX nY >>= fun x => pure x.1) = .ok r' := h
    cases hg : g.generate xf s r.getBox nX nY with
    | exn => simp [Region.generateSeedPoints, hg] at h
    | ub => simp [Region.generateSeedPoints, hg] at h
    | ok v =>
      rw [C44_generateSeedPoints tol xf r hw g s nX nY v.1 v.2 hg] at h
      have h := Outcome.ok.inj h; subst h
      exact ⟨rfl, rfl, rfl, fin _⟩

theorem region_wf_step (tol : K) (r r' : Region K) (hw : r.WF) (o : ROp σ K) (ho : o.WF)
    (h : o.step tol r = .ok r') : r'.WF := by
  by_cases hs : o.Seeds
  · obtain ⟨h1, h2, h3, _⟩ := gen_cases tol r r' hw o hs h
    unfold Region.WF
    rw [h1, h2, h3]; exact hw
  · cases o with
    | addSeedPoints s => exact absurd trivial hs
    | appendSeeds s => exact absurd trivial hs
    | generate xf g s nX nY => exact absurd trivial hs
    | addHole sc cl hh =>
      have h : (r.addHole tol sc cl hh >>= fun x => pure x.1) = .ok r' := h
      cases hx : r.addHole tol sc cl hh with
      | exn => rw [hx] at h; cases h
      | ub => rw [hx] at h; cases h
      | ok x =>
        rw [hx] at h
        rw [← Outcome.ok.inj h]
        exact region_wf_addHole tol sc cl r hh hw ho x hx
    | mutate pts =>
      rw [← Outcome.ok.inj h]; exact region_wf_mutate tol r pts hw
    | cleanSeeds => rw [← Outcome.ok.inj h]; exact hw
    | cleanHoles =>
      rw [← Outcome.ok.inj h]; exact ⟨hw.1, by intro x hx; cases hx⟩

theorem run_append (tol : K) (r : Region K) (a b : List (ROp σ K)) :
    ROp.run tol r (a ++ b) = ROp.run tol r a >>= fun r' => ROp.run tol r' b := by
  induction a generalizing r with
  | nil => rfl
  | cons o a ih =>
    simp only [List.cons_append, ROp.run]
    cases o.step tol r with
    | ok r' => exact ih r'
    | exn => rfl
    | ub => rfl

theorem region_wf_run (tol : K) (ops : List (ROp σ K)) (ho : ∀ o ∈ ops, o.WF) :
    ∀ (r r' : Region K), r.WF → ROp.run tol r ops = .ok r' → r'.WF := by
  induction ops with
  | nil => intro r r' hw h; rw [← Outcome.ok.inj h]; exact hw
  | cons o ops ih =>
    intro r r' hw h
    unfold ROp.run at h
    cases hs : o.step tol r with
    | exn => rw [hs] at h; cases h
    | ub => rw [hs] at h; cases h
    | ok r1 =>
      rw [hs] at h
      exact ih (fun x hx => ho x (by simp [hx])) r1 r' (region_wf_step tol r r1 hw o (ho o (by simp)) hs) h

/-- C45, the part that holds: in any history, from a seeding call until the next `addHole` or
`mutate`, all stored seeds are good.  (Missing: `addHole` and `mutate` do not re-filter.) -/
theorem C45_history_partial (tol : K) (r r' : Region K) (hw : r.WF) (pre post : List (ROp σ K))
    (o : ROp σ K) (ho : ∀ x ∈ pre ++ o :: post, x.WF) (hs : o.Seeds) (hp : ∀ x ∈ post, ¬ x.Shrinks)
    (h : ROp.run tol r (pre ++ o :: post) = .ok r') : ∀ q ∈ r'.seeds, GoodSeed tol r' q := by
  rw [run_append] at h
  cases h1 : ROp.run tol r pre with
  | exn => rw [h1] at h; cases h
  | ub => rw [h1] at h; cases h
  | ok r1 =>
    rw [h1] at h
    have w1 := region_wf_run tol pre (fun x hx => ho x (by simp [hx])) r r1 hw h1
    replace h : ROp.run tol r1 (o :: post) = .ok r' := h
    unfold ROp.run at h
    cases h2 : o.step tol r1 with
    | exn => rw [h2] at h; cases h
    | ub => rw [h2] at h; cases h
    | ok r2 =>
      rw [h2] at h
      have w2 := region_wf_step tol r1 r2 w1 o (ho o (by simp)) h2
      have g2 := (gen_cases tol r1 r2 w1 o hs h2).2.2.2
      have hpost : ∀ x ∈ post, x.WF := fun x hx => ho x (by simp [hx])
      have hrun : ROp.run tol r2 post = .ok r' := h
      clear h h2 h1 ho
      induction post generalizing r2 with
      | nil => rw [← Outcome.ok.inj hrun]; exact g2
      | cons x post ih =>
        unfold ROp.run at hrun
        cases h3 : x.step tol r2 with
        | exn => rw [h3] at hrun; cases hrun
        | ub => rw [h3] at hrun; cases hrun
        | ok r3 =>
          rw [h3] at hrun
          refine ih (fun y hy => hp y (by simp [hy])) r3
            (region_wf_step tol r2 r3 w2 x (hpost x (by simp)) h3) ?_
            (fun y hy => hpost y (by simp [hy])) hrun
          by_cases hx : x.Seeds
          · exact (gen_cases tol r2 r3 w2 x hx h3).2.2.2
          · cases x with
            | addSeedPoints s => exact absurd trivial hx
            | appendSeeds s => exact absurd trivial hx
            | generate xf g s nX nY => exact absurd trivial hx
            | addHole sc cl hh => exact (hp _ (List.mem_cons_self ..) trivial).elim
            | mutate pts => exact (hp _ (List.mem_cons_self ..) trivial).elim
            | cleanSeeds =>
              rw [← Outcome.ok.inj h3]
              intro q hq; cases hq
            | cleanHoles =>
              rw [← Outcome.ok.inj h3]
              intro q hq
              exact ⟨(g2 q hq).1, by intro y hy; cases hy⟩

/-- C45: no history produces undefined behaviour except through the generator's functors or the
conversion to Clipper's grid: the region stays well formed. -/
theorem C45_wellformed (tol : K) (pts : List (Pt K)) (ops : List (ROp σ K)) (ho : ∀ o ∈ ops, o.WF)
    (r r' : Region K) (h0 : Region.ofPoints tol pts = .ok r) (h : ROp.run tol r ops = .ok r') : r'.WF := by
  obtain ⟨x, hx, hw, _⟩ := region_wf_ofPoints tol pts
  rw [hx] at h0
  rw [← Outcome.ok.inj h0] at h
  exact region_wf_run tol ops ho x r' hw h

example : (ROp.run (1/100000 : ℚ) exRegion
    [(.addSeedPoints [⟨1, 1⟩, ⟨5, 5⟩] : ROp Unit ℚ), .cleanHoles, .appendSeeds [⟨5, 5⟩, ⟨12, 1⟩]]) >>=
      (fun r => .ok r.seeds) = .ok [⟨1, 1⟩, ⟨5, 5⟩] := by decide +kernel

end

/-! ### C46 -/

/-- C46 is false: `addSeedPoints` forgets the seeds already present. -/
theorem C46_refuted : ∃ (r r1 r2 : Region ℚ) (a b : Pt ℚ), r.WF ∧
    r.addSeedPoints (1/100000) [a] = .ok r1 ∧ a ∈ r1.seeds ∧
    r1.addSeedPoints (1/100000) [b] = .ok r2 ∧ a ∉ r2.seeds ∧ GoodSeed (1/100000) r2 a := by
  refine ⟨⟨Poly.fresh [0, 1, 2, 3], [⟨0, 0⟩, ⟨10, 0⟩, ⟨10, 10⟩, ⟨0, 10⟩], [], []⟩,
    ⟨Poly.fresh [0, 1, 2, 3], [⟨0, 0⟩, ⟨10, 0⟩, ⟨10, 10⟩, ⟨0, 10⟩], [], [⟨1, 1⟩]⟩,
    ⟨Poly.fresh [0, 1, 2, 3], [⟨0, 0⟩, ⟨10, 0⟩, ⟨10, 10⟩, ⟨0, 10⟩], [], [⟨2, 3⟩]⟩,
    ⟨1, 1⟩, ⟨2, 3⟩, ⟨by decide, by intro h hh; cases hh⟩, by decide +kernel, by simp, by decide +kernel, by decide +kernel,
    by decide +kernel, by intro h hh; cases hh⟩

/-- C46, what it does instead: the result does not depend on the old seeds. -/
theorem C46_replaces_partial (tol : K) (r : Region K) (s old : List (Pt K)) :
    ({ r with seeds := old } : Region K).addSeedPoints tol s = r.addSeedPoints tol s := by
  unfold Region.addSeedPoints Region.clean
  have key : ∀ qs, ({ r with seeds := old } : Region K).keepSeeds tol qs = r.keepSeeds tol qs := by
    intro qs
    induction qs with
    | nil => rfl
    | cons q qs ih =>
      obtain ⟨qx, qy⟩ := q
      cases qx <;> cases qy <;> (unfold Region.keepSeeds; simp only [ih]; try rfl)
  rw [key]

/-! ### C47 -/

/-- C47 is false: a copied region has lost its seeds. -/
theorem C47_refuted : ∃ r : Region ℚ, r.copy.seeds ≠ r.seeds :=
  ⟨⟨Poly.fresh [0, 1, 2], [⟨0, 0⟩, ⟨10, 0⟩, ⟨10, 10⟩], [], [⟨5, 1⟩]⟩, by simp [Region.copy]⟩

/-- C47, the part that holds: outline, cached values and holes are copied, and the queries answer
alike. -/
theorem C47_copy_partial (tol : K) (r : Region K) (q : Pt K) :
    r.copy.p = r.p ∧ r.copy.holes = r.holes ∧ r.copy.poly.points = r.poly.points ∧
    r.copy.poly.area = r.poly.area ∧ r.copy.poly.diameter = r.poly.diameter ∧
    r.copy.containsPoint tol q = r.containsPoint tol q ∧ r.copy.inEdges tol q = r.inEdges tol q ∧
    r.copy.getSegments = r.getSegments ∧ r.copy.getRegionPoints = r.getRegionPoints ∧
    (r.copy.seeds = r.seeds ↔ r.seeds = []) :=
  ⟨rfl, rfl, rfl, rfl, rfl, rfl, rfl, rfl, rfl, ⟨fun h => h.symm, fun h => h.symm⟩⟩

/-! ### C48 -/

/-- The two points a segment joins. -/
def joins (pts : List (Pt K)) (s : ISeg) : Outcome (Pt K) × Outcome (Pt K) :=
  (vecGet pts s.p1, vecGet pts s.p2)

private theorem vecGet_shift (a b c : List (Pt K)) (i : Int) (h0 : 0 ≤ i) (h1 : i < b.length) :
    vecGet (a ++ (b ++ c)) (i + (a.length : Int)) = vecGet b i := by
  have e : vecGet b i = .ok (b[i.toNat]'(by omega)) :=
    vecGet_ok_iff.2 ⟨h0, List.getElem?_eq_getElem (by omega)⟩
  rw [e, vecGet_ok_iff]
  refine ⟨by omega, ?_⟩
  have : (i + (a.length : Int)).toNat = a.length + i.toNat := by omega
  rw [this, List.getElem?_append_right (by omega), List.getElem?_append_left (by omega)]
  rw [show a.length + i.toNat - a.length = i.toNat by omega]
  exact List.getElem?_eq_getElem (by omega)

private theorem holeSegments_joins (hs : List (Hole K)) (hw : ∀ h ∈ hs, h.WF) : ∀ (pre : List (Pt K)),
    (Region.holeSegments (pre.length : Int) hs).map (joins (pre ++ hs.flatMap Hole.points)) =
      hs.flatMap (fun h => h.segments.map (joins h.points)) := by
  induction hs with
  | nil => intro pre; rfl
  | cons h hs ih =>
    intro pre
    have hh := hw h (by simp)
    simp only [Region.holeSegments, List.map_append, List.flatMap_cons]
    congr 1
    · unfold Hole.getSegments
      rw [List.map_map]
      apply List.map_congr_left
      intro s hs'
      obtain ⟨⟨a1, a2⟩, a3, a4⟩ := hh s hs'
      have e1 : (s.add (pre.length : Int)).p1 = s.p1 + (pre.length : Int) := rfl
      have e2 : (s.add (pre.length : Int)).p2 = s.p2 + (pre.length : Int) := rfl
      simp only [Function.comp_apply, joins, e1, e2]
      rw [vecGet_shift _ _ _ _ a1 a2, vecGet_shift _ _ _ _ a3 a4]
    · have := ih (fun x hx => hw x (by simp [hx])) (pre ++ h.points)
      rw [List.length_append, Int.natCast_add, List.append_assoc] at this
      exact this

/-- C48: read against `getRegionPoints`, the segments of `getSegments` join exactly the points
they join in the outline and in each hole, in order. -/
theorem C48_segments_join (r : Region K) (hw : r.WF) :
    r.getSegments.map (joins r.getRegionPoints) =
      (Delynoi.getSegments r.poly.points).map (joins r.p) ++
        r.holes.flatMap (fun h => h.segments.map (joins h.points)) := by
  unfold Region.getSegments Region.getRegionPoints
  rw [List.map_append, holeSegments_joins r.holes hw.2]
  congr 1
  apply List.map_congr_left
  intro s hs
  obtain ⟨e, he, rfl⟩ := List.mem_map.1 hs
  have e1 : (ISeg.mk' e.1 e.2).p1 = e.1 := rfl
  have e2 : (ISeg.mk' e.1 e.2).p2 = e.2 := rfl
  have h1 : e.1 ∈ r.poly.points := by
    have := List.mem_map_of_mem (f := Prod.fst) he
    rwa [cycPairs_fst] at this
  have h2 : e.2 ∈ r.poly.points := by
    have := List.mem_map_of_mem (f := Prod.snd) he
    rw [cycPairs_snd] at this
    rcases List.mem_append.1 this with h | h
    · exact List.mem_of_mem_drop h
    · exact List.mem_of_mem_take h
  obtain ⟨a1, a2⟩ := hw.1 _ h1
  obtain ⟨b1, b2⟩ := hw.1 _ h2
  simp only [joins, e1, e2]
  have g1 := vecGet_shift [] r.p (r.holes.flatMap Hole.points) e.1 a1 a2
  have g2 := vecGet_shift [] r.p (r.holes.flatMap Hole.points) e.2 b1 b2
  simp only [List.nil_append, List.length_nil, Int.natCast_zero, Int.add_zero] at g1 g2
  rw [g1, g2]

/-- C48: all indices are valid. -/
theorem C48_indices_valid (r : Region K) (hw : r.WF) (s : ISeg) (hs : s ∈ r.getSegments) :
    (0 ≤ s.p1 ∧ s.p1 < r.getRegionPoints.length) ∧ 0 ≤ s.p2 ∧ s.p2 < r.getRegionPoints.length := by
  have key : joins r.getRegionPoints s ∈ r.getSegments.map (joins r.getRegionPoints) :=
    List.mem_map_of_mem hs
  rw [C48_segments_join r hw] at key
  have valid : ∀ (pts : List (Pt K)) (i : Int) (a : Pt K), vecGet pts i = .ok a → 0 ≤ i ∧ i < pts.length := by
    intro pts i a h
    obtain ⟨h0, h1⟩ := vecGet_ok_iff.1 h
    obtain ⟨h2, _⟩ := List.getElem?_eq_some_iff.1 h1
    exact ⟨h0, by omega⟩
  have good : ∀ (pts : List (Pt K)) (i : Int), 0 ≤ i → i < pts.length → ∃ a, vecGet pts i = .ok a := by
    intro pts i h0 h1
    exact ⟨_, vecGet_ok_iff.2 ⟨h0, List.getElem?_eq_getElem (by omega)⟩⟩
  have fin : (∃ a, vecGet r.getRegionPoints s.p1 = .ok a) ∧ ∃ b, vecGet r.getRegionPoints s.p2 = .ok b := by
    rcases List.mem_append.1 key with h | h
    · obtain ⟨t, ht, he⟩ := List.mem_map.1 h
      obtain ⟨e, hee, rfl⟩ := List.mem_map.1 ht
      have e1 : (ISeg.mk' e.1 e.2).p1 = e.1 := rfl
      have e2 : (ISeg.mk' e.1 e.2).p2 = e.2 := rfl
      have h1 : e.1 ∈ r.poly.points := by
        have := List.mem_map_of_mem (f := Prod.fst) hee
        rwa [cycPairs_fst] at this
      have h2 : e.2 ∈ r.poly.points := by
        have := List.mem_map_of_mem (f := Prod.snd) hee
        rw [cycPairs_snd] at this
        rcases List.mem_append.1 this with h | h
        · exact List.mem_of_mem_drop h
        · exact List.mem_of_mem_take h
      obtain ⟨a, ha⟩ := good r.p e.1 (hw.1 _ h1).1 (hw.1 _ h1).2
      obtain ⟨b, hb⟩ := good r.p e.2 (hw.1 _ h2).1 (hw.1 _ h2).2
      unfold joins at he
      rw [e1, e2, ha, hb] at he
      exact ⟨⟨a, (congrArg Prod.fst he).symm⟩, ⟨b, (congrArg Prod.snd he).symm⟩⟩
    · obtain ⟨x, hx, hx'⟩ := List.mem_flatMap.1 h
      obtain ⟨t, ht, he⟩ := List.mem_map.1 hx'
      obtain ⟨⟨a1, a2⟩, a3, a4⟩ := hw.2 x hx t ht
      obtain ⟨a, ha⟩ := good x.points t.p1 a1 a2
      obtain ⟨b, hb⟩ := good x.points t.p2 a3 a4
      unfold joins at he
      rw [ha, hb] at he
      exact ⟨⟨a, (congrArg Prod.fst he).symm⟩, ⟨b, (congrArg Prod.snd he).symm⟩⟩
  obtain ⟨⟨a, ha⟩, b, hb⟩ := fin
  exact ⟨valid _ _ _ ha, valid _ _ _ hb⟩

example : exRegion.getSegments.map (fun s => (s.p1, s.p2)) =
    [(0, 1), (1, 2), (2, 3), (3, 0), (4, 5), (5, 6), (6, 4)] := by decide +kernel

end Delynoi
