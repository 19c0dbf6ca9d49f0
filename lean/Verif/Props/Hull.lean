import Verif.Proofs.Diameter
import Verif.Proofs.Cyc
import Verif.Props.Area
import Mathlib.Tactic.NormNum
/-!
# Properties C24-C26: hull, diameter, longest edge
-/
set_option linter.unusedSectionVars false
namespace Delynoi

section
variable {K : Type} [Field K] [LinearOrder K] [IsStrictOrderedRing K]

/-- `a` comes before `b`: further left, or same abscissa and not higher. -/
def LeftLow (a b : Pt K) : Prop := a.x < b.x ∨ (a.x = b.x ∧ a.y ≤ b.y)

private theorem turn_eq (a b x : Pt K) :
    turn a b x = dotP ⟨-(b.y - a.y), b.x - a.x⟩ x - dotP ⟨-(b.y - a.y), b.x - a.x⟩ a := by
  unfold turn dotP; ring

private theorem upper_false (a b c : Pt K) : upperBad a b c = false ↔ turn a b c < 0 := by
  rw [← Bool.not_eq_true, upperBad_iff, not_le]; rfl

private theorem lower_false (a b c : Pt K) : lowerBad a b c = false ↔ 0 < turn a b c := by
  rw [← Bool.not_eq_true, lowerBad_iff, not_le]; rfl

/-- C25: the chains consist of input points, start at the leftmost-lowest and end at the
rightmost-highest point, turn strictly clockwise (upper) and counter-clockwise (lower), and no
input point is left of an upper edge or right of a lower edge. -/
theorem C25_hull (pts : List (Pt K)) (hne : pts ≠ []) :
    ∃ (u l : List (Pt K)) (lo hi : Pt K), convexHull pts = (u, l) ∧
      (∀ v ∈ u, v ∈ pts) ∧ (∀ v ∈ l, v ∈ pts) ∧
      u.head? = some lo ∧ l.head? = some lo ∧ u.getLast? = some hi ∧ l.getLast? = some hi ∧
      (lo ∈ pts ∧ ∀ x ∈ pts, LeftLow lo x) ∧ (hi ∈ pts ∧ ∀ x ∈ pts, LeftLow x hi) ∧
      (∀ (i : Nat) (h : i + 2 < u.length), turn u[i] u[i + 1] u[i + 2] < 0) ∧
      (∀ (i : Nat) (h : i + 2 < l.length), 0 < turn l[i] l[i + 1] l[i + 2]) ∧
      (∀ (i : Nat) (h : i + 1 < u.length), ∀ x ∈ pts, turn u[i] u[i + 1] x ≤ 0) ∧
      (∀ (i : Nat) (h : i + 1 < l.length), ∀ x ∈ pts, 0 ≤ turn l[i] l[i + 1] x) := by
  have hs := sortPts_sorted pts
  have hperm := sortPts_perm pts
  set s := sortPts pts with hsdef
  have hmem : ∀ x, x ∈ s ↔ x ∈ pts := fun x => hperm.mem_iff
  have hsne : s ≠ [] := by
    intro h; rw [h] at hperm; exact hne hperm.nil_eq.symm
  have hU := sinv_chain goodUpper s hs
  have hL := sinv_chain goodLower s hs
  obtain ⟨lo, hlo⟩ : ∃ lo, s.head? = some lo := ⟨s.head hsne, List.head?_eq_some_head hsne⟩
  obtain ⟨hi, hhi⟩ : ∃ hi, s.getLast? = some hi := ⟨s.getLast hsne, List.getLast?_eq_some_getLast hsne⟩
  have lo_le : ∀ x ∈ s, LexLe lo x := by
    intro x hx
    cases hs' : s with
    | nil => exact absurd hs' hsne
    | cons d ds =>
      rw [hs'] at hlo hx hs
      have : d = lo := by simpa using hlo
      subst this
      rcases List.mem_cons.1 hx with rfl | hx
      · exact lexLe_refl _
      · exact (List.pairwise_cons.1 hs).1 x hx
  have le_hi : ∀ x ∈ s, LexLe x hi := by
    intro x hx
    obtain ⟨ds, hds⟩ := List.getLast?_eq_some_iff.1 hhi
    rw [hds] at hx hs
    rcases List.mem_append.1 hx with hx | hx
    · exact (List.pairwise_append.1 hs).2.2 x hx hi (by simp)
    · have : x = hi := by simpa using hx
      rw [this]; exact lexLe_refl _
  refine ⟨(chainStack upperBad s).reverse, (chainStack lowerBad s).reverse, lo, hi, rfl,
    ?_, ?_, ?_, ?_, ?_, ?_, ?_, ?_, ?_, ?_, ?_, ?_⟩
  · intro v hv; exact (hmem v).1 (hU.sub v (List.mem_reverse.1 hv))
  · intro v hv; exact (hmem v).1 (hL.sub v (List.mem_reverse.1 hv))
  · rw [List.head?_reverse, hU.last, hlo]
  · rw [List.head?_reverse, hL.last, hlo]
  · rw [List.getLast?_reverse, hU.head, hhi]
  · rw [List.getLast?_reverse, hL.head, hhi]
  · exact ⟨(hmem lo).1 (List.mem_of_mem_head? hlo), fun x hx => lo_le x ((hmem x).2 hx)⟩
  · exact ⟨(hmem hi).1 (List.mem_of_mem_getLast? hhi), fun x hx => le_hi x ((hmem x).2 hx)⟩
  · intro i h
    have := triples_getElem _ (triples_reverse _ hU.turns) i h
    exact (upper_false _ _ _).1 this
  · intro i h
    have := triples_getElem _ (triples_reverse _ hL.turns) i h
    exact (lower_false _ _ _).1 this
  · intro i h x hx
    have hx' := (hmem x).2 hx
    set u := (chainStack upperBad s).reverse with hu
    have hsub : ∀ v ∈ u, v ∈ s := fun v hv => hU.sub v (List.mem_reverse.1 hv)
    rcases hU.strict with hst | hall
    swap
    · have e1 : u[i + 1] = u[i] := hall _ (hsub _ (List.getElem_mem _)) _ (hsub _ (List.getElem_mem _))
      rw [e1]; unfold turn; apply le_of_eq; ring
    have hasc : u.Pairwise LexLt := by rw [hu, List.pairwise_reverse]; exact hst
    have htr := triples_reverse _ hU.turns
    have hsplit := split_at_edge u i h
    generalize u[i] = a at hsplit ⊢
    generalize u[i + 1] = b at hsplit ⊢
    generalize u.take i = pre at hsplit
    generalize u.drop (i + 2) = post at hsplit
    rw [← hu, hsplit] at htr
    rw [hsplit] at hasc
    have hab : LexLt a b := (List.pairwise_cons.1 (List.pairwise_append.1 hasc).2.1).1 b (by simp)
    rcases eq_or_lt_of_le (sub_nonneg.2 hab.le.x_le) with h0 | h0
    · -- vertical edge: only at the left end
      have hy : a.y < b.y := by
        rcases hab with h' | h'
        · linarith
        · exact h'.2
      have hpre : pre = [] := by
        by_contra hc
        obtain ⟨pre', z, rfl⟩ : ∃ pre' z, pre = pre' ++ [z] :=
          ⟨pre.dropLast, pre.getLast hc, (List.dropLast_append_getLast hc).symm⟩
        have ht : Triples (fun a b c => upperBad a b c = false) (z :: a :: b :: post) := by
          apply triples_append_right (l := pre'); simpa using htr
        have h1 := (upper_false _ _ _).1 ht.1
        have hz : LexLt z a := by
          have := (List.pairwise_append.1 hasc).2.2 z (by simp) a (by simp)
          exact this
        have hzx := hz.le.x_le
        unfold turn at h1
        have e : (a.x - z.x) * (b.y - z.y) - (a.y - z.y) * (b.x - z.x) = (a.x - z.x) * (b.y - a.y) := by
          have : b.x = a.x := by linarith
          rw [this]; ring
        rw [e] at h1
        have := mul_nonneg (sub_nonneg.2 hzx) (sub_nonneg.2 hy.le)
        linarith
      subst hpre
      have hal : a = lo := by
        have : u.head? = some lo := by rw [hu, List.head?_reverse, hU.last, hlo]
        rw [hsplit] at this
        simpa using this
      have hxl := (lo_le x hx').x_le
      rw [← hal] at hxl
      unfold turn
      rw [← h0]
      have := mul_nonneg (sub_nonneg.2 hy.le) (sub_nonneg.2 hxl)
      linarith
    · have hsup := edge_supports (unimodalUpper (n := ⟨-(b.y - a.y), b.x - a.x⟩) h0) pre post a b
        hasc htr (by unfold dotP; ring)
      obtain ⟨v, hv, hv'⟩ := hU.dom x hx' ⟨-(b.y - a.y), b.x - a.x⟩ h0.le
      have hvu : v ∈ pre ++ a :: b :: post := by
        rw [← hsplit, hu]; exact List.mem_reverse.2 hv
      have := hsup v hvu
      rw [turn_eq]; linarith
  · intro i h x hx
    have hx' := (hmem x).2 hx
    set u := (chainStack lowerBad s).reverse with hu
    have hsub : ∀ v ∈ u, v ∈ s := fun v hv => hL.sub v (List.mem_reverse.1 hv)
    rcases hL.strict with hst | hall
    swap
    · have e1 : u[i + 1] = u[i] := hall _ (hsub _ (List.getElem_mem _)) _ (hsub _ (List.getElem_mem _))
      rw [e1]; unfold turn; apply le_of_eq; ring
    have hasc : u.Pairwise LexLt := by rw [hu, List.pairwise_reverse]; exact hst
    have htr := triples_reverse _ hL.turns
    have hsplit := split_at_edge u i h
    generalize u[i] = a at hsplit ⊢
    generalize u[i + 1] = b at hsplit ⊢
    generalize u.take i = pre at hsplit
    generalize u.drop (i + 2) = post at hsplit
    rw [← hu, hsplit] at htr
    rw [hsplit] at hasc
    have hab : LexLt a b := (List.pairwise_cons.1 (List.pairwise_append.1 hasc).2.1).1 b (by simp)
    rcases eq_or_lt_of_le (sub_nonneg.2 hab.le.x_le) with h0 | h0
    · -- vertical edge: only at the right end
      have hy : a.y < b.y := by
        rcases hab with h' | h'
        · linarith
        · exact h'.2
      have hpost : post = [] := by
        cases post with
        | nil => rfl
        | cons c post =>
          exfalso
          have ht := triples_append_right htr
          have h1 := (lower_false _ _ _).1 ht.1
          have hz : LexLt b c := (List.pairwise_cons.1 (List.pairwise_cons.1
            (List.pairwise_append.1 hasc).2.1).2).1 c (by simp)
          have hzx := hz.le.x_le
          unfold turn at h1
          rw [← h0] at h1
          have := mul_nonneg (sub_nonneg.2 hy.le) (show 0 ≤ c.x - a.x by linarith)
          linarith
      subst hpost
      have hal : b = hi := by
        have : u.getLast? = some hi := by rw [hu, List.getLast?_reverse, hL.head, hhi]
        rw [hsplit] at this
        simpa using this
      have hxl := (le_hi x hx').x_le
      unfold turn
      rw [← h0]
      have e : a.x = hi.x := by rw [← hal]; linarith
      have := mul_nonneg (sub_nonneg.2 hy.le) (sub_nonneg.2 hxl)
      rw [e]; linarith
    · have hsup := edge_supports (unimodalLower (n := ⟨b.y - a.y, -(b.x - a.x)⟩) (by simp only; linarith))
        pre post a b hasc htr (by unfold dotP; ring)
      obtain ⟨v, hv, hv'⟩ := hL.dom x hx' ⟨b.y - a.y, -(b.x - a.x)⟩ (by simp only; linarith)
      have hvu : v ∈ pre ++ a :: b :: post := by
        rw [← hsplit, hu]; exact List.mem_reverse.2 hv
      have := hsup v hvu
      have e : turn a b x = dotP ⟨b.y - a.y, -(b.x - a.x)⟩ a - dotP ⟨b.y - a.y, -(b.x - a.x)⟩ x := by
        unfold turn dotP; ring
      rw [e]; linarith

/-- C25: without points both chains are empty. -/
theorem C25_hull_nil : convexHull ([] : List (Pt K)) = ([], []) := rfl

example : convexHull [(⟨0, 0⟩ : Pt ℚ), ⟨4, 0⟩, ⟨1, 1⟩, ⟨4, 3⟩, ⟨0, 2⟩] =
    ([⟨0, 0⟩, ⟨0, 2⟩, ⟨4, 3⟩], [⟨0, 0⟩, ⟨4, 0⟩, ⟨4, 3⟩]) := by decide +kernel

end

/-- Euclidean distance. -/
noncomputable def eDist (a b : Pt ℝ) : ℝ := Real.sqrt (sqDist a b)

/-- `d` is the largest distance between two points of the list. -/
def IsDiameter (pts : List (Pt ℝ)) (d : ℝ) : Prop :=
  (∃ a ∈ pts, ∃ b ∈ pts, d = eDist a b) ∧ ∀ a ∈ pts, ∀ b ∈ pts, eDist a b ≤ d

private theorem norm2_eq (a b : Pt ℝ) : norm2 (a.sub b) = eDist a b := rfl

/-- C24: for at least two vertices (repeated, collinear or in any order) `calculateDiameter`
returns the largest vertex distance. -/
theorem C24_calculateDiameter (pts : List (Pt ℝ)) (h2 : 2 ≤ pts.length) :
    ∃ d, calculateDiameter pts = .ok d ∧ IsDiameter pts d := by
  have hs := sortPts_sorted pts
  have hperm := sortPts_perm pts
  have hlen : 2 ≤ (sortPts pts).length := by rw [hperm.length_eq]; exact h2
  have hmem : ∀ x, x ∈ sortPts pts ↔ x ∈ pts := fun x => hperm.mem_iff
  obtain ⟨b, b', r, hb⟩ := chainStack_length lowerBad (sortPts pts) hlen
  obtain ⟨c, c', t, hc⟩ := chainStack_length upperBad (sortPts pts) hlen
  have hrc : rotatingCalipers pts = .ok (calipers (chainStack upperBad (sortPts pts)).reverse
      (chainStack lowerBad (sortPts pts))) := by
    unfold rotatingCalipers convexHull
    simp only
    rw [if_neg (by rw [hb, hc]; simp), List.reverse_reverse]
  have hU := sinv_chain goodUpper (sortPts pts) hs
  have hL := sinv_chain goodLower (sortPts pts) hs
  generalize hcal : calipers (chainStack upperBad (sortPts pts)).reverse
      (chainStack lowerBad (sortPts pts)) = cal at *
  refine ⟨_, by unfold calculateDiameter; rw [hrc]; rfl, ?_⟩
  obtain ⟨m1, m2, m3⟩ := maxLoop_spec (cal.map (fun e => norm2 (e.1.sub e.2))) (-1)
  obtain ⟨p, hp, q, hq, hmax⟩ := exists_max_pair (sortPts pts) (by
    intro h; rw [h] at hlen; simp at hlen)
  obtain ⟨e, he, he'⟩ := calipers_has_max (sortPts pts) hs hlen p q hp hq hmax
  rw [hcal] at he
  have hge : ∀ a ∈ pts, ∀ b ∈ pts, eDist a b ≤
      maxLoop (-1) (cal.map (fun e => norm2 (e.1.sub e.2))) := by
    intro a ha b hb
    have h1 : eDist a b ≤ eDist p q := Real.sqrt_le_sqrt (hmax a ((hmem a).2 ha) b ((hmem b).2 hb))
    have h2 : eDist p q = norm2 (e.1.sub e.2) := by rw [norm2_eq]; unfold eDist; rw [he']
    rw [h2] at h1
    exact h1.trans (m2 _ (List.mem_map_of_mem he))
  refine ⟨?_, hge⟩
  rcases m3 with m3 | m3
  · exfalso
    have := hge p ((hmem p).1 hp) q ((hmem q).1 hq)
    rw [m3] at this
    have h0 : 0 ≤ eDist p q := Real.sqrt_nonneg _
    linarith
  · obtain ⟨e', he', heq⟩ := List.mem_map.1 m3
    have hm := calipers_mem _ _ e' (by rw [hcal]; exact he')
    refine ⟨e'.1, (hmem _).1 (hU.sub _ (List.mem_reverse.1 hm.1)), e'.2, (hmem _).1 (hL.sub _ hm.2), ?_⟩
    rw [← heq]; rfl

/-- C24, degenerate inputs: a single vertex gives -1 (not 0), no vertex is undefined. -/
theorem C24_degenerate (a : Pt ℝ) :
    calculateDiameter [a] = .ok (-1) ∧ calculateDiameter [] = .ub := by
  constructor
  · simp [calculateDiameter, rotatingCalipers, convexHull, sortPts, chainStack, popWhile, calipers,
      maxLoop]
  · simp [calculateDiameter, rotatingCalipers, convexHull, sortPts, chainStack]

private theorem isDiameter_perm {l m : List (Pt ℝ)} (h : l.Perm m) {d : ℝ} (hd : IsDiameter l d) :
    IsDiameter m d := by
  obtain ⟨⟨a, ha, b, hb, e⟩, h2⟩ := hd
  exact ⟨⟨a, h.mem_iff.1 ha, b, h.mem_iff.1 hb, e⟩,
    fun a ha b hb => h2 a (h.mem_iff.2 ha) b (h.mem_iff.2 hb)⟩

private def DiamInv (p : List (Pt ℝ)) (g : Poly ℝ) : Prop :=
  2 ≤ g.points.length ∧ ∃ l, resolve p g.points = .ok l ∧ (g.diameter < 0 ∨ IsDiameter l g.diameter)

private theorem diamInv_getDiameter {p : List (Pt ℝ)} {g : Poly ℝ} (h : DiamInv p g) :
    ∃ r l, g.getDiameter calculateDiameter p = .ok r ∧ r.1.points = g.points ∧
      resolve p g.points = .ok l ∧ IsDiameter l r.2 ∧ r.1.diameter = r.2 := by
  obtain ⟨h2, l, hl, hd⟩ := h
  by_cases hneg : g.diameter < 0
  · obtain ⟨d, hd, hdi⟩ := C24_calculateDiameter l (by rw [resolve_length hl]; exact h2)
    refine ⟨({ g with diameter := d }, d), l, ?_, rfl, hl, hdi, rfl⟩
    unfold Poly.getDiameter
    rw [if_pos hneg, hl]
    simp only [Outcome.bind_ok, hd, Outcome.pure_eq]
  · refine ⟨(g, g.diameter), l, ?_, rfl, hl, hd.resolve_left hneg, rfl⟩
    unfold Poly.getDiameter
    rw [if_neg hneg]

/-- C24 on the object: after any history of area/diameter queries, orientation fixes and
copies on a fixed mesh, `getDiameter` returns the largest vertex distance. -/
theorem C24_getDiameter (p : List (Pt ℝ)) (idx : List Int) (h2 : 2 ≤ idx.length)
    (hidx : ∀ i ∈ idx, 0 ≤ i ∧ i < p.length) (ops : List PolyOp) (g : Poly ℝ)
    (hg : runPoly calculateDiameter p ops (Poly.fresh idx) = .ok g) :
    ∃ g' d l, g.getDiameter calculateDiameter p = .ok (g', d) ∧ resolve p g.points = .ok l ∧
      IsDiameter l d := by
  have key : ∀ (ops : List PolyOp) (g g' : Poly ℝ), DiamInv p g →
      runPoly calculateDiameter p ops g = .ok g' → DiamInv p g' := by
    intro ops
    induction ops with
    | nil => intro g g' h hr; simp only [runPoly, Outcome.ok.injEq] at hr; rwa [← hr]
    | cons o ops ih =>
      intro g g' h hr
      cases o with
      | getArea =>
        simp only [runPoly] at hr
        cases hg : g.getArea p with
        | exn => simp [hg] at hr
        | ub => simp [hg] at hr
        | ok r =>
          simp only [hg, Outcome.bind_ok] at hr
          refine ih _ _ ?_ hr
          obtain ⟨h2, l, hl, hd⟩ := h
          unfold Poly.getArea at hg
          split at hg
          · simp only [hl, Outcome.bind_ok, Outcome.pure_eq, Outcome.ok.injEq] at hg
            subst hg; exact ⟨h2, l, hl, hd⟩
          · simp only [Outcome.ok.injEq] at hg
            subst hg; exact ⟨h2, l, hl, hd⟩
      | getDiameter =>
        simp only [runPoly] at hr
        obtain ⟨r, l, h1, hpts, hl, hd, hdd⟩ := diamInv_getDiameter h
        simp only [h1, Outcome.bind_ok] at hr
        refine ih _ _ ⟨by rw [hpts]; exact h.1, l, by rw [hpts]; exact hl, Or.inr (by rw [hdd]; exact hd)⟩ hr
      | fixCCW =>
        simp only [runPoly] at hr
        cases hg : g.fixCCW p with
        | exn => simp [hg] at hr
        | ub => simp [hg] at hr
        | ok r =>
          simp only [hg, Outcome.bind_ok] at hr
          refine ih _ _ ?_ hr
          obtain ⟨h2, l, hl, hd⟩ := h
          unfold Poly.fixCCW at hg
          cases hc : isClockwise l with
          | exn => simp [hl, hc] at hg
          | ub => simp [hl, hc] at hg
          | ok c =>
            simp only [hl, hc, Outcome.bind_ok, Outcome.pure_eq] at hg
            split at hg
            · have := Outcome.ok.inj hg
              subst this
              exact ⟨by simpa using h2, l.reverse, resolve_reverse hl,
                hd.imp id (isDiameter_perm (List.reverse_perm _).symm)⟩
            · have := Outcome.ok.inj hg
              subst this; exact ⟨h2, l, hl, hd⟩
      | copy =>
        simp only [runPoly] at hr
        exact ih g.copy _ h hr
  obtain ⟨l0, hl0⟩ := resolve_ok_iff.2 hidx
  have h0 : DiamInv p (Poly.fresh idx : Poly ℝ) := ⟨h2, l0, hl0, Or.inl (by norm_num [Poly.fresh])⟩
  have h1 := key ops _ g h0 hg
  obtain ⟨r, l, e1, _, e3, e4, _⟩ := diamInv_getDiameter h1
  exact ⟨r.1, r.2, l, e1, e3, e4⟩

example : 2 ≤ [(⟨0, 0⟩ : Pt ℝ), ⟨0, 0⟩, ⟨1, 2⟩].length := by norm_num

/-- The `i`-th edge's length. -/
noncomputable def edgeLen (l : List (Pt ℝ)) (i : Fin l.length) : ℝ :=
  eDist l[i] (l[(i.val + 1) % l.length]'(Nat.mod_lt _ (by have := i.isLt; omega)))

private theorem mem_edge (l : List (Pt ℝ)) (d : ℝ) :
    d ∈ (cycPairs l).map (fun e => segLength e.1 e.2) ↔ ∃ i, d = edgeLen l i := by
  constructor
  · intro h
    obtain ⟨e, he, rfl⟩ := List.mem_map.1 h
    obtain ⟨k, hk, rfl⟩ := List.getElem_of_mem he
    have hk' : k < l.length := by rwa [cycPairs_length] at hk
    refine ⟨⟨k, hk'⟩, ?_⟩
    rw [cycPairs_getElem]; rfl
  · rintro ⟨i, rfl⟩
    apply List.mem_map.2
    refine ⟨(l[i], l[(i.val + 1) % l.length]'(Nat.mod_lt _ (by have := i.isLt; omega))), ?_, rfl⟩
    have hi : i.val < (cycPairs l).length := by rw [cycPairs_length]; exact i.isLt
    have := List.getElem_mem hi
    rw [cycPairs_getElem] at this
    exact this

/-- C26: for a non-empty polygon `getMaxDistance` is the longest edge, and it is at most the
largest vertex distance. -/
theorem C26_getMaxDistance_partial (l : List (Pt ℝ)) (hl : l ≠ []) :
    (∃ i, getMaxDistance l = edgeLen l i) ∧ (∀ i, edgeLen l i ≤ getMaxDistance l) ∧
    (∀ d, IsDiameter l d → getMaxDistance l ≤ d) := by
  obtain ⟨m1, m2, m3⟩ := maxLoop_spec ((cycPairs l).map (fun e => segLength e.1 e.2))
    (-9223372036854775808)
  have hpos : 0 < l.length := List.length_pos_iff.2 hl
  have hall : ∀ i, edgeLen l i ≤ getMaxDistance l := fun i => m2 _ ((mem_edge l _).2 ⟨i, rfl⟩)
  have hex : ∃ i, getMaxDistance l = edgeLen l i := by
    rcases m3 with m3 | m3
    · exfalso
      have := hall ⟨0, hpos⟩
      have h0 : 0 ≤ edgeLen l ⟨0, hpos⟩ := Real.sqrt_nonneg _
      unfold getMaxDistance at this
      rw [m3] at this
      linarith
    · exact (mem_edge l _).1 m3
  refine ⟨hex, hall, ?_⟩
  intro d hd
  obtain ⟨i, hi⟩ := hex
  rw [hi]
  exact hd.2 _ (List.getElem_mem _) _ (List.getElem_mem _)

/-- C26: the header's promise ("maximum distance between any two vertices") is false: in the unit square
the diagonal is longer. -/
theorem C26_header_refuted : ∃ (l : List (Pt ℝ)) (a b : Pt ℝ), a ∈ l ∧ b ∈ l ∧
    getMaxDistance l < eDist a b := by
  refine ⟨[⟨0, 0⟩, ⟨1, 0⟩, ⟨1, 1⟩, ⟨0, 1⟩], ⟨0, 0⟩, ⟨1, 1⟩, by simp, by simp, ?_⟩
  obtain ⟨⟨i, hi⟩, _, _⟩ := C26_getMaxDistance_partial [(⟨0, 0⟩ : Pt ℝ), ⟨1, 0⟩, ⟨1, 1⟩, ⟨0, 1⟩] (by simp)
  rw [hi]
  have h1 : edgeLen [(⟨0, 0⟩ : Pt ℝ), ⟨1, 0⟩, ⟨1, 1⟩, ⟨0, 1⟩] i = 1 := by
    have hlt := i.isLt
    match i, hlt with
    | ⟨0, _⟩, _ => norm_num [edgeLen, eDist, sqDist]
    | ⟨1, _⟩, _ => norm_num [edgeLen, eDist, sqDist]
    | ⟨2, _⟩, _ => norm_num [edgeLen, eDist, sqDist]
    | ⟨3, _⟩, _ => norm_num [edgeLen, eDist, sqDist]
  rw [h1]
  unfold eDist
  rw [Real.lt_sqrt (by norm_num)]
  norm_num [sqDist]

end Delynoi
