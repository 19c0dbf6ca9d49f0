import Verif.Proofs.WindingNumber
import Verif.Props.Triangulation
/-!
# Property C106: triangulations cover a point as often as the outline goes around it
-/
set_option linter.unusedSectionVars false
namespace Delynoi

section
variable {K : Type} [Field K] [LinearOrder K] [IsStrictOrderedRing K]

/-- Edge sums bound the counts. -/
private theorem counts_of_sum {tps : List (Pt K × Pt K × Pt K)} {pts rpts : List (Pt K)} {x : Pt K}
    (h : edgeSum (wnd x) pts = (tps.map (fun q => wnd x q.1 q.2.1 + wnd x q.2.1 q.2.2 + wnd x q.2.2 q.1)).sum +
      edgeSum (wnd x) rpts) :
    (openCount tps x : Int) - closedCount (tps.map flipTri) x + winding rpts x ≤ winding pts x ∧
    winding pts x ≤ (closedCount tps x : Int) - openCount (tps.map flipTri) x + winding rpts x := by
  obtain ⟨k, k1, k2, k3⟩ := covs_bounds x tps
  have : ((winding pts x : Int) : K) = ((k + winding rpts x : Int) : K) := by
    rw [winding_edgeSum, h, Int.cast_add, winding_edgeSum, ← k1]
    rfl
  have := Int.cast_injective this
  omega

/-- C106: for every polygon, the triangles returned by ear clipping, together with the remainder that
was not clipped, cover every point of the plane as often as the outline goes around it; clockwise
triangles count negatively, and points on the sides of triangles may be counted or not. -/
theorem C106_ear (tol : K) (p : List (Pt K)) (idx : List Int) (pts : List (Pt K))
    (hpts : resolve p idx = .ok pts) (h3 : 3 ≤ idx.length) (ts : List (List Int))
    (hts : earTriangulate tol p idx = .ok ts) :
    ∃ (rest : List Int) (rpts : List (Pt K)) (tps : List (Pt K × Pt K × Pt K)), rest.Sublist idx ∧
      resolve p rest = .ok rpts ∧ (rest = [] ↔ ts.length = idx.length - 2) ∧
      List.Forall₂ (fun t q => resolve p t = .ok [q.1, q.2.1, q.2.2]) ts tps ∧
      ∀ x, (openCount tps x : Int) - closedCount (tps.map flipTri) x + winding rpts x ≤ winding pts x ∧
        winding pts x ≤ (closedCount tps x : Int) - openCount (tps.map flipTri) x + winding rpts x := by
  obtain ⟨ts', rest, tps, g1, g2, g3, g4, g5, g6, g7⟩ :=
    earLoop_spec tol p idx.length idx [] (resolve_ok_iff.1 ⟨pts, hpts⟩) (le_refl _)
  have : ts' = ts := by
    have : earTriangulate tol p idx = .ok ts' := by simpa [earTriangulate] using g1
    rw [hts] at this
    exact (Outcome.ok.inj this).symm
  subst this
  obtain ⟨rpts, hr, hs⟩ := g7 pts hpts
  refine ⟨rest, rpts, tps, g2, hr, ?_, g4, fun x => counts_of_sum (hs (wnd x) (wnd_swap x))⟩
  rcases g5 h3 with ⟨h, h'⟩ | ⟨h, h'⟩
  · exact ⟨fun _ => by omega, fun _ => h⟩
  · constructor
    · intro he; rw [he] at h; simp at h
    · intro he; omega

/-- C106: the same for center triangulation of every polygon that it accepts. -/
theorem C106_center (p p' : List (Pt K)) (idx : List Int) (pts : List (Pt K)) (ts : List (List Int))
    (hr : resolve p idx = .ok pts) (h : centerTriangulate p idx = .ok (p', ts)) :
    ∃ tps : List (Pt K × Pt K × Pt K),
      List.Forall₂ (fun t q => resolve p' t = .ok [q.1, q.2.1, q.2.2]) ts tps ∧
      ∀ x, (openCount tps x : Int) - closedCount (tps.map flipTri) x ≤ winding pts x ∧
        winding pts x ≤ (closedCount tps x : Int) - openCount (tps.map flipTri) x := by
  have hc : isConvex pts = .ok true := by
    cases hq : isConvex pts with
    | ok b =>
      cases b with
      | true => rfl
      | false =>
        unfold centerTriangulate at h
        rw [hr] at h
        simp only [Outcome.bind_ok, hq] at h
        cases h
    | exn =>
      unfold centerTriangulate at h
      rw [hr] at h
      simp only [Outcome.bind_ok, hq] at h
      cases h
    | ub =>
      unfold centerTriangulate at h
      rw [hr] at h
      simp only [Outcome.bind_ok, hq] at h
      cases h
  obtain ⟨ts', g1, g2, g3, g4, _⟩ := C41_center p idx pts ⟨0, 0⟩ hr hc
  rw [h] at g1
  simp only [Outcome.ok.injEq, Prod.mk.injEq] at g1
  obtain ⟨rfl, rfl⟩ := g1
  have hlen := resolve_length hr
  refine ⟨(cycPairs pts).map (fun e => (e.1, e.2, meanPt pts)), ?_, fun x => ?_⟩
  · refine List.forall₂_iff_get.2 ⟨by rw [g2, List.length_map, cycPairs_length, hlen], ?_⟩
    intro k h1 h2
    have hk : k < idx.length := by omega
    have e1 : ts.get ⟨k, h1⟩ = [idx[k], nextV idx ⟨k, hk⟩, (p.length : Int)] := by
      have := g3 ⟨k, hk⟩
      rw [List.getElem?_eq_getElem h1] at this
      exact Option.some.inj this
    have e2 : ((cycPairs pts).map (fun e => (e.1, e.2, meanPt pts))).get ⟨k, h2⟩ =
        (pts[k]'(by omega), nextV pts ⟨k, by omega⟩, meanPt pts) := by
      simp [cycPairs_getElem, nextV]
    rw [e1, e2]
    exact g4 ⟨k, hk⟩
  · have := counts_of_sum (x := x) (pts := pts) (rpts := [])
      (tps := (cycPairs pts).map (fun e => (e.1, e.2, meanPt pts))) (by
        rw [List.map_map]
        have e0 : edgeSum (wnd x) [] = 0 := by simp [edgeSum, cycPairs]
        rw [e0, add_zero]
        unfold edgeSum
        have e1 : ∀ es : List (Pt K × Pt K), (es.map ((fun q : Pt K × Pt K × Pt K =>
            wnd x q.1 q.2.1 + wnd x q.2.1 q.2.2 + wnd x q.2.2 q.1) ∘ fun e => (e.1, e.2, meanPt pts))).sum =
            (es.map (fun e => wnd x e.1 e.2)).sum + (((es.map Prod.snd).map (fun a => wnd x a (meanPt pts))).sum -
              ((es.map Prod.fst).map (fun a => wnd x a (meanPt pts))).sum) := by
          intro es
          induction es with
          | nil => simp
          | cons e es ih =>
            simp only [List.map_cons, List.sum_cons, Function.comp_apply] at ih ⊢
            rw [ih, wnd_swap x (meanPt pts) e.1]; ring
        rw [e1, cycPairs_fst, ((cycPairs_snd_perm pts).map _).sum_eq, sub_self, add_zero])
    have w0 : winding ([] : List (Pt K)) x = 0 := by simp [winding]
    rw [w0, add_zero, add_zero] at this
    exact this

/-- C106: counter-clockwise triangles that cover every point as often as the outline goes around it
fill the outline exactly if it goes around no point more than once: they do not overlap, and a point is
in the union of the triangles (inside one if it is not on a side) when the outline goes around it. -/
theorem C106_fill (tps : List (Pt K × Pt K × Pt K)) (pts : List (Pt K))
    (hccw : ∀ t ∈ tps, 0 < turn t.1 t.2.1 t.2.2)
    (hcov : ∀ x, (openCount tps x : Int) - closedCount (tps.map flipTri) x ≤ winding pts x ∧
        winding pts x ≤ (closedCount tps x : Int) - openCount (tps.map flipTri) x)
    (hsimple : ∀ x, winding pts x ≤ 1) :
    tps.Pairwise (fun s t => ∀ q, ¬ (InOpenTri s q ∧ InOpenTri t q)) ∧
    (∀ q, winding pts q = 1 → ∃ t ∈ tps, InTri t q) ∧
    (∀ q, ∀ t ∈ tps, InOpenTri t q → winding pts q = 1) ∧ (∀ q, 0 ≤ winding pts q) := by
  classical
  have c0 : ∀ x, closedCount (tps.map flipTri) x = 0 := by
    intro x
    unfold closedCount
    rw [List.countP_eq_zero]
    intro t ht
    obtain ⟨s, hs, rfl⟩ := List.mem_map.1 ht
    simp only [decide_eq_true_eq, not_and]
    intro h
    have := hccw s hs
    rw [turn_flip] at h; linarith
  have o0 : ∀ x, openCount (tps.map flipTri) x = 0 := by
    intro x
    unfold openCount
    rw [List.countP_eq_zero]
    intro t ht
    obtain ⟨s, hs, rfl⟩ := List.mem_map.1 ht
    simp only [decide_eq_true_eq]
    intro h
    have h1 := open_ccw h
    have := hccw s hs
    rw [turn_flip] at h1; linarith
  have hb : ∀ x, (openCount tps x : Int) ≤ winding pts x ∧ winding pts x ≤ closedCount tps x := by
    intro x
    have := hcov x
    rw [c0, o0] at this
    omega
  refine ⟨?_, ?_, ?_, fun q => le_trans (by omega) (hb q).1⟩
  · have aux : ∀ ts : List (Pt K × Pt K × Pt K), (∀ x, openCount ts x ≤ 1) →
        ts.Pairwise (fun s t => ∀ q, ¬ (InOpenTri s q ∧ InOpenTri t q)) := by
      intro ts
      induction ts with
      | nil => intro _; exact List.Pairwise.nil
      | cons t ts ih =>
        intro h
        refine List.Pairwise.cons ?_ (ih (fun x => ?_))
        · rintro s hs q ⟨h1, h2⟩
          have h3 := h q
          unfold openCount at h3
          rw [List.countP_cons_of_pos (by simpa using h1)] at h3
          have : 0 < ts.countP (fun t => decide (InOpenTri t q)) :=
            List.countP_pos_iff.2 ⟨s, hs, by simpa using h2⟩
          omega
        · refine le_trans ?_ (h x)
          unfold openCount
          rw [List.countP_cons]; omega
    refine aux tps (fun x => ?_)
    have := (hb x).1
    have := hsimple x
    omega
  · intro q hq
    have : 0 < closedCount tps q := by have := (hb q).2; omega
    unfold closedCount at this
    obtain ⟨t, ht, h⟩ := List.countP_pos_iff.1 this
    simp only [decide_eq_true_eq] at h
    exact ⟨t, ht, h.2⟩
  · intro q t ht h
    have h1 : 0 < openCount tps q := List.countP_pos_iff.2 ⟨t, ht, by simpa using h⟩
    have := (hb q).1
    have := hsimple q
    omega

/-- C106: away from the outline, the point-in-polygon test accepts exactly the points that the outline
goes around an odd number of times. -/
theorem C106_containsPoint (tol : K) (ht : 0 < tol) (l : List (Pt K)) (q : Pt K)
    (hl : NeighboursApart tol l) (hq : ¬ OnSomeEdge tol l q) :
    containsPoint tol l q = true ↔ Odd (winding l q) := by
  rw [C27_containsPoint_iff_partial tol ht l q hl, or_iff_left hq]
  apply odd_crossings
  rw [cycPairs_eq_finRange]
  intro e he
  obtain ⟨i, _, rfl⟩ := List.mem_map.1 he
  rintro ⟨t, t0, t1, rfl⟩
  apply hq
  have bd : ∀ u v : K, min u v ≤ (1 - t) * u + t * v ∧ (1 - t) * u + t * v ≤ max u v := by
    intro u v
    have h1 : 0 ≤ 1 - t := by linarith
    have a1 := mul_le_mul_of_nonneg_left (min_le_left u v) h1
    have a2 := mul_le_mul_of_nonneg_left (min_le_right u v) t0
    have b1 := mul_le_mul_of_nonneg_left (le_max_left u v) h1
    have b2 := mul_le_mul_of_nonneg_left (le_max_right u v) t0
    constructor <;> linarith
  refine ⟨i, ⟨?_, ?_⟩, ⟨?_, ?_⟩, ?_⟩
  · have := (bd l[i].x (nextV l i).x).1; simp only [lineAt]; linarith
  · have := (bd l[i].x (nextV l i).x).2; simp only [lineAt]; linarith
  · have := (bd l[i].y (nextV l i).y).1; simp only [lineAt]; linarith
  · have := (bd l[i].y (nextV l i).y).2; simp only [lineAt]; linarith
  · have : turn l[i] (nextV l i) (lineAt l[i] (nextV l i) t) = 0 := by unfold turn lineAt; ring
    rw [this, abs_zero]; exact ht

/-- C106: if ear clipping cuts up the whole polygon into counter-clockwise triangles, then the test
whether the polygon contains a point that is not on its outline or on a side of a triangle means that an
odd number of the triangles have it inside. -/
theorem C106_contains_triangles (tol : K) (ht : 0 < tol) (p : List (Pt K)) (idx : List Int)
    (pts : List (Pt K)) (hpts : resolve p idx = .ok pts) (h3 : 3 ≤ idx.length) (ts : List (List Int))
    (hts : earTriangulate tol p idx = .ok ts) (hn : ts.length = idx.length - 2)
    (hl : NeighboursApart tol pts) :
    ∃ tps : List (Pt K × Pt K × Pt K),
      List.Forall₂ (fun t q => resolve p t = .ok [q.1, q.2.1, q.2.2]) ts tps ∧
      ((∀ t ∈ tps, 0 < turn t.1 t.2.1 t.2.2) → ∀ q, ¬ OnSomeEdge tol pts q →
        (∀ t ∈ tps, InTri t q → InOpenTri t q) →
        (containsPoint tol pts q = true ↔ Odd (openCount tps q))) := by
  classical
  obtain ⟨rest, rpts, tps, _, h2, h4, h5, h6⟩ := C106_ear tol p idx pts hpts h3 ts hts
  obtain rfl := h4.2 hn
  simp only [resolve, Outcome.ok.injEq] at h2
  subst h2
  refine ⟨tps, h5, fun hccw q hq hs => ?_⟩
  rw [C106_containsPoint tol ht pts q hl hq]
  have w0 : winding ([] : List (Pt K)) q = 0 := by simp [winding]
  have hb := h6 q
  rw [w0] at hb
  have c0 : closedCount (tps.map flipTri) q = 0 := by
    unfold closedCount
    rw [List.countP_eq_zero]
    intro t ht
    obtain ⟨s, hs, rfl⟩ := List.mem_map.1 ht
    simp only [decide_eq_true_eq, not_and]
    intro h
    have := hccw s hs
    rw [turn_flip] at h; linarith
  have oc : openCount tps q = closedCount tps q := by
    unfold openCount closedCount
    apply List.countP_congr
    intro t ht
    simp only [decide_eq_true_eq]
    exact ⟨fun h => ⟨open_ccw h, h.1.le, h.2.1.le, h.2.2.le⟩, fun h => hs t ht h.2⟩
  have : winding pts q = openCount tps q := by rw [c0] at hb; omega
  rw [this, Int.odd_coe_nat]

end

/-- An L-shaped hexagon, which is not convex. -/
def ellPts : List (Pt ℚ) := [⟨0, 0⟩, ⟨2, 0⟩, ⟨2, 1⟩, ⟨1, 1⟩, ⟨1, 2⟩, ⟨0, 2⟩]

/-- Ear clipping cuts it up completely into counter-clockwise triangles, and no two neighbouring corners
are close. -/
example : earTriangulate (1/100000 : ℚ) ellPts [0, 1, 2, 3, 4, 5] =
    .ok [[0, 1, 2], [0, 2, 3], [5, 0, 3], [3, 4, 5]] ∧ resolve ellPts [0, 1, 2, 3, 4, 5] = .ok ellPts ∧
    (∀ t ∈ [[0, 1, 2], [0, 2, 3], [5, 0, 3], [3, 4, 5]],
      (match resolve ellPts t with | .ok [a, b, c] => decide (0 < turn a b c) | _ => false) = true) ∧
    NeighboursApart (1/100000 : ℚ) ellPts := by
  refine ⟨by decide +kernel, by decide +kernel, by decide +kernel, ?_⟩
  unfold NeighboursApart Close; decide +kernel

/-- Its outline goes around no point more than once. -/
example (x : Pt ℚ) : winding ellPts x ≤ 1 := by
  have h : ((winding ellPts x : Int) : ℚ) ≤ ((1 : Int) : ℚ) := by
    rw [winding_edgeSum]
    have flat : ∀ a b : Pt ℚ, a.y = b.y → wnd x a b = 0 := by
      intro a b hab
      unfold wnd hgt; rw [hab]; simp
    have e : edgeSum (wnd x) ellPts = wnd x ⟨0, 0⟩ ⟨2, 0⟩ + (wnd x ⟨2, 0⟩ ⟨2, 1⟩ + (wnd x ⟨2, 1⟩ ⟨1, 1⟩ +
        (wnd x ⟨1, 1⟩ ⟨1, 2⟩ + (wnd x ⟨1, 2⟩ ⟨0, 2⟩ + (wnd x ⟨0, 2⟩ ⟨0, 0⟩ + 0))))) := rfl
    rw [e, flat ⟨0, 0⟩ ⟨2, 0⟩ rfl, flat ⟨2, 1⟩ ⟨1, 1⟩ rfl, flat ⟨1, 2⟩ ⟨0, 2⟩ rfl]
    unfold wnd hgt turn
    simp only
    split_ifs <;> norm_num <;> (exfalso; linarith)
  exact_mod_cast h

end Delynoi
