import Verif.Props.DoubleContain
import Verif.Proofs.ClipperArea
import Verif.Props.PolygonMisc
/-!
# C116, C117: integer coordinates and the convexity test in binary64 arithmetic
-/
set_option linter.unusedSectionVars false
namespace Delynoi

/-- A point with integer coordinates of absolute value at most `N`. -/
def OnGrid (N : Int) (p : Pt ℚ) : Prop := ∃ x y : Int, p = ⟨x, y⟩ ∧ |x| ≤ N ∧ |y| ≤ N

private theorem bnd {x y A B : Int} (hx : |x| ≤ A) (hy : |y| ≤ B) : |x * y| ≤ A * B := by
  rw [abs_mul]; exact mul_le_mul hx hy (abs_nonneg _) ((abs_nonneg _).trans hx)

private theorem bnd_add {x y A B : Int} (hx : |x| ≤ A) (hy : |y| ≤ B) : |x + y| ≤ A + B :=
  (abs_add_le x y).trans (add_le_add hx hy)

private theorem bnd_sub {x y A B : Int} (hx : |x| ≤ A) (hy : |y| ≤ B) : |x - y| ≤ A + B :=
  (abs_sub x y).trans (add_le_add hx hy)

private theorem fl_sub_int {x y N : Int} (hN : N ≤ 33554431) (hx : |x| ≤ N) (hy : |y| ≤ N) :
    fl ((x : ℚ) - y) = ((x - y : Int) : ℚ) := by
  rw [← Int.cast_sub]
  exact fl_int ((bnd_sub hx hy).trans_lt (by omega))

/-- C116: differences of grid points are exact, hence `==` and `<` of points are. -/
theorem C116_eq_lt (tol : ℚ) (N : Int) (hN : N ≤ 33554431) (a b : Pt ℚ) (ha : OnGrid N a) (hb : OnGrid N b) :
    Rnd.eqTol fl tol a b = a.eqTol tol b ∧ Rnd.ltTol fl tol a b = a.ltTol tol b := by
  obtain ⟨ax, ay, rfl, h1, h2⟩ := ha
  obtain ⟨bx, bY, rfl, h3, h4⟩ := hb
  simp only [Rnd.eqTol, Rnd.ltTol, Pt.eqTol, Pt.ltTol, fl_sub_int hN h1 h3, fl_sub_int hN h2 h4, Int.cast_sub]
  exact ⟨trivial, trivial⟩

/-- C116: `orientation` (and with it `area2` and `collinear`) is exact for integer coordinates below
`2^25`. -/
theorem C116_orientation (tol : ℚ) (N : Int) (hN : N ≤ 33554431) (a b c : Pt ℚ) (ha : OnGrid N a) (hb : OnGrid N b)
    (hc : OnGrid N c) : Rnd.orientation fl a b c = turn a b c ∧
    (Rnd.collinear fl tol a b c = true ↔ |turn a b c| < tol) := by
  have key : Rnd.orientation fl a b c = turn a b c := by
    obtain ⟨ax, ay, rfl, h1, h2⟩ := ha
    obtain ⟨bx, bY, rfl, h3, h4⟩ := hb
    obtain ⟨cx, cy, rfl, h5, h6⟩ := hc
    have hN0 : 0 ≤ N := (abs_nonneg _).trans h1
    simp only [Rnd.orientation, Rnd.crossProduct, Rnd.sub, turn, fl_sub_int hN h3 h1, fl_sub_int hN h4 h2,
      fl_sub_int hN h5 h1, fl_sub_int hN h6 h2]
    have p1 := bnd (bnd_sub h3 h1) (bnd_sub h6 h2)
    have p2 := bnd (bnd_sub h4 h2) (bnd_sub h5 h1)
    have hsq : (N + N) * (N + N) ≤ 67108862 * 67108862 := mul_le_mul (by omega) (by omega) (by omega) (by omega)
    rw [← Int.cast_mul, ← Int.cast_mul, fl_int (p1.trans_lt (by omega)), fl_int (p2.trans_lt (by omega)),
      ← Int.cast_sub, fl_int ((bnd_sub p1 p2).trans_lt (by omega))]
    push_cast; ring
  refine ⟨key, ?_⟩
  have : Rnd.area2 fl a b c = Rnd.orientation fl a b c := rfl
  rw [Rnd.collinear, this, key, decide_eq_true_eq]

/-- C116: `Segment::contains` is exact for integer coordinates below `2^25`. -/
theorem C116_contains (tol : ℚ) (N : Int) (hN : N ≤ 33554431) (q a b : Pt ℚ) (hq : OnGrid N q) (ha : OnGrid N a)
    (hb : OnGrid N b) : Rnd.contains fl tol q a b = Seg.contains tol q a b := by
  obtain ⟨ax, ay, rfl, h1, h2⟩ := ha
  obtain ⟨bx, bY, rfl, h3, h4⟩ := hb
  obtain ⟨cx, cy, rfl, h5, h6⟩ := hq
  have hN0 : 0 ≤ N := (abs_nonneg _).trans h1
  have hsq : N * (N + N) ≤ 33554431 * 67108862 := mul_le_mul (by omega) (by omega) (by omega) (by omega)
  have p1 := bnd h1 (bnd_sub h4 h6)
  have p2 := bnd h3 (bnd_sub h6 h2)
  have p3 := bnd h5 (bnd_sub h2 h4)
  have key : fl (fl (fl ((ax : ℚ) * fl ((bY : ℚ) - cy)) + fl ((bx : ℚ) * fl ((cy : ℚ) - ay))) +
      fl ((cx : ℚ) * fl ((ay : ℚ) - bY))) = ax * ((bY : ℚ) - cy) + bx * ((cy : ℚ) - ay) + cx * ((ay : ℚ) - bY) := by
    rw [fl_sub_int hN h4 h6, fl_sub_int hN h6 h2, fl_sub_int hN h2 h4, ← Int.cast_mul, ← Int.cast_mul,
      ← Int.cast_mul, fl_int (p1.trans_lt (by omega)), fl_int (p2.trans_lt (by omega)),
      fl_int (p3.trans_lt (by omega)), ← Int.cast_add, fl_int ((bnd_add p1 p2).trans_lt (by omega)), ← Int.cast_add,
      fl_int ((bnd_add (bnd_add p1 p2) p3).trans_lt (by omega))]
    push_cast; ring
  simp only [Rnd.contains, Seg.contains, Rnd.geTol, Rnd.leTol, Seg.geTol, Seg.leTol]
  rw [key]
  simp only [fl_sub_int hN h5 h1, fl_sub_int hN h5 h3, fl_sub_int hN h6 h2, fl_sub_int hN h6 h4, Int.cast_sub]

private theorem crossErr_le {a b : Pt ℚ} {M : ℚ} (hM : 1 ≤ M) (ha : |a.x| ≤ M) (hb : |b.x| ≤ M) :
    crossErr a b ≤ 22 / 2 ^ 53 * M := by
  have hd : |b.x - a.x| ≤ 2 * M := (abs_sub _ _).trans (by linarith)
  have hd0 := abs_nonneg (b.x - a.x)
  have ha0 := abs_nonneg a.x
  unfold crossErr
  have g1 : gRnd ^ 7 - 1 ≤ 71 / 10 / 2 ^ 53 := by unfold gRnd uRnd; norm_num
  have g0 : 0 ≤ gRnd ^ 7 - 1 := sub_nonneg.2 (gRnd_pow_ge 7)
  have e0 := etaRnd_pos
  have h1 : (gRnd ^ 7 - 1) * (|a.x| + |b.x - a.x|) ≤ 71 / 10 / 2 ^ 53 * (3 * M) :=
    mul_le_mul g1 (by linarith) (by positivity) (by norm_num)
  have h2 : gRnd * (gRnd * (etaRnd * (gRnd * |b.x - a.x|)) + etaRnd) ≤ 1 / 10 / 2 ^ 53 * M := by
    have e1 : gRnd * (gRnd * (etaRnd * (gRnd * |b.x - a.x|)) + etaRnd) =
        gRnd ^ 3 * etaRnd * |b.x - a.x| + gRnd * etaRnd := by ring
    rw [e1]
    have c1 : gRnd ^ 3 * etaRnd ≤ 1 / 40 / 2 ^ 53 := by decide +kernel
    have c2 : gRnd * etaRnd ≤ 1 / 40 / 2 ^ 53 := by decide +kernel
    have c3 : gRnd ^ 3 * etaRnd * |b.x - a.x| ≤ 1 / 40 / 2 ^ 53 * (2 * M) := mul_le_mul c1 hd hd0 (by norm_num)
    linarith
  linarith

/-- A grid point which is not on the line through two others is clear of the edge between them. -/
private theorem grid_clear {N : Int} (hN : N ≤ 8388608) {a b q : Pt ℚ} (ha : OnGrid N a) (hb : OnGrid N b)
    (hq : OnGrid N q) (h : min a.y b.y ≤ q.y → q.y < max a.y b.y → turn a b q ≠ 0) : ClearOf a b q := by
  rw [clearOf_iff]
  intro h1 h2
  have h0 := h h1 h2
  obtain ⟨ax, ay, rfl, a1, a2⟩ := ha
  obtain ⟨bx, bY, rfl, b1, b2⟩ := hb
  obtain ⟨cx, cy, rfl, c1, c2⟩ := hq
  simp only at *
  have hne : (bY : ℚ) - ay ≠ 0 := by
    intro h
    have : (bY : ℚ) = ay := by linarith
    rw [this, min_self] at h1
    rw [this, max_self] at h2
    linarith
  have q1 : |(ax : ℚ)| ≤ 8388608 := by exact_mod_cast a1.trans hN
  have q2 : |(bx : ℚ)| ≤ 8388608 := by exact_mod_cast b1.trans hN
  have herr := crossErr_le (a := (⟨ax, ay⟩ : Pt ℚ)) (b := ⟨bx, bY⟩) (M := 8388608) (by norm_num) q1 q2
  -- the distance is a fraction with a small denominator
  set n : Int := (ax - cx) * (bY - ay) + (cy - ay) * (bx - ax) with hn
  have hX : (ax : ℚ) + ((cy : ℚ) - ay) / ((bY : ℚ) - ay) * ((bx : ℚ) - ax) - cx = (n : ℚ) / ((bY : ℚ) - ay) := by
    rw [hn]; push_cast; field_simp; ring
  have hn0 : n ≠ 0 := by
    intro hz
    apply h0
    have : ((n : Int) : ℚ) = 0 := by rw [hz]; simp
    rw [hn] at this
    push_cast at this
    simp only [turn]
    linarith
  have hn1 : (1 : ℚ) ≤ |(n : ℚ)| := by
    have := Int.one_le_abs hn0
    exact_mod_cast this
  have hdy : |(bY : ℚ) - ay| ≤ 16777216 := by
    have := bnd_sub b2 a2
    have h3 : |bY - ay| ≤ 16777216 := by omega
    exact_mod_cast h3
  have hdy0 : 0 < |(bY : ℚ) - ay| := abs_pos.2 hne
  rw [hX, abs_div, lt_div_iff₀ hdy0]
  have e0 : 0 ≤ crossErr (⟨ax, ay⟩ : Pt ℚ) ⟨bx, bY⟩ := by
    unfold crossErr
    have := gRnd_pow_ge 7; have := gRnd_ge; have := etaRnd_pos
    have : 0 ≤ gRnd ^ 7 - 1 := by linarith
    positivity
  calc crossErr (⟨ax, ay⟩ : Pt ℚ) ⟨bx, bY⟩ * |(bY : ℚ) - ay| ≤ (22 / 2 ^ 53 * 8388608) * 16777216 :=
        mul_le_mul herr hdy hdy0.le (by norm_num)
    _ < 1 := by norm_num
    _ ≤ _ := hn1

private theorem grid_dpt {N : Int} (hN : N ≤ 33554431) {p : Pt ℚ} (h : OnGrid N p) : DPt p := by
  obtain ⟨x, y, rfl, h1, h2⟩ := h
  exact ⟨isDouble_int x (by norm_num; omega), isDouble_int y (by norm_num; omega)⟩

private theorem grid_apart {tol : ℚ} (ht : tol ≤ 1) {N : Int} {l : List (Pt ℚ)} (hl : ∀ p ∈ l, OnGrid N p) :
    NeighboursApart tol l := by
  intro i hc
  have hnext : nextV l i ∈ l := by unfold nextV; exact List.getElem_mem _
  have hi : l[i] ∈ l := List.getElem_mem _
  obtain ⟨ax, ay, e1, _⟩ := hl _ hi
  obtain ⟨bx, bY, e2, _⟩ := hl _ hnext
  rw [e1, e2] at hc ⊢
  have key : ∀ u v : Int, |(u : ℚ) - v| < tol → u = v := by
    intro u v h
    have h1 : |(u : ℚ) - v| < 1 := h.trans_le ht
    have h2 : |u - v| < 1 := by exact_mod_cast h1
    have := Int.abs_lt_one_iff.1 h2
    omega
  rw [key _ _ hc.1, key _ _ hc.2]

/-- C116: for integer coordinates up to `2^23` and a tolerance up to 1, `containsPoint` in binary64
arithmetic answers exactly as in exact arithmetic. -/
theorem C116_containsPoint (tol : ℚ) (htol : IsDouble tol) (h0 : 0 < tol) (h1 : tol ≤ 1) (l : List (Pt ℚ)) (q : Pt ℚ)
    (hl : ∀ p ∈ l, OnGrid 8388608 p) (hq : OnGrid 8388608 q) :
    Rnd.containsPoint fl tol l q = containsPoint tol l q := by
  have hcont : ∀ e ∈ cycPairs l, Rnd.contains fl tol q e.1 e.2 = Seg.contains tol q e.1 e.2 := by
    intro e he
    obtain ⟨m1, m2⟩ := cycPairs_mem he
    exact C116_contains tol _ (by norm_num) q e.1 e.2 hq (hl _ m1) (hl _ m2)
  have hany : (cycPairs l).any (fun e => Rnd.contains fl tol q e.1 e.2) = inEdgesPts tol l q := by
    unfold inEdgesPts
    rw [Bool.eq_iff_iff, List.any_eq_true, List.any_eq_true]
    constructor
    · rintro ⟨e, he, h⟩; exact ⟨e, he, by rwa [← hcont e he]⟩
    · rintro ⟨e, he, h⟩; exact ⟨e, he, by rwa [hcont e he]⟩
  by_cases hin : inEdgesPts tol l q = true
  · have e1 : Rnd.containsPoint fl tol l q = true := by
      unfold Rnd.containsPoint
      rw [hany, hin]
      split
      · rfl
      · split <;> rfl
    have e2 : containsPoint tol l q = true := by
      unfold containsPoint
      rw [hin]
      split
      · rfl
      · split <;> rfl
    rw [e1, e2]
  · have hapart := grid_apart h1 hl
    have hno : ∀ i : Fin l.length, Seg.contains tol q l[i] (nextV l i) = false := by
      intro i
      rw [← Bool.not_eq_true]
      intro h
      apply hin
      unfold inEdgesPts
      rw [List.any_eq_true]
      exact ⟨(l[i], nextV l i), by rw [cycPairs_eq_finRange]; exact List.mem_map_of_mem (List.mem_finRange i), h⟩
    have hclear : ClearOfEdges l q := by
      intro i
      have hnext : nextV l i ∈ l := by unfold nextV; exact List.getElem_mem _
      have hi : l[i] ∈ l := List.getElem_mem _
      refine grid_clear le_rfl (hl _ hnext) (hl _ hi) hq ?_
      intro y1 y2 ht
      have hq := hno i
      generalize l[i] = a at *
      generalize nextV l i = b at *
      have hne : b.y - a.y ≠ 0 := by
        intro h
        have : b.y = a.y := by linarith
        rw [this, min_self] at y1
        rw [this, max_self] at y2
        linarith
      have hqe : q = lineAt a b ((q.y - a.y) / (b.y - a.y)) := by
        simp only [turn] at ht
        simp only [lineAt]
        have hx : q.x = a.x + (q.y - a.y) / (b.y - a.y) * (b.x - a.x) := by
          field_simp; linarith
        have hy : q.y = a.y + (q.y - a.y) / (b.y - a.y) * (b.y - a.y) := by field_simp; ring
        cases q
        simp only [Pt.mk.injEq] at hx hy ⊢
        exact ⟨hx.trans (by ring), hy.trans (by ring)⟩
      have ht01 : 0 ≤ (q.y - a.y) / (b.y - a.y) ∧ (q.y - a.y) / (b.y - a.y) ≤ 1 := by
        rcases lt_or_gt_of_ne hne with h | h
        · rw [min_eq_left (by linarith)] at y1
          rw [max_eq_right (by linarith)] at y2
          exact ⟨div_nonneg_of_nonpos (by linarith) h.le, by rw [div_le_one_of_neg h]; linarith⟩
        · rw [min_eq_right (by linarith)] at y1
          rw [max_eq_left (by linarith)] at y2
          exact ⟨div_nonneg (by linarith) h.le, by rw [div_le_one h]; linarith⟩
      have := C10_contains_convex_combination tol h0 a b _ ht01.1 ht01.2
      rw [← hqe, hq] at this
      exact absurd this (by simp)
    rw [Bool.eq_iff_iff, C115_containsPoint tol htol l q (fun p hp => grid_dpt (by norm_num) (hl p hp))
      (grid_dpt (by norm_num) hq) hapart hclear, C27_containsPoint_iff_partial tol h0 l q hapart]
    have n1 : ¬ ∃ i : Fin l.length, Rnd.contains fl tol q l[i] (nextV l i) = true := by
      rintro ⟨i, h⟩
      have := hcont (l[i], nextV l i) (by rw [cycPairs_eq_finRange]; exact List.mem_map_of_mem (List.mem_finRange i))
      rw [h, hno i] at this
      exact absurd this (by simp)
    have n2 : ¬ OnSomeEdge tol l q := by
      rintro ⟨i, h⟩
      have := (C11_contains_iff tol h0 q l[i] (nextV l i)).2 h
      rw [hno i] at this
      exact absurd this (by simp)
    exact ⟨fun h => Or.inl (h.resolve_right n1), fun h => Or.inl (h.resolve_right n2)⟩

private theorem fl_mul_neg {x y : ℚ} (hx : 1 / 2 ^ 537 ≤ |x|) (hy : 1 / 2 ^ 537 ≤ |y|) : fl (x * y) < 0 ↔ x * y < 0 := by
  constructor
  · intro h
    by_contra hc
    exact absurd (fl_nonneg (not_lt.1 hc)) (not_le.2 h)
  · intro h
    have hd : IsDouble (-(1 / 2 ^ 1074)) := ⟨-1, -1074, by norm_num, by norm_num, by
      rw [zpow_neg]; push_cast; rw [neg_one_mul, one_div]; rfl⟩
    have hm : 1 / 2 ^ 1074 ≤ |x * y| := by
      rw [abs_mul, show (1 : ℚ) / 2 ^ 1074 = 1 / 2 ^ 537 * (1 / 2 ^ 537) by rw [div_mul_div_comm, ← pow_add]; norm_num]
      exact mul_le_mul hx hy (by positivity) (abs_nonneg _)
    rw [abs_of_neg h] at hm
    have h1 := fl_le_of_double hd (show x * y ≤ -(1 / 2 ^ 1074) by linarith)
    have h2 : (0 : ℚ) < 1 / 2 ^ 1074 := by positivity
    linarith

/-- The three vertices of a corner. -/
def corner (l : List (Pt ℚ)) (i : Fin l.length) : Pt ℚ × Pt ℚ × Pt ℚ :=
  (l[i], nextV l i, l[(i.val + 2) % l.length]'(Nat.mod_lt _ (by have := i.isLt; omega)))

private theorem corner_mem {l : List (Pt ℚ)} {t : Pt ℚ × Pt ℚ × Pt ℚ} (h3 : 3 ≤ l.length) (h : t ∈ cycTriples l) :
    ∃ i : Fin l.length, t = corner l i := by
  obtain ⟨k, hk, rfl⟩ := List.getElem_of_mem h
  have hk' : k < l.length := by rwa [cycTriples_length] at hk
  refine ⟨⟨k, hk'⟩, ?_⟩
  have := cycTriples_getElem h3 k hk'
  rw [List.getElem?_eq_getElem hk] at this
  exact Option.some.inj this

/-- The convexity test depends on the computed products only. -/
private theorem convex_congr (r : ℚ → ℚ) (l : List (Pt ℚ)) (h3 : 3 ≤ l.length)
    (h : ∀ i j : Fin l.length,
      r (Rnd.orientation r (corner l i).1 (corner l i).2.1 (corner l i).2.2 *
        Rnd.orientation r (corner l j).1 (corner l j).2.1 (corner l j).2.2) < 0 ↔ turnAt l i * turnAt l j < 0) :
    Rnd.isConvex r l = isConvex l := by
  match l, h3, h with
  | a :: b :: c :: l, h3, h =>
    simp only [Rnd.isConvex, isConvex]
    congr 1
    have h0 : corner (a :: b :: c :: l) ⟨0, by omega⟩ = (a, b, c) := by
      unfold corner nextV
      simp only [List.length_cons]
      have e1 : (0 + 1) % (l.length + 1 + 1 + 1) = 1 := Nat.mod_eq_of_lt (by omega)
      have e2 : (0 + 2) % (l.length + 1 + 1 + 1) = 2 := Nat.mod_eq_of_lt (by omega)
      simp only [e1, e2]
      rfl
    have ht0 : turnAt (a :: b :: c :: l) ⟨0, by omega⟩ = orientation a b c := by
      have : turnAt (a :: b :: c :: l) ⟨0, by omega⟩ = turn (corner (a :: b :: c :: l) ⟨0, by omega⟩).1
        (corner (a :: b :: c :: l) ⟨0, by omega⟩).2.1 (corner (a :: b :: c :: l) ⟨0, by omega⟩).2.2 := rfl
      rw [this, h0]; rfl
    rw [Bool.eq_iff_iff, List.all_eq_true, List.all_eq_true]
    refine forall₂_congr fun t ht => ?_
    obtain ⟨j, rfl⟩ := corner_mem h3 (List.mem_of_mem_tail ht)
    have := h ⟨0, by omega⟩ j
    rw [h0, ht0] at this
    rw [decide_eq_true_eq, decide_eq_true_eq, not_iff_not]
    exact this

private theorem corner_verts {P : Pt ℚ → Prop} {l : List (Pt ℚ)} (hl : ∀ p ∈ l, P p) (i : Fin l.length) :
    P (corner l i).1 ∧ P (corner l i).2.1 ∧ P (corner l i).2.2 :=
  ⟨hl _ (List.getElem_mem _), hl _ (by unfold corner nextV; exact List.getElem_mem _), hl _ (List.getElem_mem _)⟩

/-- C117: `isConvex` in binary64 arithmetic answers as in exact arithmetic if every turn exceeds the
rounding error (and the square root of the smallest number). -/
theorem C117_isConvex_partial (l : List (Pt ℚ)) (h3 : 3 ≤ l.length) (hl : ∀ p ∈ l, DPt p)
    (h : ∀ i : Fin l.length, (gRnd ^ 4 - 1) * turnSize (corner l i).1 (corner l i).2.1 (corner l i).2.2 +
      gRnd * (2 * etaRnd) + 1 / 2 ^ 537 ≤ |turnAt l i|) :
    Rnd.isConvex fl l = isConvex l := by
  apply convex_congr fl l h3
  have hpos : (0 : ℚ) < 1 / 2 ^ 537 := by positivity
  have key : ∀ i : Fin l.length, ∃ x, x = Rnd.orientation fl (corner l i).1 (corner l i).2.1 (corner l i).2.2 ∧
      1 / 2 ^ 537 ≤ |x| ∧ (0 < x ↔ 0 < turnAt l i) ∧ (x < 0 ↔ turnAt l i < 0) := by
    intro i
    obtain ⟨d1, d2, d3⟩ := corner_verts hl i
    refine ⟨_, rfl, ?_, ?_⟩
    · have h1 := C90_error _ _ _ d1 d2 d3
      have h2 := abs_sub_abs_le_abs_sub (turnAt l i)
        (Rnd.orientation fl (corner l i).1 (corner l i).2.1 (corner l i).2.2)
      rw [abs_sub_comm] at h2
      have h3 : turnAt l i = turn (corner l i).1 (corner l i).2.1 (corner l i).2.2 := rfl
      rw [← h3] at h1
      have := h i
      linarith
    · refine C90_sign_partial _ _ _ d1 d2 d3 ?_
      have h3 : turnAt l i = turn (corner l i).1 (corner l i).2.1 (corner l i).2.2 := rfl
      rw [← h3]
      have := h i
      linarith
  intro i j
  obtain ⟨x, hx, x1, x2, x3⟩ := key i
  obtain ⟨y, hy, y1, y2, y3⟩ := key j
  rw [← hx, ← hy, fl_mul_neg x1 y1, mul_neg_iff, mul_neg_iff, x2, x3, y2, y3]

/-- C117: for integer coordinates below `2^25` the convexity test is exact, collinear corners
included. -/
theorem C117_grid (l : List (Pt ℚ)) (h3 : 3 ≤ l.length) (hl : ∀ p ∈ l, OnGrid 33554431 p) :
    Rnd.isConvex fl l = isConvex l := by
  apply convex_congr fl l h3
  intro i j
  obtain ⟨d1, d2, d3⟩ := corner_verts hl i
  obtain ⟨f1, f2, f3⟩ := corner_verts hl j
  rw [(C116_orientation 0 _ le_rfl _ _ _ d1 d2 d3).1, (C116_orientation 0 _ le_rfl _ _ _ f1 f2 f3).1]
  have hi : turnAt l i = turn (corner l i).1 (corner l i).2.1 (corner l i).2.2 := rfl
  have hj : turnAt l j = turn (corner l j).1 (corner l j).2.1 (corner l j).2.2 := rfl
  rw [← hi, ← hj]
  have int : ∀ i : Fin l.length, ∃ n : Int, turnAt l i = n := by
    intro i
    obtain ⟨⟨ax, ay, e1, _⟩, ⟨bx, bY, e2, _⟩, ⟨cx, cy, e3, _⟩⟩ := corner_verts hl i
    refine ⟨(bx - ax) * (cy - ay) - (bY - ay) * (cx - ax), ?_⟩
    have hi : turnAt l i = turn (corner l i).1 (corner l i).2.1 (corner l i).2.2 := rfl
    rw [hi, e1, e2, e3]
    simp only [turn]; push_cast; ring
  obtain ⟨n, hn⟩ := int i
  obtain ⟨m, hm⟩ := int j
  rw [hn, hm]
  have big : ∀ k : Int, k ≠ 0 → (1 : ℚ) / 2 ^ 537 ≤ |(k : ℚ)| := by
    intro k hk
    have h1 : (1 : ℚ) ≤ |(k : ℚ)| := by exact_mod_cast Int.one_le_abs hk
    refine le_trans ?_ h1
    rw [div_le_one (by positivity)]
    exact one_le_pow₀ (by norm_num)
  by_cases h1 : n = 0
  · rw [h1]; simp [fl_zero]
  · by_cases h2 : m = 0
    · rw [h2]; simp [fl_zero]
    · exact fl_mul_neg (big n h1) (big m h2)

/-- C117: whenever the differences of the coordinates are binary64 numbers (for instance for all
integers up to `2^52`), a polygon that turns only one way is accepted. -/
theorem C117_accepts_partial (l : List (Pt ℚ)) (h3 : 3 ≤ l.length)
    (hd : ∀ a ∈ l, ∀ b ∈ l, IsDouble (a.x - b.x) ∧ IsDouble (a.y - b.y))
    (h : (∀ i, 0 ≤ turnAt l i) ∨ (∀ i, turnAt l i ≤ 0)) : Rnd.isConvex fl l = .ok true := by
  have key : ∀ i : Fin l.length,
      (0 ≤ turnAt l i → 0 ≤ Rnd.orientation fl (corner l i).1 (corner l i).2.1 (corner l i).2.2) ∧
      (turnAt l i ≤ 0 → Rnd.orientation fl (corner l i).1 (corner l i).2.1 (corner l i).2.2 ≤ 0) := by
    intro i
    obtain ⟨d1, d2, d3⟩ := corner_verts (P := fun p => p ∈ l) (fun p hp => hp) i
    exact C90_never_opposite_partial _ _ _ (hd _ d2 _ d1).1 (hd _ d2 _ d1).2 (hd _ d3 _ d1).1 (hd _ d3 _ d1).2
  match l, h3, h, key with
  | a :: b :: c :: l, h3, h, key =>
    simp only [Rnd.isConvex]
    congr 1
    have h0 : corner (a :: b :: c :: l) ⟨0, by omega⟩ = (a, b, c) := by
      unfold corner nextV
      simp only [List.length_cons]
      have e1 : (0 + 1) % (l.length + 1 + 1 + 1) = 1 := Nat.mod_eq_of_lt (by omega)
      have e2 : (0 + 2) % (l.length + 1 + 1 + 1) = 2 := Nat.mod_eq_of_lt (by omega)
      simp only [e1, e2]
      rfl
    have k0 := key ⟨0, by omega⟩
    rw [h0] at k0
    rw [List.all_eq_true]
    intro t ht
    obtain ⟨j, rfl⟩ := corner_mem h3 (List.mem_of_mem_tail ht)
    rw [decide_eq_true_eq, not_lt]
    apply fl_nonneg
    rcases h with h | h
    · exact mul_nonneg (k0.1 (h _)) ((key j).1 (h _))
    · exact mul_nonneg_of_nonpos_of_nonpos (k0.2 (h _)) ((key j).2 (h _))

/-- C117: in general a strictly convex quadrilateral is rejected ... -/
theorem C117_rejected_refuted : ∃ l : List (Pt ℚ), (∀ p ∈ l, DPt p) ∧ StrictlyConvexCCW l ∧
    Rnd.isConvex fl l = .ok false := by
  refine ⟨[⟨fl (-12 / 10), fl (114 / 10)⟩, ⟨fl (18 / 10), fl (39 / 10)⟩, ⟨fl (38 / 10), fl (53 / 10)⟩,
    ⟨fl (5799999999999999 / 1000000000000000), fl (6699999999999999 / 1000000000000000)⟩], ?_, ?_, by decide +kernel⟩
  · intro p hp
    simp only [List.mem_cons, List.not_mem_nil, or_false] at hp
    rcases hp with rfl | rfl | rfl | rfl <;> exact ⟨fl_isDouble _, fl_isDouble _⟩
  · unfold StrictlyConvexCCW; decide +kernel

/-- C117: ... and a quadrilateral with a reflex corner, which the exact test rejects, is accepted (with
integer coordinates below `2^30`). -/
theorem C117_accepted_refuted : ∃ (l : List (Pt ℚ)) (i : Fin l.length), (∀ p ∈ l, OnGrid 1073741824 p) ∧
    turnAt l i < 0 ∧ isConvex l = .ok false ∧ Rnd.isConvex fl l = .ok true := by
  refine ⟨[⟨-100000000, 1000000000⟩, ⟨0, 0⟩, ⟨267914296, 433494437⟩, ⟨433494437, 701408733⟩], (1 : Fin 4), ?_,
    by decide +kernel, by decide +kernel, by decide +kernel⟩
  intro p hp
  simp only [List.mem_cons, List.not_mem_nil, or_false] at hp
  rcases hp with rfl | rfl | rfl | rfl
  · exact ⟨-100000000, 1000000000, by norm_num, by norm_num, by norm_num⟩
  · exact ⟨0, 0, by norm_num, by norm_num, by norm_num⟩
  · exact ⟨267914296, 433494437, by norm_num, by norm_num, by norm_num⟩
  · exact ⟨433494437, 701408733, by norm_num, by norm_num, by norm_num⟩

/-- A polygon to which the first theorem applies, and one on the grid with a straight corner. -/
example : (∀ i : Fin [(⟨fl (1 / 10), fl (1 / 10)⟩ : Pt ℚ), ⟨fl (9 / 10), fl (2 / 10)⟩, ⟨fl (3 / 10), fl (8 / 10)⟩].length,
    (gRnd ^ 4 - 1) * turnSize
      (corner [(⟨fl (1 / 10), fl (1 / 10)⟩ : Pt ℚ), ⟨fl (9 / 10), fl (2 / 10)⟩, ⟨fl (3 / 10), fl (8 / 10)⟩] i).1
      (corner [(⟨fl (1 / 10), fl (1 / 10)⟩ : Pt ℚ), ⟨fl (9 / 10), fl (2 / 10)⟩, ⟨fl (3 / 10), fl (8 / 10)⟩] i).2.1
      (corner [(⟨fl (1 / 10), fl (1 / 10)⟩ : Pt ℚ), ⟨fl (9 / 10), fl (2 / 10)⟩, ⟨fl (3 / 10), fl (8 / 10)⟩] i).2.2 +
      gRnd * (2 * etaRnd) + 1 / 2 ^ 537 ≤
    |turnAt [(⟨fl (1 / 10), fl (1 / 10)⟩ : Pt ℚ), ⟨fl (9 / 10), fl (2 / 10)⟩, ⟨fl (3 / 10), fl (8 / 10)⟩] i|) ∧
    Rnd.isConvex fl [⟨0, 0⟩, ⟨4, 0⟩, ⟨4, 4⟩, ⟨2, 4⟩, ⟨0, 4⟩] = .ok true := by
  constructor <;> decide +kernel

/-- Points on the grid. -/
example : (∀ p ∈ [(⟨0, 0⟩ : Pt ℚ), ⟨8388608, 1⟩, ⟨-3, 7000000⟩], OnGrid 8388608 p) ∧
    Rnd.containsPoint fl (fl (1 / 100000)) [⟨0, 0⟩, ⟨8388608, 1⟩, ⟨-3, 7000000⟩] ⟨8388607, 1⟩ = true ∧
    Rnd.containsPoint fl (fl (1 / 100000)) [⟨0, 0⟩, ⟨8388608, 1⟩, ⟨-3, 7000000⟩] ⟨8388607, 2⟩ = false := by
  refine ⟨?_, by decide +kernel, by decide +kernel⟩
  intro p hp
  simp only [List.mem_cons, List.not_mem_nil, or_false] at hp
  rcases hp with rfl | rfl | rfl
  · exact ⟨0, 0, by norm_num, by norm_num, by norm_num⟩
  · exact ⟨8388608, 1, by norm_num, by norm_num, by norm_num⟩
  · exact ⟨-3, 7000000, by norm_num, by norm_num, by norm_num⟩

end Delynoi
