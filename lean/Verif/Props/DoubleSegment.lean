import Verif.Props.DoubleInt
import Verif.Props.Triangle
/-!
# C118, C119: intersections of segments and circumcenters in binary64 arithmetic
-/
set_option linter.unusedSectionVars false
namespace Delynoi

private theorem bnd {x y A B : Int} (hx : |x| ≤ A) (hy : |y| ≤ B) : |x * y| ≤ A * B := by
  rw [abs_mul]; exact mul_le_mul hx hy (abs_nonneg _) ((abs_nonneg _).trans hx)

private theorem bnd_add {x y A B : Int} (hx : |x| ≤ A) (hy : |y| ≤ B) : |x + y| ≤ A + B :=
  (abs_add_le x y).trans (add_le_add hx hy)

private theorem bnd_sub {x y A B : Int} (hx : |x| ≤ A) (hy : |y| ≤ B) : |x - y| ≤ A + B :=
  (abs_sub x y).trans (add_le_add hx hy)

private theorem fl_sub_int {x y N : Int} (hN : N ≤ 33554431) (hx : |x| ≤ N) (hy : |y| ≤ N) :
    fl ((x : ℚ) - y) = ((x - y : Int) : ℚ) := by
  rw [← Int.cast_sub]
  exact fl_int ((bnd_sub hx hy).trans_lt (by omega))

/-- A sum of two products of integers is exact. -/
private theorem fl_prods {a b c d A : Int} (hA : A * A ≤ 4503599493152770) (ha : |a| ≤ A) (hb : |b| ≤ A)
    (hc : |c| ≤ A) (hd : |d| ≤ A) :
    fl (fl ((a : ℚ) * b) + fl ((c : ℚ) * d)) = a * b + c * d ∧ fl (fl ((a : ℚ) * b) - fl ((c : ℚ) * d)) = a * b - c * d := by
  have p1 := bnd ha hb
  have p2 := bnd hc hd
  rw [← Int.cast_mul, ← Int.cast_mul, fl_int (p1.trans_lt (by omega)), fl_int (p2.trans_lt (by omega)),
    ← Int.cast_add, ← Int.cast_sub, fl_int ((bnd_add p1 p2).trans_lt (by omega)),
    fl_int ((bnd_sub p1 p2).trans_lt (by omega))]
  exact ⟨rfl, rfl⟩

/-- On the grid the numerators and the denominator are exact. -/
private theorem grid_exact {N : Int} (hN : N ≤ 33554431) {p1 p2 o1 o2 : Pt ℚ} (h1 : OnGrid N p1) (h2 : OnGrid N p2)
    (h3 : OnGrid N o1) (h4 : OnGrid N o2) :
    Rnd.den fl p1 p2 o1 o2 = Seg.den p1 p2 o1 o2 ∧ Rnd.numS fl p1 p2 o1 = Seg.numS p1 p2 o1 ∧
    Rnd.numT fl p1 o1 o2 = Seg.numT p1 o1 o2 ∧ fl (p2.x - p1.x) = p2.x - p1.x ∧ fl (p2.y - p1.y) = p2.y - p1.y := by
  obtain ⟨ax, ay, rfl, a1, a2⟩ := h1
  obtain ⟨bx, bY, rfl, b1, b2⟩ := h2
  obtain ⟨cx, cy, rfl, c1, c2⟩ := h3
  obtain ⟨dx, dy, rfl, d1, d2⟩ := h4
  have hN0 : 0 ≤ N := (abs_nonneg _).trans a1
  have hA : (N + N) * (N + N) ≤ 4503599493152770 := by
    have : (N + N) * (N + N) ≤ 67108862 * 67108862 := mul_le_mul (by omega) (by omega) (by omega) (by omega)
    omega
  have neg : ∀ {x A : Int}, |x| ≤ A → |-x| ≤ A := fun h => by rwa [abs_neg]
  simp only [Rnd.den, Rnd.numS, Rnd.numT, Seg.den, Seg.numS, Seg.numT, fl_sub_int hN d1 c1, fl_sub_int hN b2 a2,
    fl_sub_int hN b1 a1, fl_sub_int hN d2 c2, fl_sub_int hN a1 c1, fl_sub_int hN a2 c2, ← Int.cast_neg]
  refine ⟨?_, ?_, ?_, by push_cast; ring, by push_cast; ring⟩
  · rw [(fl_prods hA (neg (bnd_sub d1 c1)) (bnd_sub b2 a2) (bnd_sub b1 a1) (bnd_sub d2 c2)).1]; push_cast; ring
  · rw [(fl_prods hA (neg (bnd_sub b2 a2)) (bnd_sub a1 c1) (bnd_sub b1 a1) (bnd_sub a2 c2)).1]; push_cast; ring
  · rw [(fl_prods hA (bnd_sub d1 c1) (bnd_sub a2 c2) (bnd_sub d2 c2) (bnd_sub a1 c1)).2]; push_cast; ring

/-- A bound of the error of one coordinate of the intersection point: `a` and `b` are the coordinates
of the ends of the first segment, `x` that of the intersection. -/
def interErr (a b x : ℚ) : ℚ :=
  (gRnd ^ 3 - 1) * (|a| + |x - a|) + gRnd * (gRnd * (etaRnd * |b - a|) + etaRnd)

private theorem along_err {a b t : ℚ} (ha : IsDouble a) :
    |fl (a + fl (fl t * (b - a))) - (a + t * (b - a))| ≤ interErr a b (a + t * (b - a)) := by
  have h1 : Apx 1 etaRnd (fl t) t |t| := by
    have := (Apx.exact t).fl
    exact this.mono le_rfl (by rw [mul_zero, zero_add])
  have h2 := (h1.mul_abs (Apx.exact (b - a))).fl
  rw [pow_zero, one_mul, ← abs_mul] at h2
  have h3 : Apx 2 0 a a |a| := (Apx.exact a).mono (by omega) le_rfl
  have h4 := (h3.add h2).flRel (fl_add_error ha (fl_isDouble _))
  rw [zero_add] at h4
  unfold interErr
  rw [show a + t * (b - a) - a = t * (b - a) by ring]
  exact h4.err

/-- C118: for integer coordinates below `2^25`, every intersection that `intersects` finds in exact
arithmetic is found in binary64 arithmetic, up to the rounding error of the coordinates. -/
theorem C118_complete (tol : ℚ) (p1 p2 o1 o2 q : Pt ℚ) (h1 : OnGrid 33554431 p1) (h2 : OnGrid 33554431 p2)
    (h3 : OnGrid 33554431 o1) (h4 : OnGrid 33554431 o2) (h : Seg.intersects tol p1 p2 o1 o2 = some q) :
    ∃ q', Rnd.intersects fl tol p1 p2 o1 o2 = some q' ∧ |q'.x - q.x| ≤ interErr p1.x p2.x q.x ∧
      |q'.y - q.y| ≤ interErr p1.y p2.y q.y := by
  obtain ⟨e1, e2, e3, e4, e5⟩ := grid_exact le_rfl h1 h2 h3 h4
  unfold Seg.intersects at h
  simp only at h
  split at h
  · exact absurd h (by simp)
  · next hd =>
    split at h
    · next hr =>
      obtain ⟨r1, r2, r3, r4⟩ := hr
      have hq := Option.some.inj h
      unfold Rnd.intersects
      simp only [e1, e2, e3]
      rw [if_neg hd, if_pos ⟨fl_mono r1, fl_mono r2, fl_mono r3, fl_mono r4⟩]
      have hdp : DPt p1 := by
        obtain ⟨x, y, rfl, a1, a2⟩ := h1
        exact ⟨isDouble_int x (by norm_num; omega), isDouble_int y (by norm_num; omega)⟩
      refine ⟨_, rfl, ?_, ?_⟩
      · simp only [Rnd.along, ← hq, e4]; exact along_err hdp.1
      · simp only [Rnd.along, ← hq, e5]; exact along_err hdp.2
    · exact absurd h (by simp)

/-- C118: conversely, whatever is found is found by the exact test with a tolerance larger by
`2^-50`. -/
theorem C118_sound (tol : ℚ) (h0 : 0 ≤ tol) (ht1 : tol ≤ 1) (p1 p2 o1 o2 q' : Pt ℚ) (h1 : OnGrid 33554431 p1)
    (h2 : OnGrid 33554431 p2) (h3 : OnGrid 33554431 o1) (h4 : OnGrid 33554431 o2)
    (h : Rnd.intersects fl tol p1 p2 o1 o2 = some q') :
    ∃ q, Seg.intersects (tol + 1 / 2 ^ 50) p1 p2 o1 o2 = some q ∧ |q'.x - q.x| ≤ interErr p1.x p2.x q.x ∧
      |q'.y - q.y| ≤ interErr p1.y p2.y q.y := by
  obtain ⟨e1, e2, e3, e4, e5⟩ := grid_exact le_rfl h1 h2 h3 h4
  have hdp : DPt p1 := by
    obtain ⟨x, y, rfl, a1, a2⟩ := h1
    exact ⟨isDouble_int x (by norm_num; omega), isDouble_int y (by norm_num; omega)⟩
  unfold Rnd.intersects at h
  simp only [e1, e2, e3] at h
  split at h
  · exact absurd h (by simp)
  · next hd =>
    split at h
    · next hr =>
      obtain ⟨r1, r2, r3, r4⟩ := hr
      have hq := Option.some.inj h
      have hu : uRnd = 1 / 2 ^ 53 := rfl
      have he : etaRnd ≤ 1 / 2 ^ 60 := by decide +kernel
      have lo : ∀ x : ℚ, fl x ≥ fl (0 - tol) → x ≥ 0 - (tol + 1 / 2 ^ 50) := by
        intro x hx
        by_contra hc
        push Not at hc
        have f1 := abs_le.1 (fl_error_add x)
        have f2 := abs_le.1 (fl_error_add (0 - tol))
        rw [abs_of_neg (by have : (0:ℚ) < 1 / 2 ^ 50 := by positivity
                           linarith), hu] at f1
        rw [abs_of_nonpos (by linarith), hu] at f2
        norm_num at f1 f2 hc he hx
        linarith [f1.2, f2.1]
      have hi : ∀ x : ℚ, fl x ≤ fl (1 + tol) → x ≤ 1 + (tol + 1 / 2 ^ 50) := by
        intro x hx
        by_contra hc
        push Not at hc
        have f1 := abs_le.1 (fl_error_add x)
        have f2 := abs_le.1 (fl_error_add (1 + tol))
        rw [abs_of_pos (by have : (0:ℚ) < 1 / 2 ^ 50 := by positivity
                           linarith), hu] at f1
        rw [abs_of_nonneg (by linarith), hu] at f2
        norm_num at f1 f2 hc he
        linarith [f1.1, f2.2]
      unfold Seg.intersects
      simp only
      rw [if_neg hd, if_pos ⟨lo _ r1, hi _ r2, lo _ r3, hi _ r4⟩]
      refine ⟨_, rfl, ?_, ?_⟩
      · simp only [← hq, Rnd.along, e4]; exact along_err hdp.1
      · simp only [← hq, Rnd.along, e5]; exact along_err hdp.2
    · exact absurd h (by simp)

/-- C118: parallel segments on the grid are never reported. -/
theorem C118_parallel (tol : ℚ) (p1 p2 o1 o2 : Pt ℚ) (h1 : OnGrid 33554431 p1) (h2 : OnGrid 33554431 p2)
    (h3 : OnGrid 33554431 o1) (h4 : OnGrid 33554431 o2) (h : Parallel p1 p2 o1 o2) :
    Rnd.intersects fl tol p1 p2 o1 o2 = none := by
  obtain ⟨e1, _⟩ := grid_exact le_rfl h1 h2 h3 h4
  have : Seg.den p1 p2 o1 o2 = 0 := by
    unfold Parallel at h; unfold Seg.den; linear_combination h
  unfold Rnd.intersects
  simp only [e1]
  rw [if_pos this]

/-- C118 fails for larger coordinates: two segments with a common end are computed to be parallel, and
the intersection is missed (integer coordinates below `2^29`). -/
theorem C118_missed_refuted : ∃ p1 p2 o1 o2 q : Pt ℚ,
    (∀ p ∈ [p1, p2, o1, o2], OnGrid 536870912 p) ∧ q = p1 ∧ q = o1 ∧ ¬ Parallel p1 p2 o1 o2 ∧
    Seg.intersects (fl (1 / 100000)) p1 p2 o1 o2 = some q ∧
    Rnd.intersects fl (fl (1 / 100000)) p1 p2 o1 o2 = none := by
  refine ⟨⟨0, 0⟩, ⟨165580141, 267914296⟩, ⟨0, 0⟩, ⟨267914296, 433494437⟩, ⟨0, 0⟩, ?_, rfl, rfl,
    by unfold Parallel; decide +kernel, by decide +kernel, by decide +kernel⟩
  intro p hp
  simp only [List.mem_cons, List.not_mem_nil, or_false] at hp
  rcases hp with rfl | rfl | rfl | rfl
  · exact ⟨0, 0, by norm_num, by norm_num, by norm_num⟩
  · exact ⟨165580141, 267914296, by norm_num, by norm_num, by norm_num⟩
  · exact ⟨0, 0, by norm_num, by norm_num, by norm_num⟩
  · exact ⟨267914296, 433494437, by norm_num, by norm_num, by norm_num⟩

example : Seg.intersects (fl (1 / 100000)) (⟨0, 0⟩ : Pt ℚ) ⟨7, 2⟩ ⟨1, 3⟩ ⟨3, -2⟩ = some ⟨77 / 39, 22 / 39⟩ ∧
    Rnd.intersects fl (fl (1 / 100000)) ⟨0, 0⟩ ⟨7, 2⟩ ⟨1, 3⟩ ⟨3, -2⟩ ≠ some ⟨77 / 39, 22 / 39⟩ ∧
    interErr 0 7 (77 / 39) < 1 / 10 ^ 14 := by decide +kernel

/-! ### C119: circumcenters -/

private theorem sum3_int {u1 v1 u2 v2 u3 v3 U V : Int} (h : U * V ≤ 3002399751580330) (a1 : |u1| ≤ U) (b1 : |v1| ≤ V)
    (a2 : |u2| ≤ U) (b2 : |v2| ≤ V) (a3 : |u3| ≤ U) (b3 : |v3| ≤ V) :
    Rnd.sum3 fl u1 v1 u2 v2 u3 v3 = ((u1 * v1 + u2 * v2 + u3 * v3 : Int) : ℚ) := by
  have p1 := bnd a1 b1
  have p2 := bnd a2 b2
  have p3 := bnd a3 b3
  unfold Rnd.sum3
  rw [← Int.cast_mul, ← Int.cast_mul, ← Int.cast_mul, fl_int (p1.trans_lt (by omega)),
    fl_int (p2.trans_lt (by omega)), fl_int (p3.trans_lt (by omega)), ← Int.cast_add,
    fl_int ((bnd_add p1 p2).trans_lt (by omega)), ← Int.cast_add,
    fl_int ((bnd_add (bnd_add p1 p2) p3).trans_lt (by omega))]

private theorem sqNorm_int {x y N : Int} (hN : N ≤ 65536) (hx : |x| ≤ N) (hy : |y| ≤ N) :
    Rnd.sqNorm fl ⟨x, y⟩ = ((x * x + y * y : Int) : ℚ) ∧ |x * x + y * y| ≤ 8589934592 := by
  have hN0 : 0 ≤ N := (abs_nonneg _).trans hx
  have p1 := bnd hx hx
  have p2 := bnd hy hy
  have hsq : N * N ≤ 65536 * 65536 := mul_le_mul (by omega) (by omega) (by omega) (by omega)
  have p3 := bnd_add p1 p2
  refine ⟨?_, by omega⟩
  unfold Rnd.sqNorm
  simp only
  rw [← Int.cast_mul, ← Int.cast_mul, fl_int (p1.trans_lt (by omega)), fl_int (p2.trans_lt (by omega)),
    ← Int.cast_add, fl_int (p3.trans_lt (by omega))]

/-- C119: for integer coordinates up to `2^16` the circumcenter is the exact one, rounded once. -/
theorem C119_circumcenter (a b c : Pt ℚ) (ha : OnGrid 65536 a) (hb : OnGrid 65536 b) (hc : OnGrid 65536 c) :
    Rnd.circumcenter fl a b c = (circumcenter a b c).map (fun q => ⟨fl q.x, fl q.y⟩) := by
  obtain ⟨ax, ay, rfl, a1, a2⟩ := ha
  obtain ⟨bx, bY, rfl, b1, b2⟩ := hb
  obtain ⟨cx, cy, rfl, c1, c2⟩ := hc
  obtain ⟨na, na'⟩ := sqNorm_int le_rfl a1 a2
  obtain ⟨nb, nb'⟩ := sqNorm_int le_rfl b1 b2
  obtain ⟨nc, nc'⟩ := sqNorm_int le_rfl c1 c2
  have hN : (65536 : Int) ≤ 33554431 := by norm_num
  have hs : ∀ {x y : Int}, |x| ≤ 65536 → |y| ≤ 65536 → |x - y| ≤ 131072 := fun hx hy => bnd_sub hx hy
  have hd : Rnd.circumD fl ⟨(ax : ℚ), ay⟩ ⟨bx, bY⟩ ⟨cx, cy⟩ = circumD (⟨(ax : ℚ), ay⟩ : Pt ℚ) ⟨bx, bY⟩ ⟨cx, cy⟩ := by
    unfold Rnd.circumD circumD
    simp only [fl_sub_int hN b2 c2, fl_sub_int hN c2 a2, fl_sub_int hN a2 b2]
    rw [sum3_int (U := 65536) (V := 131072) (by norm_num) a1 (hs b2 c2) b1 (hs c2 a2) c1 (hs a2 b2)]
    have k := bnd_add (bnd_add (bnd a1 (hs b2 c2)) (bnd b1 (hs c2 a2))) (bnd c1 (hs a2 b2))
    rw [show (2 : ℚ) = ((2 : Int) : ℚ) by norm_num, ← Int.cast_mul, fl_int (by
      rw [abs_mul]; norm_num at k ⊢; omega)]
    push_cast; ring
  have hx : Rnd.sum3 fl (Rnd.sqNorm fl ⟨(ax : ℚ), ay⟩) (fl ((bY : ℚ) - cy)) (Rnd.sqNorm fl ⟨(bx : ℚ), bY⟩)
      (fl ((cy : ℚ) - ay)) (Rnd.sqNorm fl ⟨(cx : ℚ), cy⟩) (fl ((ay : ℚ) - bY)) =
      sqNorm (⟨(ax : ℚ), ay⟩ : Pt ℚ) * ((bY : ℚ) - cy) + sqNorm (⟨(bx : ℚ), bY⟩ : Pt ℚ) * ((cy : ℚ) - ay) +
        sqNorm (⟨(cx : ℚ), cy⟩ : Pt ℚ) * ((ay : ℚ) - bY) := by
    rw [na, nb, nc, fl_sub_int hN b2 c2, fl_sub_int hN c2 a2, fl_sub_int hN a2 b2,
      sum3_int (U := 8589934592) (V := 131072) (by norm_num) na' (hs b2 c2) nb' (hs c2 a2) nc' (hs a2 b2)]
    unfold sqNorm; push_cast; ring
  have hy : Rnd.sum3 fl (Rnd.sqNorm fl ⟨(ax : ℚ), ay⟩) (fl ((cx : ℚ) - bx)) (Rnd.sqNorm fl ⟨(bx : ℚ), bY⟩)
      (fl ((ax : ℚ) - cx)) (Rnd.sqNorm fl ⟨(cx : ℚ), cy⟩) (fl ((bx : ℚ) - ax)) =
      sqNorm (⟨(ax : ℚ), ay⟩ : Pt ℚ) * ((cx : ℚ) - bx) + sqNorm (⟨(bx : ℚ), bY⟩ : Pt ℚ) * ((ax : ℚ) - cx) +
        sqNorm (⟨(cx : ℚ), cy⟩ : Pt ℚ) * ((bx : ℚ) - ax) := by
    rw [na, nb, nc, fl_sub_int hN c1 b1, fl_sub_int hN a1 c1, fl_sub_int hN b1 a1,
      sum3_int (U := 8589934592) (V := 131072) (by norm_num) na' (hs c1 b1) nb' (hs a1 c1) nc' (hs b1 a1)]
    unfold sqNorm; push_cast; ring
  unfold Rnd.circumcenter circumcenter
  simp only [hd]
  split
  · rfl
  · rw [hx, hy]; rfl

/-- C119: hence triangles on one circle get the very same circumcenter, in every order of the
vertices. -/
theorem C119_cocircular (a b c a' b' c' q : Pt ℚ) (r2 : ℚ) (h : ∀ p ∈ [a, b, c, a', b', c'], OnGrid 65536 p ∧
    sqDist q p = r2) (h1 : turn a b c ≠ 0) (h2 : turn a' b' c' ≠ 0) :
    Rnd.circumcenter fl a b c = some ⟨fl q.x, fl q.y⟩ ∧ Rnd.circumcenter fl a' b' c' = some ⟨fl q.x, fl q.y⟩ := by
  simp only [List.mem_cons, List.not_mem_nil, or_false] at h
  have ha := h a (by simp); have hb := h b (by simp); have hc := h c (by simp)
  have ha' := h a' (by simp); have hb' := h b' (by simp); have hc' := h c' (by simp)
  rw [C119_circumcenter a b c ha.1 hb.1 hc.1, C119_circumcenter a' b' c' ha'.1 hb'.1 hc'.1,
    (C37_circumcenter a b c q h1).2 ⟨by rw [ha.2, hb.2], by rw [ha.2, hc.2]⟩,
    (C37_circumcenter a' b' c' q h2).2 ⟨by rw [ha'.2, hb'.2], by rw [ha'.2, hc'.2]⟩]
  exact ⟨rfl, rfl⟩

/-- Two triangles of a unit cell of a grid, far from the origin; the center is not a grid point. -/
example : (∀ p ∈ [(⟨40000, 30000⟩ : Pt ℚ), ⟨40001, 30000⟩, ⟨40001, 30001⟩, ⟨40001, 30001⟩, ⟨40000, 30001⟩, ⟨40000, 30000⟩],
    OnGrid 65536 p ∧ sqDist (⟨80001 / 2, 60001 / 2⟩ : Pt ℚ) p = 1 / 2) ∧
    turn (⟨40000, 30000⟩ : Pt ℚ) ⟨40001, 30000⟩ ⟨40001, 30001⟩ ≠ 0 := by
  refine ⟨?_, by decide +kernel⟩
  intro p hp
  simp only [List.mem_cons, List.not_mem_nil, or_false] at hp
  rcases hp with rfl | rfl | rfl | rfl | rfl | rfl <;> refine ⟨?_, by decide +kernel⟩
  · exact ⟨40000, 30000, by norm_num, by norm_num, by norm_num⟩
  · exact ⟨40001, 30000, by norm_num, by norm_num, by norm_num⟩
  · exact ⟨40001, 30001, by norm_num, by norm_num, by norm_num⟩
  · exact ⟨40001, 30001, by norm_num, by norm_num, by norm_num⟩
  · exact ⟨40000, 30001, by norm_num, by norm_num, by norm_num⟩
  · exact ⟨40000, 30000, by norm_num, by norm_num, by norm_num⟩

/-- C119 fails for larger coordinates: the two triangles of a unit cell of a grid (integer coordinates
below `2^27`) get circumcenters that differ by 1 in both coordinates. -/
theorem C119_split_refuted : ∃ a b c d : Pt ℚ, (∀ p ∈ [a, b, c, d], OnGrid 134217728 p) ∧
    circumcenter a b c = circumcenter c d a ∧
    ∃ u v, Rnd.circumcenter fl a b c = some u ∧ Rnd.circumcenter fl c d a = some v ∧ |u.x - v.x| = 1 ∧ |u.y - v.y| = 1 := by
  refine ⟨⟨84268959, 66178016⟩, ⟨84268960, 66178016⟩, ⟨84268960, 66178017⟩, ⟨84268959, 66178017⟩, ?_,
    by decide +kernel, ⟨84268960, 66178016⟩, ⟨84268959, 66178017⟩, by decide +kernel, by decide +kernel,
    by norm_num, by norm_num⟩
  intro p hp
  simp only [List.mem_cons, List.not_mem_nil, or_false] at hp
  rcases hp with rfl | rfl | rfl | rfl
  · exact ⟨84268959, 66178016, by norm_num, by norm_num, by norm_num⟩
  · exact ⟨84268960, 66178016, by norm_num, by norm_num, by norm_num⟩
  · exact ⟨84268960, 66178017, by norm_num, by norm_num, by norm_num⟩
  · exact ⟨84268959, 66178017, by norm_num, by norm_num, by norm_num⟩

end Delynoi
