import Verif.Props.Region
import Verif.Props.Generator
import Verif.Props.Contain
import Mathlib.Tactic.FieldSimp
import Mathlib.Tactic.IntervalCases
import Mathlib.Tactic.Linarith
/-!
# C95: seeding a rectangle (Region.cpp:3-5, 86-90, 116-156, PointGenerator.cpp)

The whole path of the README's first example: a rectangular region, `constant()` functors, a grid
of `nX` by `nY` points, the clean-up by point-in-polygon tests.
-/
set_option linter.unusedSectionVars false
namespace Delynoi
variable {K : Type} [Field K] [LinearOrder K] [IsStrictOrderedRing K]

/-- The corners of the rectangle `[x0,x1] × [y0,y1]`, counter-clockwise. -/
def rectCorners (x0 y0 x1 y1 : K) : List (Pt K) := [⟨x0, y0⟩, ⟨x1, y0⟩, ⟨x1, y1⟩, ⟨x0, y1⟩]

theorem rect_convex {x0 y0 x1 y1 : K} (hx : x0 < x1) (hy : y0 < y1) :
    StrictlyConvexCCW (rectCorners x0 y0 x1 y1) := by
  have h1 : 0 < x1 - x0 := sub_pos.2 hx
  have h2 : 0 < y1 - y0 := sub_pos.2 hy
  have h : 0 < (x1 - x0) * (y1 - y0) := mul_pos h1 h2
  refine ⟨by simp [rectCorners], ?_⟩
  intro i k h1 h2
  obtain ⟨i, hi⟩ := i
  obtain ⟨k, hk⟩ := k
  have hi' : i < 4 := hi
  have hk' : k < 4 := hk
  have h1' : k ≠ i := fun e => h1 (Fin.ext e)
  have h2' : k ≠ (i + 1) % 4 := h2
  interval_cases i <;> interval_cases k <;>
    first
      | exact absurd rfl h1'
      | exact absurd rfl h2'
      | (simp only [rectCorners, nextV, turn, Fin.getElem_fin, List.length_cons, List.length_nil,
          Nat.reduceAdd, Nat.reduceMod, List.getElem_cons_zero, List.getElem_cons_succ]
         linarith)

theorem rect_apart {tol x0 y0 x1 y1 : K} (ht : 0 < tol) (hx : tol ≤ x1 - x0) (hy : tol ≤ y1 - y0) :
    NeighboursApart tol (rectCorners x0 y0 x1 y1) := by
  intro i hc
  exfalso
  obtain ⟨i, hi⟩ := i
  have hi' : i < 4 := hi
  have ax : |x1 - x0| = x1 - x0 := abs_of_pos (by linarith)
  have ay : |y1 - y0| = y1 - y0 := abs_of_pos (by linarith)
  have bx : |x0 - x1| = x1 - x0 := by rw [abs_sub_comm, ax]
  have by' : |y0 - y1| = y1 - y0 := by rw [abs_sub_comm, ay]
  interval_cases i <;>
    simp only [rectCorners, nextV, Close, Fin.getElem_fin, List.length_cons, List.length_nil,
          Nat.reduceAdd, Nat.reduceMod, List.getElem_cons_zero, List.getElem_cons_succ, ax, ay, bx, by'] at hc
  · linarith [hc.1]
  · linarith [hc.2]
  · linarith [hc.1]
  · linarith [hc.2]

/-- The code's point-in-polygon test accepts every point of the closed rectangle. -/
theorem C95_rectangle_contains (tol x0 y0 x1 y1 : K) (ht : 0 < tol) (hx : tol ≤ x1 - x0)
    (hy : tol ≤ y1 - y0) (q : Pt K) (hq : (x0 ≤ q.x ∧ q.x ≤ x1) ∧ y0 ≤ q.y ∧ q.y ≤ y1) :
    containsPoint tol (rectCorners x0 y0 x1 y1) q = true := by
  obtain ⟨⟨a, b⟩, c, d⟩ := hq
  have hxx : x0 < x1 := by linarith
  have hyy : y0 < y1 := by linarith
  have nx : x1 - x0 ≠ 0 := by linarith
  have ny : y1 - y0 ≠ 0 := by linarith
  have edge : ∀ (i : Fin (rectCorners x0 y0 x1 y1).length) (t : K), 0 ≤ t → t ≤ 1 →
      lineAt (rectCorners x0 y0 x1 y1)[i] (nextV (rectCorners x0 y0 x1 y1) i) t = q →
      containsPoint tol (rectCorners x0 y0 x1 y1) q = true := by
    intro i t h0 h1 e
    rw [← e]; exact C28_edge_contained tol ht _ i t h0 h1
  have px : 0 < x1 - x0 := by linarith
  have py : 0 < y1 - y0 := by linarith
  rcases eq_or_lt_of_le c with c' | c'
  · refine edge ⟨0, by simp [rectCorners]⟩ ((q.x - x0) / (x1 - x0)) (div_nonneg (by linarith) px.le)
      ((div_le_one px).2 (by linarith)) ?_
    have e1 : (1 - (q.x - x0) / (x1 - x0)) * x0 + (q.x - x0) / (x1 - x0) * x1 = q.x := by field_simp; ring
    apply Pt.ext
    · exact e1
    · show (1 - _) * y0 + _ * y0 = q.y
      rw [← c']; ring
  rcases eq_or_lt_of_le b with b' | b'
  · refine edge ⟨1, by simp [rectCorners]⟩ ((q.y - y0) / (y1 - y0)) (div_nonneg (by linarith) py.le)
      ((div_le_one py).2 (by linarith)) ?_
    have e1 : (1 - (q.y - y0) / (y1 - y0)) * y0 + (q.y - y0) / (y1 - y0) * y1 = q.y := by field_simp; ring
    apply Pt.ext
    · show (1 - _) * x1 + _ * x1 = q.x
      rw [b']; ring
    · exact e1
  rcases eq_or_lt_of_le d with d' | d'
  · refine edge ⟨2, by simp [rectCorners]⟩ ((x1 - q.x) / (x1 - x0)) (div_nonneg (by linarith) px.le)
      ((div_le_one px).2 (by linarith)) ?_
    have e1 : (1 - (x1 - q.x) / (x1 - x0)) * x1 + (x1 - q.x) / (x1 - x0) * x0 = q.x := by field_simp; ring
    apply Pt.ext
    · exact e1
    · show (1 - _) * y1 + _ * y1 = q.y
      rw [d']; ring
  rcases eq_or_lt_of_le a with a' | a'
  · refine edge ⟨3, by simp [rectCorners]⟩ ((y1 - q.y) / (y1 - y0)) (div_nonneg (by linarith) py.le)
      ((div_le_one py).2 (by linarith)) ?_
    have e1 : (1 - (y1 - q.y) / (y1 - y0)) * y1 + (y1 - q.y) / (y1 - y0) * y0 = q.y := by field_simp; ring
    have hn : nextV (rectCorners x0 y0 x1 y1) ⟨3, by simp [rectCorners]⟩ = ⟨x0, y0⟩ := by
      simp [nextV, rectCorners]
    rw [hn]
    apply Pt.ext
    · show (1 - _) * x0 + _ * x0 = q.x
      rw [← a']; ring
    · exact e1
  refine C28_inside_contained tol ht _ q (rect_apart ht hx hy) (rect_convex hxx hyy) ?_
  intro i
  obtain ⟨i, hi⟩ := i
  have hi' : i < 4 := hi
  have m1 := mul_pos px (sub_pos.2 c')
  have m2 := mul_pos py (sub_pos.2 b')
  have m3 := mul_pos px (sub_pos.2 d')
  have m4 := mul_pos py (sub_pos.2 a')
  interval_cases i <;>
    simp only [rectCorners, nextV, turn, Fin.getElem_fin, List.length_cons, List.length_nil,
      Nat.reduceAdd, Nat.reduceMod, List.getElem_cons_zero, List.getElem_cons_succ] <;> linarith

theorem rect_box (tol x0 y0 x1 y1 : K) (hx : x0 < x1) (hy : y0 < y1)
    (hr : |x0| ≤ 2 ^ 63 ∧ |x1| ≤ 2 ^ 63 ∧ |y0| ≤ 2 ^ 63 ∧ |y1| ≤ 2 ^ 63)
    (r : Region K) (hp : r.p = rectCorners x0 y0 x1 y1) :
    r.getBox.xMin = x0 ∧ r.getBox.xMax = x1 ∧ r.getBox.yMin = y0 ∧ r.getBox.yMax = y1 := by
  have hin : ∀ v ∈ r.p, (v.x = x0 ∨ v.x = x1) ∧ (v.y = y0 ∨ v.y = y1) := by
    rw [hp]; intro v hv
    simp only [rectCorners, List.mem_cons, List.not_mem_nil, or_false] at hv
    rcases hv with rfl | rfl | rfl | rfl <;> simp
  have hbig : ∀ v ∈ r.p, |v.x| ≤ 2 ^ 63 ∧ |v.y| ≤ 2 ^ 63 := by
    intro v hv
    obtain ⟨a, b⟩ := hin v hv
    constructor
    · rcases a with e | e <;> rw [e]
      · exact hr.1
      · exact hr.2.1
    · rcases b with e | e <;> rw [e]
      · exact hr.2.2.1
      · exact hr.2.2.2
  obtain ⟨⟨a, ha, ea⟩, ⟨b, hb, eb⟩, ⟨c, hc, ec⟩, ⟨d, hd, ed⟩⟩ :=
    C43_box_tight r (by rw [hp]; simp [rectCorners]) hbig
  have k1 := C43_box_contains r ⟨x0, y0⟩ (by rw [hp]; simp [rectCorners])
  have k2 := C43_box_contains r ⟨x1, y1⟩ (by rw [hp]; simp [rectCorners])
  unfold BBox.contains at k1 k2
  simp only [Bool.and_eq_true, decide_eq_true_eq, ge_iff_le] at k1 k2
  obtain ⟨⟨⟨m1, m2⟩, m3⟩, m4⟩ := k1
  obtain ⟨⟨⟨n1, n2⟩, n3⟩, n4⟩ := k2
  refine ⟨?_, ?_, ?_, ?_⟩
  · rcases (hin a ha).1 with e | e
    · rw [← ea, e]
    · rw [ea] at e; linarith
  · rcases (hin b hb).1 with e | e
    · rw [eb] at e; linarith
    · rw [← eb, e]
  · rcases (hin c hc).2 with e | e
    · rw [← ec, e]
    · rw [ec] at e; linarith
  · rcases (hin d hd).2 with e | e
    · rw [ed] at e; linarith
    · rw [← ed, e]

theorem numericPts_length {l : List (Pt (Option K))} (h : ∀ q ∈ l, q.x.isSome ∧ q.y.isSome) :
    (numericPts l).map Region.num = l := by
  induction l with
  | nil => rfl
  | cons q l ih =>
    obtain ⟨x, y⟩ := q
    have hq := h ⟨x, y⟩ (by simp)
    cases x with
    | none => simp at hq
    | some x =>
      cases y with
      | none => simp at hq
      | some y =>
        have hl := ih (fun p hp => h p (by simp [hp]))
        simp only [numericPts, List.map_cons, Region.num] at hl ⊢
        rw [hl]

/-- C95: a region made from the corners of a rectangle and seeded with a grid of `nX × nY` points
by `constant()` functors keeps all of them: the seeds are exactly the grid points, row by row,
the outermost ones on the sides, and they are pairwise different. -/
theorem C95_rectangle_seeds (tol x0 y0 x1 y1 : K) (ht : 0 < tol) (hx : tol ≤ x1 - x0)
    (hy : tol ≤ y1 - y0) (hr : |x0| ≤ 2 ^ 63 ∧ |x1| ≤ 2 ^ 63 ∧ |y0| ≤ 2 ^ 63 ∧ |y1| ≤ 2 ^ 63)
    (xf : Bool) (nX nY : Int) (hX : 2 ≤ nX) (hY : 2 ≤ nY) (r : Region K)
    (h : Region.ofPoints tol (rectCorners x0 y0 x1 y1) = .ok r) :
    ∃ s : List (Pt K),
      r.generateSeedPoints tol xf (Gen.ofTwo (Fn.constant (K := K)).onFst (Fn.constant (K := K)).onSnd)
        ((), ()) nX nY = .ok ({ r with seeds := s }, ((), ())) ∧
      s.length = nX.toNat * nY.toNat ∧
      (∀ i j : Nat, (i : Int) < nY → (j : Int) < nX → s[i * nX.toNat + j]? =
        some ⟨x0 + (x1 - x0) * j / ((nX : K) - 1), y0 + (y1 - y0) * i / ((nY : K) - 1)⟩) ∧
      s.Nodup := by
  classical
  obtain ⟨r', e, hw, hp, hh, hs⟩ := region_wf_ofPoints tol (rectCorners x0 y0 x1 y1)
  have hr' : r' = r := Outcome.ok.inj (e.symm.trans h)
  subst hr'
  have hpoly : r'.poly.points = trivialIndex (rectCorners x0 y0 x1 y1).length := by
    have := Outcome.ok.inj h
    rw [← this]; rfl
  have hx0 : x0 < x1 := by linarith
  have hy0 : y0 < y1 := by linarith
  obtain ⟨b1, b2, b3, b4⟩ := rect_box tol x0 y0 x1 y1 hx0 hy0 hr r' hp
  obtain ⟨pts, hg, hlen, hget⟩ := C52_identity xf r'.getBox nX nY hX hY
  rw [b1, b2, b3, b4] at hget
  have hx1 : (0 : K) < (nX : K) - 1 := by
    have : (2 : K) ≤ nX := by exact_mod_cast hX
    linarith
  have hy1 : (0 : K) < (nY : K) - 1 := by
    have : (2 : K) ≤ nY := by exact_mod_cast hY
    linarith
  have hXn : 0 < nX.toNat := by omega
  -- every index is a grid index
  have split : ∀ k, k < pts.length → ∃ i j : Nat, (i : Int) < nY ∧ (j : Int) < nX ∧
      k = i * nX.toNat + j := by
    intro k hk
    rw [hlen] at hk
    refine ⟨k / nX.toNat, k % nX.toNat, ?_, ?_, ?_⟩
    · have : k / nX.toNat < nY.toNat := Nat.div_lt_of_lt_mul hk
      omega
    · have := Nat.mod_lt k hXn
      omega
    · rw [Nat.mul_comm]; exact (Nat.div_add_mod k _).symm
  have hmem : ∀ q ∈ pts, ∃ i j : Nat, (i : Int) < nY ∧ (j : Int) < nX ∧
      q = ⟨some (x0 + (x1 - x0) * j / ((nX : K) - 1)), some (y0 + (y1 - y0) * i / ((nY : K) - 1))⟩ := by
    intro q hq
    obtain ⟨k, hk, e⟩ := List.getElem_of_mem hq
    obtain ⟨i, j, hi, hj, e'⟩ := split k hk
    refine ⟨i, j, hi, hj, ?_⟩
    have := hget i j hi hj
    rw [← e', List.getElem?_eq_getElem hk, e] at this
    exact Option.some.inj this
  have hnum : (numericPts pts).map Region.num = pts := by
    apply numericPts_length
    intro q hq
    obtain ⟨i, j, _, _, e⟩ := hmem q hq
    rw [e]; exact ⟨rfl, rfl⟩
  have hslen : (numericPts pts).length = pts.length := by
    conv_rhs => rw [← hnum]
    rw [List.length_map]
  have hsget : ∀ i j : Nat, (i : Int) < nY → (j : Int) < nX → (numericPts pts)[i * nX.toNat + j]? =
        some ⟨x0 + (x1 - x0) * j / ((nX : K) - 1), y0 + (y1 - y0) * i / ((nY : K) - 1)⟩ := by
    intro i j hi hj
    have := hget i j hi hj
    rw [← hnum, List.getElem?_map] at this
    cases hc : (numericPts pts)[i * nX.toNat + j]? with
    | none => rw [hc] at this; cases this
    | some q =>
      rw [hc] at this
      have := Option.some.inj this
      obtain ⟨qx, qy⟩ := q
      simp only [Region.num, Pt.mk.injEq, Option.some.injEq] at this
      rw [this.1, this.2]
  have range : ∀ (lo hi n : K) (k : Nat), lo < hi → 0 < n → (k : K) ≤ n →
      lo ≤ lo + (hi - lo) * k / n ∧ lo + (hi - lo) * k / n ≤ hi := by
    intro lo hi n k hl hn hk
    have a : (hi - lo) * k / n ≤ hi - lo := by
      rw [div_le_iff₀ hn]; exact mul_le_mul_of_nonneg_left hk (by linarith)
    have b : 0 ≤ (hi - lo) * k / n :=
      div_nonneg (mul_nonneg (by linarith) (Nat.cast_nonneg k)) hn.le
    constructor <;> linarith
  have hgood : ∀ q ∈ numericPts pts, GoodSeed tol r' q := by
    intro q hq
    constructor
    · unfold Region.containsPoint
      rw [hp, hpoly, resolve_trivial]
      simp only [Outcome.bind_ok, Outcome.pure_eq, Outcome.ok.injEq]
      apply C95_rectangle_contains tol x0 y0 x1 y1 ht hx hy
      have : Region.num q ∈ pts := by rw [← hnum]; exact List.mem_map_of_mem hq
      obtain ⟨i, j, hi, hj, e⟩ := hmem _ this
      obtain ⟨qx, qy⟩ := q
      simp only [Region.num, Pt.mk.injEq, Option.some.injEq] at e
      rw [e.1, e.2]
      constructor
      · apply range _ _ _ _ hx0 hx1
        have : (j : Int) ≤ nX - 1 := by omega
        exact_mod_cast this
      · apply range _ _ _ _ hy0 hy1
        have : (i : Int) ≤ nY - 1 := by omega
        exact_mod_cast this
    · rw [hh]; intro g hg; cases hg
  refine ⟨numericPts pts, ?_, by rw [hslen, hlen], hsget, ?_⟩
  · rw [C44_generateSeedPoints tol xf r' hw _ _ nX nY pts _ hg, hs, List.nil_append,
      List.filter_eq_self.2 (fun q hq => decide_eq_true (hgood q hq))]
  · rw [List.nodup_iff_injective_get]
    rintro ⟨k, hk⟩ ⟨k', hk'⟩ he
    obtain ⟨i, j, hi, hj, e1⟩ := split k (by rw [← hslen]; exact hk)
    obtain ⟨i', j', hi', hj', e2⟩ := split k' (by rw [← hslen]; exact hk')
    have h1 := hsget i j hi hj
    have h2 := hsget i' j' hi' hj'
    rw [← e1, List.getElem?_eq_getElem hk] at h1
    rw [← e2, List.getElem?_eq_getElem hk'] at h2
    have he : (numericPts pts)[k] = (numericPts pts)[k'] := he
    rw [he, h2] at h1
    have h1 := Option.some.inj h1
    simp only [Pt.mk.injEq, add_right_inj] at h1
    have inj : ∀ (w n : K) (a b : Nat), 0 < w → 0 < n → w * a / n = w * b / n → a = b := by
      intro w n a b hw hn e
      have := (div_left_inj' (ne_of_gt hn)).1 e
      exact_mod_cast mul_left_cancel₀ (ne_of_gt hw) this
    have ej := inj _ _ _ _ (sub_pos.2 hx0) hx1 h1.1
    have ei := inj _ _ _ _ (sub_pos.2 hy0) hy1 h1.2
    apply Fin.ext
    show k = k'
    rw [e1, e2, ei, ej]

/-- The hypotheses hold for the unit square with the library's tolerance and an 8 by 8 grid. -/
example : ∃ r : Region ℚ, Region.ofPoints (1 / 100000) (rectCorners 0 0 1 1) = .ok r ∧
    ∃ s, r.generateSeedPoints (1 / 100000) true
        (Gen.ofTwo (Fn.constant (K := ℚ)).onFst (Fn.constant (K := ℚ)).onSnd) ((), ()) 8 8 =
      .ok ({ r with seeds := s }, ((), ())) ∧ s.length = 64 := by
  obtain ⟨r, h, _⟩ := region_wf_ofPoints (1 / 100000 : ℚ) (rectCorners 0 0 1 1)
  obtain ⟨s, a, b, _⟩ := C95_rectangle_seeds (1 / 100000 : ℚ) 0 0 1 1 (by norm_num) (by norm_num)
    (by norm_num) (by norm_num) true 8 8 (by norm_num) (by norm_num) r h
  exact ⟨r, h, s, a, b⟩

end Delynoi
