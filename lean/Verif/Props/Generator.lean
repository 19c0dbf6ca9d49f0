import Verif.Proofs.Grid
import Verif.Proofs.Alternating
import Verif.Props.Region
import Verif.Props.Ieee
import Mathlib.Tactic.FieldSimp
import Mathlib.Tactic.Ring
import Mathlib.Tactic.Linarith
import Mathlib.Tactic.Positivity
import Mathlib.Data.Int.Cast.Lemmas
/-!
# Properties C52-C56: point generators
-/
set_option linter.unusedSectionVars false
namespace Delynoi
variable {K : Type} [Field K] [LinearOrder K] [IsStrictOrderedRing K] {σ τ : Type}

/-! ### C52 -/

/-- C52: whatever the functors do, a completed call yields `nX * nY` points (none if a number is
not positive). -/
theorem C52_count (xf : Bool) (g : Gen σ K) (box : BBox K) (nX nY : Int) (s s' : σ)
    (pts : List (Pt (Option K))) (h : g.generate xf s box nX nY = .ok (pts, s')) :
    pts.length = nX.toNat * nY.toNat := by
  rw [genLoop_length xf g box nX nY _ s s' pts h, gridPairs_length, Nat.mul_comm]

/-- The grid coordinates in the order of the calls: row by row. -/
theorem C52_row_by_row (nX nY : Int) (i j : Nat) (hi : (i : Int) < nY) (hj : (j : Int) < nX) :
    (Gen.gridPairs nX nY)[i * nX.toNat + j]? = some (i, j) :=
  gridPairs_getElem? nX nY i j (by omega) (by omega)

/-- C52: with two functors that do not share state, the point in row `i`, column `j` consists of
the results of the corresponding calls, and the order in which C++ evaluates the two calls does
not matter. -/
theorem C52_both (xf : Bool) (f : Fn σ K) (g : Fn τ K) (box : BBox K) (nX nY : Int) (s s' : σ) (t t' : τ)
    (xs ys : List (Option K))
    (hx : Fn.run f s ((Gen.gridPairs nX nY).map (fun e => Gen.gridCoord box.xMin box.width nX e.2)) = .ok (xs, s'))
    (hy : Fn.run g t ((Gen.gridPairs nX nY).map (fun e => Gen.gridCoord box.yMin box.height nY e.1)) = .ok (ys, t')) :
    (Gen.ofTwo f.onFst g.onSnd).generate xf (s, t) box nX nY = .ok (List.zipWith Pt.mk xs ys, (s', t')) :=
  genLoop_both xf f g box nX nY _ s s' t t' xs ys hx hy

theorem run_constant (xs : List (Option K)) : Fn.run Fn.constant () xs = .ok (xs, ()) := by
  induction xs with
  | nil => rfl
  | cons x xs ih =>
    unfold Fn.run
    have e : (Fn.constant () x : Outcome (Option K × Unit)) = .ok (x, ()) := by
      cases x <;> simp [Fn.constant, Fn.uniform]
    rw [e]
    simp only [Outcome.bind_ok]
    rw [ih]; rfl

theorem zipWith_map_same {α β γ δ : Type} (f : β → γ → δ) (g : α → β) (h : α → γ) (l : List α) :
    List.zipWith f (l.map g) (l.map h) = l.map (fun a => f (g a) (h a)) := by
  induction l with
  | nil => rfl
  | cons a l ih => simp [ih]

/-- The generated list with identity functors. -/
theorem generate_constant (xf : Bool) (box : BBox K) (nX nY : Int) :
    (Gen.ofTwo (Fn.constant (K := K)).onFst (Fn.constant (K := K)).onSnd).generate xf ((), ()) box nX nY =
      .ok ((Gen.gridPairs nX nY).map (fun e => (⟨Gen.gridCoord box.xMin box.width nX e.2,
        Gen.gridCoord box.yMin box.height nY e.1⟩ : Pt (Option K))), ((), ())) := by
  rw [C52_both xf _ _ box nX nY () () () () _ _ (run_constant _) (run_constant _), zipWith_map_same]

theorem box_width (box : BBox K) : box.width = box.xMax - box.xMin := by
  unfold BBox.width BBox.xMax BBox.xMin
  rw [max_sub_min_eq_abs, abs_sub_comm]

theorem box_height (box : BBox K) : box.height = box.yMax - box.yMin := by
  unfold BBox.height BBox.yMax BBox.yMin
  rw [max_sub_min_eq_abs, abs_sub_comm]

/-- C52: with `constant()` functors and at least two rows and columns the point in row `i`,
column `j` divides the sides of the box in the proportions `j : nX-1-j` and `i : nY-1-i`. -/
theorem C52_identity (xf : Bool) (box : BBox K) (nX nY : Int) (hX : 2 ≤ nX) (hY : 2 ≤ nY) :
    ∃ pts, (Gen.ofTwo (Fn.constant (K := K)).onFst (Fn.constant (K := K)).onSnd).generate xf ((), ()) box nX nY =
        .ok (pts, ((), ())) ∧
      pts.length = nX.toNat * nY.toNat ∧
      ∀ i j : Nat, (i : Int) < nY → (j : Int) < nX → pts[i * nX.toNat + j]? =
        some ⟨some (box.xMin + (box.xMax - box.xMin) * j / ((nX : K) - 1)),
          some (box.yMin + (box.yMax - box.yMin) * i / ((nY : K) - 1))⟩ := by
  refine ⟨_, generate_constant xf box nX nY, ?_, ?_⟩
  · rw [List.length_map, gridPairs_length, Nat.mul_comm]
  · intro i j hi hj
    rw [List.getElem?_map, C52_row_by_row nX nY i j hi hj]
    have h1 : ¬ nX = 1 := by omega
    have h2 : ¬ nY = 1 := by omega
    simp only [Option.map_some, Gen.gridCoord, h1, h2, if_false, box_width, box_height]
    push_cast
    congr 3 <;> ring

/-- C52: hence all points are in the box, the outermost rows and columns lie on its sides, and
neighbouring points of a row (column) are `width/(nX-1)` (`height/(nY-1)`) apart. -/
theorem C52_in_box (xf : Bool) (box : BBox K) (nX nY : Int) (hX : 2 ≤ nX) (hY : 2 ≤ nY)
    (pts : List (Pt (Option K)))
    (h : (Gen.ofTwo (Fn.constant (K := K)).onFst (Fn.constant (K := K)).onSnd).generate xf ((), ()) box nX nY =
      .ok (pts, ((), ()))) :
    ∃ px py : Nat → K,
      (∀ i j : Nat, (i : Int) < nY → (j : Int) < nX →
        pts[i * nX.toNat + j]? = some ⟨some (px j), some (py i)⟩ ∧ box.contains ⟨px j, py i⟩ = true) ∧
      px 0 = box.xMin ∧ px (nX - 1).toNat = box.xMax ∧ py 0 = box.yMin ∧ py (nY - 1).toNat = box.yMax ∧
      (∀ j, px (j + 1) - px j = box.width / ((nX : K) - 1)) ∧
      ∀ i, py (i + 1) - py i = box.height / ((nY : K) - 1) := by
  obtain ⟨pts', e, _, h3⟩ := C52_identity xf box nX nY hX hY
  rw [h] at e
  have e := (Prod.mk.inj (Outcome.ok.inj e)).1
  subst e
  have hx1 : (0 : K) < (nX : K) - 1 := by
    have : (2 : K) ≤ nX := by exact_mod_cast hX
    linarith
  have hy1 : (0 : K) < (nY : K) - 1 := by
    have : (2 : K) ≤ nY := by exact_mod_cast hY
    linarith
  have hw : 0 ≤ box.xMax - box.xMin := by rw [← box_width]; exact abs_nonneg _
  have hh : 0 ≤ box.yMax - box.yMin := by rw [← box_height]; exact abs_nonneg _
  have inside : ∀ (lo w n : K) (k : Nat), 0 ≤ w → 0 < n → (k : K) ≤ n →
      lo ≤ lo + w * k / n ∧ lo + w * k / n ≤ lo + w := by
    intro lo w n k hw hn hk
    have : w * k / n ≤ w := by
      rw [div_le_iff₀ hn]; exact mul_le_mul_of_nonneg_left hk hw
    have h0 : 0 ≤ w * k / n := by positivity
    constructor <;> linarith
  refine ⟨fun j => box.xMin + (box.xMax - box.xMin) * j / ((nX : K) - 1),
    fun i => box.yMin + (box.yMax - box.yMin) * i / ((nY : K) - 1), ?_, by simp, ?_, by simp, ?_, ?_, ?_⟩
  · intro i j hi hj
    refine ⟨h3 i j hi hj, ?_⟩
    have a := inside box.xMin (box.xMax - box.xMin) ((nX : K) - 1) j hw hx1 (by
      have : (j : Int) ≤ nX - 1 := by omega
      exact_mod_cast this)
    have b := inside box.yMin (box.yMax - box.yMin) ((nY : K) - 1) i hh hy1 (by
      have : (i : Int) ≤ nY - 1 := by omega
      exact_mod_cast this)
    unfold BBox.contains
    simp only [Bool.and_eq_true, decide_eq_true_eq]
    refine ⟨⟨⟨a.1, ?_⟩, b.1⟩, ?_⟩
    · linarith [a.2]
    · linarith [b.2]
  · have : (((nX - 1).toNat : Nat) : K) = (nX : K) - 1 := by
      have h : (((nX - 1).toNat : Nat) : Int) = nX - 1 := by omega
      exact_mod_cast congrArg (Int.cast : Int → K) h
    dsimp only
    rw [this]; field_simp; ring
  · have : (((nY - 1).toNat : Nat) : K) = (nY : K) - 1 := by
      have h : (((nY - 1).toNat : Nat) : Int) = nY - 1 := by omega
      exact_mod_cast congrArg (Int.cast : Int → K) h
    dsimp only
    rw [this]; field_simp; ring
  · intro j
    dsimp only
    rw [box_width]
    push_cast
    ring
  · intro i
    dsimp only
    rw [box_height]
    push_cast
    ring

/-- C52: one functor over the free variable `x`: the row is shifted vertically by its results. -/
theorem C52_free_x (xf : Bool) (f : Fn σ K) (box : BBox K) (nX nY : Int) (s s' : σ) (rs : List (Option K))
    (h : Fn.run f s ((Gen.gridPairs nX nY).map (fun e => Gen.gridCoord box.xMin box.width nX e.2)) = .ok (rs, s')) :
    ∃ g, Gen.ofOne f .x = .ok g ∧ g.generate xf s box nX nY =
      .ok (List.zipWith (fun e r => (⟨Gen.gridCoord box.xMin box.width nX e.2,
        Gen.addNum (Gen.gridCoord box.yMin box.height nY e.1) r⟩ : Pt (Option K))) (Gen.gridPairs nX nY) rs, s') :=
  ⟨_, rfl, genLoop_x xf f none box nX nY _ s s' rs h⟩

/-- C52: one functor over the free variable `y`. -/
theorem C52_free_y (xf : Bool) (f : Fn σ K) (box : BBox K) (nX nY : Int) (s s' : σ) (rs : List (Option K))
    (h : Fn.run f s ((Gen.gridPairs nX nY).map (fun e => Gen.gridCoord box.yMin box.height nY e.1)) = .ok (rs, s')) :
    ∃ g, Gen.ofOne f .y = .ok g ∧ g.generate xf s box nX nY =
      .ok (List.zipWith (fun e r => (⟨Gen.addNum (Gen.gridCoord box.xMin box.width nX e.2) r,
        Gen.gridCoord box.yMin box.height nY e.1⟩ : Pt (Option K))) (Gen.gridPairs nX nY) rs, s') :=
  ⟨_, rfl, genLoop_y xf f none box nX nY _ s s' rs h⟩

/-- C52: one functor and `both` is rejected. -/
theorem C52_both_needs_two (f : Fn σ K) : Gen.ofOne f .both = .exn := rfl

example : (Gen.ofTwo (Fn.constant (K := ℚ)).onFst (Fn.constant (K := ℚ)).onSnd).generate true ((), ())
    ⟨⟨4, 1⟩, ⟨0, 3⟩⟩ 3 2 = .ok ([⟨some 0, some 1⟩, ⟨some 2, some 1⟩, ⟨some 4, some 1⟩,
      ⟨some 0, some 3⟩, ⟨some 2, some 3⟩, ⟨some 4, some 3⟩], ((), ())) := by decide +kernel

/-! ### C53 -/

/-- The coordinate of the model agrees with IEEE arithmetic: a number for `n ≠ 1`, NaN for a
single grid line. -/
theorem C53_ieee_gridCoord (z : Bool) (lo w : K) (n : Int) (j : Nat) (hj : (j : Int) < n) :
    Ieee.gridCoord z lo w n j = (match Gen.gridCoord lo w n j with | some v => .fin v | none => .nan) := by
  unfold Ieee.gridCoord Gen.gridCoord
  by_cases h : n = 1
  · subst h
    have hj0 : j = 0 := by omega
    subst hj0
    have e0 : ((((0 : Nat) : Int) : Int) : K) = 0 := by simp
    have e1 : (((1 - 1 : Int)) : K) = 0 := by simp
    rw [e0, e1, if_pos rfl]
    have inf0 : ∀ b, (Ext.infMul b (0 : K)) = .nan := fun b => by simp [Ext.infMul]
    rcases Ext.fin_div_zero w z with h | h | h <;> rw [h]
    · rfl
    · show Ext.fin lo + Ext.infMul true (0 : K) = .nan
      rw [inf0]; rfl
    · show Ext.fin lo + Ext.infMul false (0 : K) = .nan
      rw [inf0]; rfl
  · have hne : ((n - 1 : Int) : K) ≠ 0 := by
      intro h0
      have : n - 1 = 0 := by exact_mod_cast h0
      omega
    rw [if_neg h, Ext.fin_div _ _ z hne, Ext.fin_mul, Ext.fin_add]
    simp

/-- C53, what the code does: with a single column every `x` is NaN (the `y` are right). -/
theorem C53_single_column_partial (xf : Bool) (box : BBox K) (nY : Int) (hY : 2 ≤ nY) :
    ∃ pts, (Gen.ofTwo (Fn.constant (K := K)).onFst (Fn.constant (K := K)).onSnd).generate xf ((), ()) box 1 nY =
        .ok (pts, ((), ())) ∧ pts.length = nY.toNat ∧
      ∀ i : Nat, (i : Int) < nY → pts[i]? =
        some ⟨none, some (box.yMin + (box.yMax - box.yMin) * i / ((nY : K) - 1))⟩ := by
  refine ⟨_, generate_constant xf box 1 nY, ?_, ?_⟩
  · rw [List.length_map, gridPairs_length]; simp
  · intro i hi
    have e := C52_row_by_row 1 nY i 0 hi (by norm_num)
    rw [show i * (1 : Int).toNat + 0 = i by simp] at e
    rw [List.getElem?_map, e]
    have h2 : ¬ nY = 1 := by omega
    simp only [Option.map_some, Gen.gridCoord, h2, if_false, if_true, box_height]
    push_cast
    congr 3; ring

open Classical in
/-- C53 is false in general: for every region, a request for a single column or row adds no seed
at all. -/
theorem C53_adds_nothing (tol : K) (xf : Bool) (r : Region K) (hw : r.WF) (nX nY : Int)
    (h1 : nX = 1 ∨ nY = 1) :
    r.generateSeedPoints tol xf (Gen.ofTwo (Fn.constant (K := K)).onFst (Fn.constant (K := K)).onSnd)
      ((), ()) nX nY = .ok ({ r with seeds := r.seeds.filter (fun q => decide (GoodSeed tol r q)) }, ((), ())) := by
  rw [C44_generateSeedPoints tol xf r hw _ _ nX nY _ _ (generate_constant xf r.getBox nX nY)]
  have : numericPts ((Gen.gridPairs nX nY).map (fun e => (⟨Gen.gridCoord r.getBox.xMin r.getBox.width nX e.2,
      Gen.gridCoord r.getBox.yMin r.getBox.height nY e.1⟩ : Pt (Option K)))) = [] := by
    generalize Gen.gridPairs nX nY = l
    induction l with
    | nil => rfl
    | cons e l ih =>
      rw [List.map_cons]
      rcases h1 with h1 | h1
      · simp only [Gen.gridCoord, h1, if_true] at ih ⊢
        exact ih
      · simp only [Gen.gridCoord, h1, if_true] at ih ⊢
        cases (if nX = 1 then none else some (r.getBox.xMin + (e.2 : K) * (r.getBox.width / ((nX - 1 : Int) : K)))) with
        | none => exact ih
        | some v => exact ih
  rw [this, List.append_nil]

/-- C53 is false: the single column of three points through a 10 by 10 square is lost, although the
points of its left side belong to the region. -/
theorem C53_refuted : ∃ (r : Region ℚ) (r' : Region ℚ), r.WF ∧
    r.generateSeedPoints (1/100000) true
      (Gen.ofTwo (Fn.constant (K := ℚ)).onFst (Fn.constant (K := ℚ)).onSnd) ((), ()) 1 3 = .ok (r', ((), ())) ∧
    r'.seeds = [] ∧ GoodSeed (1/100000) r' ⟨0, 5⟩ := by
  refine ⟨⟨Poly.fresh [0, 1, 2, 3], [⟨0, 0⟩, ⟨10, 0⟩, ⟨10, 10⟩, ⟨0, 10⟩], [], []⟩,
    ⟨Poly.fresh [0, 1, 2, 3], [⟨0, 0⟩, ⟨10, 0⟩, ⟨10, 10⟩, ⟨0, 10⟩], [], []⟩,
    ⟨by decide, by intro h hh; cases hh⟩, by decide +kernel, rfl, by decide +kernel, by intro h hh; cases hh⟩

/-! ### C54 -/

/-- C54, exact behaviour: over any number `N` of calls that run through a batch of `m ≥ 2`
distinct values again and again, call `n` (from 0) is displaced iff `⌊(n+1)/(m+1)⌋` is odd: the
batches the object sees have length `m + 1`, not `m`.  The amount is half the distance of the two
values the object saw at the start of its last full batch. -/
theorem C54_exact (x : Nat → K) (m : Nat) (hm : 2 ≤ m) (hper : ∀ n, x (n + m) = x n)
    (hinj : ∀ i j, i < m → j < m → x i = x j → i = j) (N : Nat) :
    ∃ ys s', Fn.run Fn.alternating AltState.init ((List.range N).map (fun n => some (x n))) = .ok (ys, s') ∧
      ys.length = N ∧ ∀ n < N, ys[n]? = some (some (x n +
        if ((n + 1) / (m + 1)) % 2 = 1 then
          |x ((n - 1) / (m + 1) * (m + 1)) - x ((n - 1) / (m + 1) * (m + 1) + 1)| / 2 else 0)) := by
  have h0 : AltInv x m (0 / (m + 1)) (0 % (m + 1)) (AltState.init : AltState K) := by
    rw [Nat.zero_div, Nat.zero_mod]; exact alt_init
  obtain ⟨s', h⟩ := alt_run hm hper hinj N 0 _ h0
  rw [← List.range_eq_range'] at h
  refine ⟨_, s', h, by simp, ?_⟩
  intro n hn
  rw [List.getElem?_map, List.getElem?_range hn]
  rfl

/-- C54, the part that holds: for equally spaced values the first batch is unchanged and the
whole second batch is displaced by half the spacing. -/
theorem C54_two_batches_partial (lo d : K) (hd : 0 < d) (m : Nat) (hm : 2 ≤ m) :
    ∃ ys s', Fn.run Fn.alternating AltState.init
        ((List.range (2 * m)).map (fun n => some (lo + ((n % m : Nat) : K) * d))) = .ok (ys, s') ∧
      (∀ j < m, ys[j]? = some (some (lo + (j : K) * d))) ∧
      ∀ j < m, ys[m + j]? = some (some (lo + (j : K) * d + d / 2)) := by
  have hinj : ∀ i j, i < m → j < m → lo + ((i % m : Nat) : K) * d = lo + ((j % m : Nat) : K) * d → i = j := by
    intro i j hi hj h
    rw [Nat.mod_eq_of_lt hi, Nat.mod_eq_of_lt hj] at h
    have h := mul_right_cancel₀ hd.ne' (add_left_cancel h)
    exact_mod_cast h
  obtain ⟨ys, s', h1, _, h2⟩ := C54_exact (fun n => lo + ((n % m : Nat) : K) * d) m hm
    (fun n => by simp) hinj (2 * m)
  refine ⟨ys, s', h1, ?_, ?_⟩
  · intro j hj
    rw [h2 j (by omega), Nat.div_eq_of_lt (by omega)]
    simp [Nat.mod_eq_of_lt hj]
  · intro j hj
    have e1 : (m + j + 1) / (m + 1) = 1 := by
      rw [Nat.div_eq_of_lt_le] <;> omega
    have e2 : (m + j - 1) / (m + 1) * (m + 1) % m = 0 ∧ ((m + j - 1) / (m + 1) * (m + 1) + 1) % m = 1 ∨
        j + 1 = m ∧ False ∨ (m + j - 1) / (m + 1) = 1 := by
      by_cases hj2 : j < 2
      · left
        rw [Nat.div_eq_of_lt (by omega)]
        simp only [Nat.zero_mul, Nat.zero_mod, Nat.zero_add, true_and]
        exact Nat.mod_eq_of_lt (by omega)
      · right; right
        rw [Nat.div_eq_of_lt_le] <;> omega
    rw [h2 (m + j) (by omega), e1]
    have hval : ((m + j) % m : Nat) = j := by rw [Nat.add_mod_left, Nat.mod_eq_of_lt hj]
    have hgap : |lo + (((m + j - 1) / (m + 1) * (m + 1) % m : Nat) : K) * d -
        (lo + ((((m + j - 1) / (m + 1) * (m + 1) + 1) % m : Nat) : K) * d)| = d := by
      rcases e2 with ⟨a, b⟩ | ⟨_, h⟩ | h
      · rw [a, b]; simp [abs_of_pos hd]
      · exact h.elim
      · rw [h]
        -- epoch 1 starts with the second column; there are at least three columns here
        have hm3 : 3 ≤ m := by
          by_contra hc
          have hm2 : m = 2 := by omega
          subst hm2
          have : (2 + j - 1) / (2 + 1) = 0 := Nat.div_eq_of_lt (by omega)
          omega
        have a : (1 * (m + 1)) % m = 1 := by rw [Nat.one_mul, Nat.add_mod_left]; exact Nat.mod_eq_of_lt (by omega)
        have b : (1 * (m + 1) + 1) % m = 2 := by
          rw [Nat.one_mul, Nat.add_assoc, Nat.add_mod_left]; exact Nat.mod_eq_of_lt (by omega)
        rw [a, b]
        have : lo + ((1 : Nat) : K) * d - (lo + ((2 : Nat) : K) * d) = -d := by push_cast; ring
        rw [this, abs_neg, abs_of_pos hd]
    simp only [hval]
    rw [hgap]
    norm_num

/-- C54 is false, for every batch size `m ≥ 2`: the third batch ought to be unchanged, but its first
value is displaced. -/
theorem C54_refuted (x : Nat → K) (m : Nat) (hm : 2 ≤ m) (hper : ∀ n, x (n + m) = x n)
    (hinj : ∀ i j, i < m → j < m → x i = x j → i = j) :
    ∃ ys s' v, Fn.run Fn.alternating AltState.init ((List.range (3 * m)).map (fun n => some (x n))) =
        .ok (ys, s') ∧ ys[2 * m]? = some (some v) ∧ x (2 * m) < v ∧
      ∀ j, 1 ≤ j → j < m → ys[2 * m + j]? = some (some (x (2 * m + j))) := by
  obtain ⟨ys, s', h1, _, h2⟩ := C54_exact x m hm hper hinj (3 * m)
  refine ⟨ys, s', _, h1, h2 (2 * m) (by omega), ?_, ?_⟩
  · have e1 : (2 * m + 1) / (m + 1) = 1 := by rw [Nat.div_eq_of_lt_le] <;> omega
    rw [e1]
    simp only [Nat.one_mod, if_true]
    have hne : x ((2 * m - 1) / (m + 1) * (m + 1)) ≠ x ((2 * m - 1) / (m + 1) * (m + 1) + 1) := by
      intro h
      have h := (periodic_eq hper hinj (by omega) _ _).1 h
      have h3 : 0 ≡ 1 [MOD m] := Nat.ModEq.add_left_cancel' ((2 * m - 1) / (m + 1) * (m + 1)) h
      have h4 : 0 % m = 1 % m := h3
      rw [Nat.zero_mod, Nat.mod_eq_of_lt (by omega)] at h4
      omega
    have := abs_pos.2 (sub_ne_zero.2 hne)
    linarith
  · intro j h1j hj
    rw [h2 (2 * m + j) (by omega)]
    have e1 : (2 * m + j + 1) / (m + 1) = 2 := by rw [Nat.div_eq_of_lt_le] <;> omega
    rw [e1]; simp

/-- C54: a batch of one value is never displaced. -/
theorem C54_single (v : K) (N : Nat) :
    ∃ s', Fn.run Fn.alternating AltState.init (List.replicate N (some v)) = .ok (List.replicate N (some v), s') := by
  have key : ∀ (N : Nat) (s : AltState K), (s.visited = UList.empty ∨ s.visited = ⟨[some v], [(some v, 0)]⟩) →
      s.alternating = false →
      ∃ s', Fn.run Fn.alternating s (List.replicate N (some v)) = .ok (List.replicate N (some v), s') := by
    intro N
    induction N with
    | zero => intro s _ _; exact ⟨s, rfl⟩
    | succ N ih =>
      intro s hv ha
      have hp : (UList.pushBack ltNum s.visited (some v)) = (⟨[some v], [(some v, 0)]⟩, 0) := by
        rcases hv with hv | hv <;> rw [hv] <;>
          simp [UList.pushBack, SMap.upperBound, ltNum, UList.empty, SMap.insert, List.findIdx_cons]
      have e : Fn.alternating s (some v) = .ok (some v, ⟨⟨[some v], [(some v, 0)]⟩, altDelta s (some v), false⟩) := by
        unfold Fn.alternating
        dsimp only
        rw [hp]
        simp [ha]
      obtain ⟨s', h⟩ := ih ⟨⟨[some v], [(some v, 0)]⟩, altDelta s (some v), false⟩ (Or.inr rfl) rfl
      refine ⟨s', ?_⟩
      rw [List.replicate_succ]
      unfold Fn.run
      rw [e]
      simp only [Outcome.bind_ok]
      rw [h]; rfl
  exact key N _ (Or.inl rfl) rfl

example : (Fn.run Fn.alternating AltState.init
      (([0, 1, 2, 0, 1, 2, 0, 1, 2] : List ℚ).map some) >>= fun r => .ok r.1) =
    .ok (([0, 1, 2, 1/2, 3/2, 5/2, 1/2, 1, 2] : List ℚ).map some) := by decide +kernel

/-- C54 through `generate`: in the grid the first two rows are right and the first point of the
third row is displaced. -/
theorem C54_grid_refuted :
    ((Gen.ofTwo (Fn.alternating (K := ℚ)).onFst (Fn.constant (K := ℚ)).onSnd).generate
      true (AltState.init, ()) ⟨⟨0, 0⟩, ⟨2, 2⟩⟩ 3 3 >>= fun r => .ok r.1) =
    .ok [⟨some 0, some 0⟩, ⟨some 1, some 0⟩, ⟨some 2, some 0⟩, ⟨some (1/2), some 1⟩, ⟨some (3/2), some 1⟩,
      ⟨some (5/2), some 1⟩, ⟨some (1/2), some 2⟩, ⟨some 1, some 2⟩, ⟨some 2, some 2⟩] := by
  decide +kernel

/-! ### C55 -/

/-- C55: of the calls of one `DisplaceDelta` object, the first, third, fifth, ... are displaced by
`delta / 2`, the others are not; the value does not matter. -/
theorem C55_displace (delta : K) (xs : List K) :
    ∃ ys s', Fn.run (Fn.displace delta) false (xs.map some) = .ok (ys, s') ∧ ys.length = xs.length ∧
      (s' = true ↔ xs.length % 2 = 1) ∧
      ∀ k v, xs[k]? = some v → ys[k]? = some (some (if k % 2 = 0 then v + delta / 2 else v)) := by
  have key : ∀ (xs : List K) (b : Bool), ∃ ys s', Fn.run (Fn.displace delta) b (xs.map some) = .ok (ys, s') ∧
      ys.length = xs.length ∧ (s' = xor b (decide (xs.length % 2 = 1))) ∧
      ∀ k v, xs[k]? = some v → ys[k]? = some (some (if xor b (decide (k % 2 = 0)) then v + delta / 2 else v)) := by
    intro xs
    induction xs with
    | nil => intro b; exact ⟨[], b, rfl, rfl, by simp, by simp⟩
    | cons x xs ih =>
      intro b
      obtain ⟨ys, s', h1, h2, h3, h4⟩ := ih (!b)
      have e : Fn.displace delta b (some x) = .ok (some (if b then x else x + delta / 2), !b) := by
        cases b <;> simp [Fn.displace]
      refine ⟨some (if b then x else x + delta / 2) :: ys, s', ?_, by simp [h2], ?_, ?_⟩
      · rw [List.map_cons]
        unfold Fn.run
        rw [e]
        simp only [Outcome.bind_ok]
        rw [h1]; rfl
      · rw [h3, List.length_cons]
        by_cases hl : xs.length % 2 = 1
        · have : ¬ (xs.length + 1) % 2 = 1 := by omega
          cases b <;> simp [hl, this]
        · have : (xs.length + 1) % 2 = 1 := by omega
          cases b <;> simp [hl, this]
      · intro k v hk
        cases k with
        | zero =>
          have : x = v := by simpa using hk
          subst this
          cases b <;> simp
        | succ k =>
          have hk : xs[k]? = some v := by simpa using hk
          rw [List.getElem?_cons_succ, h4 k v hk]
          by_cases hl : k % 2 = 0
          · have : ¬ (k + 1) % 2 = 0 := by omega
            cases b <;> simp [hl, this]
          · have : (k + 1) % 2 = 0 := by omega
            cases b <;> simp [hl, this]
  obtain ⟨ys, s', h1, h2, h3, h4⟩ := key xs false
  refine ⟨ys, s', h1, h2, by rw [h3]; simp, ?_⟩
  intro k v hk
  rw [h4 k v hk]; simp

example : Fn.run (Fn.displace (1 : ℚ)) false [some 5, some 5, some 7] =
    .ok ([some (11/2), some 5, some (15/2)], true) := by decide +kernel

/-! ### C56 -/

/-- C56: over any sequence of calls and any random draws in `[min, max]` (`0 ≤ min`), the noisy
functor completes when the inner one does, its inner state evolves exactly as if there were no
noise, and each result differs from the inner result by an amount of absolute value in
`[min, max]` (NaN stays NaN). -/
theorem C56_doubleNoise (f : Fn σ K) (draw : Nat → K × Int) (lo hi : K) (h0 : 0 ≤ lo)
    (hd : ∀ k, lo ≤ (draw k).1 ∧ (draw k).1 ≤ hi) (xs : List (Option K)) :
    ∀ (s s' : σ) (c : Nat) (ys : List (Option K)), Fn.run f s xs = .ok (ys, s') →
    ∃ zs, Fn.run (Fn.doubleNoise f draw) (s, c) xs = .ok (zs, (s', c + xs.length)) ∧
      List.Forall₂ (fun y z => match y, z with
        | some a, some b => lo ≤ |b - a| ∧ |b - a| ≤ hi
        | none, none => True
        | _, _ => False) ys zs := by
  induction xs with
  | nil =>
    intro s s' c ys h
    have h := Prod.mk.inj (Outcome.ok.inj h)
    refine ⟨[], ?_, ?_⟩
    · rw [← h.2]; rfl
    · rw [← h.1]; exact List.Forall₂.nil
  | cons x xs ih =>
    intro s s' c ys h
    obtain ⟨y, ys', s1, h1, h2, rfl⟩ := run_cons_ok h
    obtain ⟨zs, h3, h4⟩ := ih s1 s' (c + 1) ys' h2
    refine ⟨y.map (fun v => v + (draw c).1 * (if (draw c).2 % 2 ≠ 0 then 1 else -1)) :: zs, ?_, ?_⟩
    · unfold Fn.run Fn.doubleNoise
      simp only [h1, Outcome.bind_ok, Outcome.pure_eq]
      have e : Fn.run (Fn.doubleNoise f draw) (s1, c + 1) xs = .ok (zs, (s', c + 1 + xs.length)) := h3
      unfold Fn.doubleNoise at e
      simp only [Outcome.pure_eq] at e
      rw [e]
      simp only [Outcome.bind_ok, List.length_cons]
      congr 3; omega
    · refine List.Forall₂.cons ?_ h4
      cases y with
      | none => trivial
      | some a =>
        show lo ≤ |a + _ - a| ∧ |a + _ - a| ≤ hi
        rw [add_sub_cancel_left]
        have hdc := hd c
        have h0c : 0 ≤ (draw c).1 := h0.trans hdc.1
        split
        · rw [mul_one, abs_of_nonneg h0c]; exact hdc
        · rw [mul_neg, mul_one, abs_neg, abs_of_nonneg h0c]; exact hdc

/-- C56: the same for integer noise; here the noise is an integer. -/
theorem C56_integerNoise (f : Fn σ K) (draw : Nat → Int × Int) (lo hi : Int) (h0 : 0 ≤ lo)
    (h1 : hi ≤ 2147483647) (hd : ∀ k, lo ≤ (draw k).1 ∧ (draw k).1 ≤ hi) (xs : List (Option K)) :
    ∀ (s s' : σ) (c : Nat) (ys : List (Option K)), Fn.run f s xs = .ok (ys, s') →
    ∃ zs, Fn.run (Fn.integerNoise f draw) (s, c) xs = .ok (zs, (s', c + xs.length)) ∧
      List.Forall₂ (fun y z => match y, z with
        | some a, some b => ∃ n : Int, b = a + n ∧ lo ≤ |n| ∧ |n| ≤ hi
        | none, none => True
        | _, _ => False) ys zs := by
  induction xs with
  | nil =>
    intro s s' c ys h
    have h := Prod.mk.inj (Outcome.ok.inj h)
    refine ⟨[], ?_, ?_⟩
    · rw [← h.2]; rfl
    · rw [← h.1]; exact List.Forall₂.nil
  | cons x xs ih =>
    intro s s' c ys h
    obtain ⟨y, ys', s1, h1', h2, rfl⟩ := run_cons_ok h
    obtain ⟨zs, h3, h4⟩ := ih s1 s' (c + 1) ys' h2
    have hfit : ¬ 2147483647 < (draw c).1 * (if (draw c).2 % 2 ≠ 0 then 1 else -1) := by
      have hdc := hd c
      split <;> omega
    refine ⟨y.map (fun v => v + (((draw c).1 * (if (draw c).2 % 2 ≠ 0 then 1 else -1) : Int) : K)) :: zs, ?_, ?_⟩
    · unfold Fn.run Fn.integerNoise
      simp only [h1', Outcome.bind_ok, Outcome.pure_eq]
      rw [if_neg hfit]
      simp only [Outcome.bind_ok]
      have e : Fn.run (Fn.integerNoise f draw) (s1, c + 1) xs = .ok (zs, (s', c + 1 + xs.length)) := h3
      unfold Fn.integerNoise at e
      simp only [Outcome.pure_eq] at e
      rw [e]
      simp only [Outcome.bind_ok, List.length_cons]
      congr 3; omega
    · refine List.Forall₂.cons ?_ h4
      cases y with
      | none => trivial
      | some a =>
        refine ⟨_, rfl, ?_⟩
        have hdc := hd c
        have h0c : 0 ≤ (draw c).1 := h0.trans hdc.1
        split
        · rw [mul_one, abs_of_nonneg h0c]; exact hdc
        · rw [mul_neg, mul_one, abs_neg, abs_of_nonneg h0c]; exact hdc

/-- C56: both signs occur: the parity of the second draw decides. -/
theorem C56_sign (f : Fn σ K) (draw : Nat → K × Int) (s s' : σ) (c : Nat) (x : Option K) (v : K)
    (h : f s x = .ok (some v, s')) : Fn.doubleNoise f draw (s, c) x =
      .ok (some (if Even (draw c).2 then v - (draw c).1 else v + (draw c).1), (s', c + 1)) := by
  unfold Fn.doubleNoise
  simp only [h, Outcome.bind_ok, Outcome.pure_eq, Option.map_some]
  by_cases he : Even (draw c).2
  · have : ¬ (draw c).2 % 2 ≠ 0 := by rw [Int.even_iff] at he; omega
    rw [if_neg this, if_pos he]; congr 3; ring
  · have : (draw c).2 % 2 ≠ 0 := by rw [Int.even_iff] at he; omega
    rw [if_pos this, if_neg he]; congr 3; ring

example : Fn.run (Fn.doubleNoise (Fn.displace (1 : ℚ)) (fun k => (1 + k / 10, k))) (false, 0)
    [some 5, some 5, none] = .ok ([some (9/2), some (61/10), none], (true, 3)) := by decide +kernel

end Delynoi
