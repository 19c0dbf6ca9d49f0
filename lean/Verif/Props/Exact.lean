import Verif.Proofs.ExactSum
/-!
# Properties C120 to C124: Triangle's exact arithmetic
-/
set_option linter.unusedSectionVars false
namespace Delynoi
open Ex

/-! ## C120: constants, sums and differences -/

/-- C120: `exactinit` stops, and sets `epsilon` to `2⁻⁵³`, `splitter` to `2²⁷ + 1` and the error
bounds to the values of the error analysis, without rounding errors. -/
theorem C120_exactinit : (∃ fuel k, exactinit fuel = some k) ∧ ∀ fuel k, exactinit fuel = some k →
    k.epsilon = 1 / 2 ^ 53 ∧ k.splitter = 2 ^ 27 + 1 ∧
    k.resulterrbound = (3 + 8 * k.epsilon) * k.epsilon ∧
    k.ccwerrboundA = (3 + 16 * k.epsilon) * k.epsilon ∧
    k.ccwerrboundB = (2 + 12 * k.epsilon) * k.epsilon ∧
    k.ccwerrboundC = (9 + 64 * k.epsilon) * k.epsilon * k.epsilon ∧
    k.iccerrboundA = (10 + 96 * k.epsilon) * k.epsilon ∧
    k.iccerrboundB = (4 + 48 * k.epsilon) * k.epsilon ∧
    k.iccerrboundC = (44 + 576 * k.epsilon) * k.epsilon * k.epsilon := by
  refine ⟨⟨54, konst, exactinit_eq⟩, ?_⟩
  intro fuel k h
  rw [exactinit_konst h]
  decide +kernel

/-- C120: `Two_Sum` returns the rounded sum and its error, a binary64 number, exactly. -/
theorem C120_two_sum (a b : ℚ) (ha : IsDouble a) (hb : IsDouble b) :
    (twoSum a b).1 = fl (a + b) ∧ (twoSum a b).1 + (twoSum a b).2 = a + b ∧ IsDouble (twoSum a b).2 :=
  ⟨rfl, twoSum_add ha hb, (twoSum_double ha hb).2⟩

/-- C120: `Two_Diff` returns the rounded difference and its error exactly. -/
theorem C120_two_diff (a b : ℚ) (ha : IsDouble a) (hb : IsDouble b) :
    (twoDiff a b).1 = fl (a - b) ∧ (twoDiff a b).1 + (twoDiff a b).2 = a - b ∧ IsDouble (twoDiff a b).2 := by
  rw [twoDiff_eq, sub_eq_add_neg]
  exact ⟨rfl, twoSum_add ha hb.neg, (twoSum_double ha hb.neg).2⟩

/-- C120: `Fast_Two_Sum` does so if the first summand is zero or not the smaller one. -/
theorem C120_fast_two_sum (a b : ℚ) (ha : IsDouble a) (hb : IsDouble b) (h : a = 0 ∨ |b| ≤ |a|) :
    (fastTwoSum a b).1 = fl (a + b) ∧ (fastTwoSum a b).1 + (fastTwoSum a b).2 = a + b ∧ IsDouble (fastTwoSum a b).2 :=
  ⟨rfl, (fast_ok ha hb h).1, (fast_ok ha hb h).2.2⟩

/-- Without the condition it does not. -/
theorem C120_fast_two_sum_order_needed : ∃ a b : ℚ, IsDouble a ∧ IsDouble b ∧
    (fastTwoSum a b).1 + (fastTwoSum a b).2 ≠ a + b :=
  ⟨1, 2 ^ 53 + 2, ⟨1, 0, by norm_num, by norm_num, by norm_num⟩, ⟨2 ^ 52 + 1, 1, by norm_num, by norm_num, by norm_num⟩,
    by decide +kernel⟩

/-- C120: `Two_Two_Diff` of two pairs has exactly the value of their difference, in four binary64
numbers. -/
theorem C120_two_two_diff (a1 a0 b1 b0 : ℚ) (h1 : IsDouble a1) (h0 : IsDouble a0) (g1 : IsDouble b1) (g0 : IsDouble b0) :
    (twoTwoDiff a1 a0 b1 b0).length = 4 ∧ (∀ x ∈ twoTwoDiff a1 a0 b1 b0, IsDouble x) ∧
    (twoTwoDiff a1 a0 b1 b0).sum = (a1 + a0) - (b1 + b0) := by
  refine ⟨rfl, ?_, by rw [twoTwoDiff_sum h1 h0 g1 g0]; ring⟩
  have d1 := twoSum_double h0 g0.neg
  rw [← twoDiff_eq] at d1
  have d2 := twoSum_double h1 d1.1
  have d3 := twoSum_double d2.2 g1.neg
  rw [← twoDiff_eq] at d3
  have d4 := twoSum_double d2.1 d3.1
  intro x hx
  have : twoTwoDiff a1 a0 b1 b0 = [(twoDiff a0 b0).2, (twoDiff (twoSum a1 (twoDiff a0 b0).1).2 b1).2,
    (twoSum (twoSum a1 (twoDiff a0 b0).1).1 (twoDiff (twoSum a1 (twoDiff a0 b0).1).2 b1).1).2,
    (twoSum (twoSum a1 (twoDiff a0 b0).1).1 (twoDiff (twoSum a1 (twoDiff a0 b0).1).2 b1).1).1] := rfl
  rw [this] at hx
  simp only [List.mem_cons, List.not_mem_nil, or_false] at hx
  rcases hx with rfl | rfl | rfl | rfl
  exacts [d1.2, d3.2, d4.2, d4.1]

/-- 2⁵³ + 1 is not a binary64 number; the two components recover the sum. -/
example : twoSum (2 ^ 53) 1 = (2 ^ 53, 1) ∧ twoDiff (1 / 2) (2 ^ 53) = (-2 ^ 53, 1 / 2) ∧
    fastTwoSum (2 ^ 53) 1 = (2 ^ 53, 1) ∧ twoTwoDiff (2 ^ 53) 1 1 (1 / 4) = [0, 0, -1 / 4, 2 ^ 53] := by decide +kernel

example : IsDouble (2 ^ 53) ∧ IsDouble 1 ∧ |(1 : ℚ)| ≤ |(2 : ℚ) ^ 53| :=
  ⟨⟨1, 53, by norm_num, by norm_num, by norm_num⟩, ⟨1, 0, by norm_num, by norm_num, by norm_num⟩, by norm_num⟩

/-! ## C121: products -/

/-- C121: with the splitter of `exactinit`, `Two_Product` returns the rounded product and its error
exactly, if the factors are multiples of `2 ^ e` and `2 ^ f` with `e + f ≥ -970`. -/
theorem C121_two_product_partial (fuel : Nat) (k : Consts) (hk : exactinit fuel = some k) (a b : ℚ) (ha : IsDouble a)
    (hb : IsDouble b) (e f : Int) (hae : MultOf e a) (hbf : MultOf f b) (he : -1022 ≤ e) (hf : -1022 ≤ f)
    (hef : -970 ≤ e + f) :
    (twoProduct k.splitter a b).1 = fl (a * b) ∧ (twoProduct k.splitter a b).1 + (twoProduct k.splitter a b).2 = a * b := by
  rw [exactinit_konst hk]
  refine ⟨rfl, ?_⟩
  have := twoProduct_exact ha hb hae hbf he hf hef
  have h1 : (twoProduct spl a b).1 = fl (a * b) := rfl
  change (twoProduct spl a b).1 + (twoProduct spl a b).2 = _
  rw [this, h1]; ring

/-- The product of 2⁻⁶⁰⁰ with itself is lost. -/
theorem C121_two_product_refuted : ∃ k : Consts, exactinit 54 = some k ∧ ∃ a b : ℚ, IsDouble a ∧ IsDouble b ∧
    (twoProduct k.splitter a b).1 + (twoProduct k.splitter a b).2 ≠ a * b :=
  ⟨konst, exactinit_eq, 1 / 2 ^ 600, 1 / 2 ^ 600, ⟨1, -600, by norm_num, by norm_num, by norm_num⟩,
    ⟨1, -600, by norm_num, by norm_num, by norm_num⟩, by decide +kernel⟩

/-- A product of two 53-bit numbers. -/
example : twoProduct (2 ^ 27 + 1) (2 ^ 52 + 1) (2 ^ 52 + 3) = (2 ^ 104 + 2 ^ 54, 3) ∧
    MultOf 0 ((2 : ℚ) ^ 52 + 1) ∧ MultOf 0 ((2 : ℚ) ^ 52 + 3) :=
  ⟨by decide +kernel, ⟨2 ^ 52 + 1, by norm_num⟩, ⟨2 ^ 52 + 3, by norm_num⟩⟩

/-! ## C122: the orientation test -/

/-- C122: for binary64 points whose coordinates are multiples of `2⁻⁴⁴⁰`, what the code returns
without undefined behaviour has the sign of the exact orientation. -/
theorem C122_sign (fuel : Nat) (k : Consts) (hk : exactinit fuel = some k) (pa pb pc : Pt ℚ) (da : DPt pa) (db : DPt pb)
    (dc : DPt pc) (ca : Coarse (-440) pa) (cb : Coarse (-440) pb) (cc : Coarse (-440) pc) (d : ℚ)
    (h : ccw strictSum k false pa pb pc = .ok d) : SameSign d (turn pa pb pc) := by
  rw [exactinit_konst hk] at h
  rcases ccw_cases strictSum pa pb pc da db dc ca cb cc with ⟨d', h1, h2⟩ | ⟨-, h1⟩
  · rw [h1, Outcome.ok.injEq] at h
    rw [← h]; exact h2
  · rw [h1, ccwLast_ub] at h
    exact absurd h (by simp)

/-- C122: it returns, with the right sign, if the four coordinate differences are binary64
numbers.  Missing: the other points, see `C122_returns_refuted`. -/
theorem C122_returns_partial (fuel : Nat) (k : Consts) (hk : exactinit fuel = some k) (pa pb pc : Pt ℚ) (da : DPt pa)
    (db : DPt pb) (dc : DPt pc) (ca : Coarse (-440) pa) (cb : Coarse (-440) pb) (cc : Coarse (-440) pc)
    (h : IsDouble (pa.x - pc.x) ∧ IsDouble (pa.y - pc.y) ∧ IsDouble (pb.x - pc.x) ∧ IsDouble (pb.y - pc.y)) :
    ∃ d, ccw strictSum k false pa pb pc = .ok d ∧ SameSign d (turn pa pb pc) := by
  rw [exactinit_konst hk]
  rcases ccw_cases strictSum pa pb pc da db dc ca cb cc with h' | h'
  · exact h'
  · exact absurd h h'.1

/-- C122: in particular on a grid of 52 bits, of any fineness down to `2⁻⁴⁴⁰`. -/
theorem C122_grid (fuel : Nat) (k : Consts) (hk : exactinit fuel = some k) (pa pb pc : Pt ℚ) (e : Int) (he : -440 ≤ e)
    (ca : Coarse e pa) (cb : Coarse e pb) (cc : Coarse e pc)
    (h : ∀ p ∈ [pa, pb, pc], |p.x| ≤ 2 ^ 52 * (2 : ℚ) ^ e ∧ |p.y| ≤ 2 ^ 52 * (2 : ℚ) ^ e) :
    ∃ d, ccw strictSum k false pa pb pc = .ok d ∧ SameSign d (turn pa pb pc) := by
  have hd : ∀ {x y : ℚ}, MultOf e x → MultOf e y → |x| ≤ 2 ^ 52 * (2 : ℚ) ^ e → |y| ≤ 2 ^ 52 * (2 : ℚ) ^ e →
      IsDouble (x - y) := by
    intro x y hx hy h1 h2
    refine isDouble_of_multOf (e := e) (by omega) (hx.sub hy) ((abs_sub_le' x y).trans ?_)
    linarith
  have hd' : ∀ {x : ℚ}, MultOf e x → |x| ≤ 2 ^ 52 * (2 : ℚ) ^ e → IsDouble x := by
    intro x hx h1
    have := hd hx MultOf.zero h1 (by rw [abs_zero]; have := two_zpow_pos e; positivity)
    rwa [sub_zero] at this
  have lower : ∀ {p : Pt ℚ}, Coarse e p → Coarse (-440) p := fun hp => ⟨hp.1.mono he, hp.2.mono he⟩
  have ha := h pa (by simp)
  have hb := h pb (by simp)
  have hc := h pc (by simp)
  exact C122_returns_partial fuel k hk pa pb pc ⟨hd' ca.1 ha.1, hd' ca.2 ha.2⟩ ⟨hd' cb.1 hb.1, hd' cb.2 hb.2⟩
    ⟨hd' cc.1 hc.1, hd' cc.2 hc.2⟩ (lower ca) (lower cb) (lower cc)
    ⟨hd ca.1 cc.1 ha.1 hc.1, hd ca.2 cc.2 ha.2 hc.2, hd cb.1 cc.1 hb.1 hc.1, hd cb.2 cc.2 hb.2 hc.2⟩

/-- Three collinear points for which the last stage is reached, where `fast_expansion_sum_zeroelim`
reads `B[4]` of an array of four. -/
theorem C122_returns_refuted : ∃ pa pb pc : Pt ℚ, DPt pa ∧ DPt pb ∧ DPt pc ∧ Coarse (-440) pa ∧ Coarse (-440) pb ∧
    Coarse (-440) pc ∧ ∃ k, exactinit 54 = some k ∧ ccw strictSum k false pa pb pc = .ub := by
  have d1 : IsDouble 1 := ⟨1, 0, by norm_num, by norm_num, by norm_num⟩
  have d2 : IsDouble 2 := ⟨1, 1, by norm_num, by norm_num, by norm_num⟩
  have d3 : IsDouble (1 / 2 ^ 60) := ⟨1, -60, by norm_num, by norm_num, by norm_num⟩
  have c1 : MultOf (-440) 1 := ⟨2 ^ 440, by decide +kernel⟩
  have c2 : MultOf (-440) 2 := ⟨2 ^ 441, by decide +kernel⟩
  have c3 : MultOf (-440) (1 / 2 ^ 60) := ⟨2 ^ 380, by decide +kernel⟩
  exact ⟨⟨1, 1⟩, ⟨2, 2⟩, ⟨1 / 2 ^ 60, 1 / 2 ^ 60⟩, ⟨d1, d1⟩, ⟨d2, d2⟩, ⟨d3, d3⟩, ⟨c1, c1⟩, ⟨c2, c2⟩, ⟨c3, c3⟩, konst,
    exactinit_eq, by decide +kernel⟩

/-- Tiny coordinates: a left turn is reported as collinear. -/
theorem C122_underflow : ∃ pa pb pc : Pt ℚ, DPt pa ∧ DPt pb ∧ DPt pc ∧
    ∃ k, exactinit 54 = some k ∧ ccw strictSum k false pa pb pc = .ok 0 ∧ 0 < turn pa pb pc := by
  have d1 : IsDouble (1 / 2 ^ 600) := ⟨1, -600, by norm_num, by norm_num, by norm_num⟩
  exact ⟨⟨1 / 2 ^ 600, 0⟩, ⟨0, 1 / 2 ^ 600⟩, ⟨0, 0⟩, ⟨d1, isDouble_zero⟩, ⟨isDouble_zero, d1⟩, ⟨isDouble_zero, isDouble_zero⟩,
    konst, exactinit_eq, by decide +kernel⟩

/-- With the switch `-X` a left turn of integer points is reported as collinear. -/
theorem C122_noexact : ∃ pa pb pc : Pt ℚ, Coarse 0 pa ∧ Coarse 0 pb ∧ Coarse 0 pc ∧
    (∀ p ∈ [pa, pb, pc], |p.x| ≤ 2 ^ 28 ∧ |p.y| ≤ 2 ^ 28) ∧
    ∃ k, exactinit 54 = some k ∧ ccw strictSum k true pa pb pc = .ok 0 ∧ 0 < turn pa pb pc ∧
      ccw strictSum k false pa pb pc = .ok 1 :=
  ⟨⟨2 ^ 27 + 1, 2 ^ 27⟩, ⟨2 ^ 27 + 2, 2 ^ 27 + 1⟩, ⟨0, 0⟩, ⟨⟨2 ^ 27 + 1, by norm_num⟩, ⟨2 ^ 27, by norm_num⟩⟩,
    ⟨⟨2 ^ 27 + 2, by norm_num⟩, ⟨2 ^ 27 + 1, by norm_num⟩⟩, ⟨⟨0, by norm_num⟩, ⟨0, by norm_num⟩⟩, by decide +kernel,
    konst, exactinit_eq, by decide +kernel⟩

/-! ## C123: the in-circle test -/

/-- C123: for points whose coordinates are multiples of `2⁻²⁴⁰`, the in-circle test returns, in its
first stage or with any correct `incircleadapt`, a number with the sign of `turn a b c` times the
power of `d` with respect to the circle through `a`, `b` and `c`: for a counterclockwise triangle it
is positive exactly if `d` lies inside.  The stages of `incircleadapt`: `C153_decides`. -/
theorem C123_first_stage (fuel : Nat) (k : Consts) (hk : exactinit fuel = some k) (pa pb pc pd o : Pt ℚ)
    (h1 : sqDist o pa = sqDist o pb) (h2 : sqDist o pa = sqDist o pc)
    (ca : Coarse (-240) pa) (cb : Coarse (-240) pb) (cc : Coarse (-240) pc) (cd : Coarse (-240) pd)
    (adapt : Pt ℚ → Pt ℚ → Pt ℚ → Pt ℚ → ℚ → Outcome ℚ) :
    (∃ d, incircle adapt k false pa pb pc pd = .ok d ∧ SameSign d (turn pa pb pc * (sqDist o pa - sqDist o pd))) ∨
    ∃ permanent, incircle adapt k false pa pb pc pd = adapt pa pb pc pd permanent := by
  rw [exactinit_konst hk, ← icDet_eq pa pb pc pd o h1 h2]
  unfold incircle
  dsimp only
  rw [if_neg (by simp)]
  split_ifs with hf
  · exact Or.inl ⟨_, rfl, incircle_filter pa pb pc pd ca cb cc cd hf⟩
  · exact Or.inr ⟨_, rfl⟩

/-- C123: for a counterclockwise triangle and a correct `incircleadapt`, the test decides whether
`d` is inside the circumcircle, on it, or outside. -/
theorem C123_given_adapt (fuel : Nat) (k : Consts) (hk : exactinit fuel = some k) (pa pb pc pd o : Pt ℚ)
    (h1 : sqDist o pa = sqDist o pb) (h2 : sqDist o pa = sqDist o pc) (ht : 0 < turn pa pb pc)
    (ca : Coarse (-240) pa) (cb : Coarse (-240) pb) (cc : Coarse (-240) pc) (cd : Coarse (-240) pd)
    (adapt : Pt ℚ → Pt ℚ → Pt ℚ → Pt ℚ → ℚ → Outcome ℚ)
    (hadapt : ∀ p, ∃ d, adapt pa pb pc pd p = .ok d ∧ SameSign d (turn pa pb pc * (sqDist o pa - sqDist o pd))) :
    ∃ d, incircle adapt k false pa pb pc pd = .ok d ∧ (0 < d ↔ sqDist o pd < sqDist o pa) ∧
      (d < 0 ↔ sqDist o pa < sqDist o pd) := by
  have fin : ∀ d, SameSign d (turn pa pb pc * (sqDist o pa - sqDist o pd)) →
      (0 < d ↔ sqDist o pd < sqDist o pa) ∧ (d < 0 ↔ sqDist o pa < sqDist o pd) := by
    intro d hd
    rw [hd.1, hd.2, mul_pos_iff_of_pos_left ht, sub_pos, mul_neg_iff]
    refine ⟨Iff.rfl, ?_, ?_⟩
    · rintro (⟨-, h⟩ | ⟨h, -⟩) <;> linarith
    · intro h; exact Or.inl ⟨ht, by linarith⟩
  rcases C123_first_stage fuel k hk pa pb pc pd o h1 h2 ca cb cc cd adapt with ⟨d, e, s⟩ | ⟨p, e⟩
  · exact ⟨d, e, fin d s⟩
  · obtain ⟨d, e', s⟩ := hadapt p
    exact ⟨d, by rw [e, e'], fin d s⟩

/-- The unit circle: a point inside and a point outside are recognised by the first stage. -/
example (adapt : Pt ℚ → Pt ℚ → Pt ℚ → Pt ℚ → ℚ → Outcome ℚ) :
    incircle adapt konst false ⟨1, 0⟩ ⟨0, 1⟩ ⟨-1, 0⟩ ⟨0, 1 / 2⟩ = .ok (3 / 2) ∧
    incircle adapt konst false ⟨1, 0⟩ ⟨0, 1⟩ ⟨-1, 0⟩ ⟨2, 0⟩ = .ok (-6) := by
  unfold incircle
  dsimp only
  constructor
  · rw [if_neg (by simp), if_pos (by decide +kernel), Outcome.ok.injEq]
    decide +kernel
  · rw [if_neg (by simp), if_pos (by decide +kernel), Outcome.ok.injEq]
    decide +kernel

example : sqDist (⟨0, 0⟩ : Pt ℚ) ⟨1, 0⟩ = sqDist ⟨0, 0⟩ ⟨0, 1⟩ ∧ sqDist (⟨0, 0⟩ : Pt ℚ) ⟨1, 0⟩ = sqDist ⟨0, 0⟩ ⟨-1, 0⟩ ∧
    0 < turn (⟨1, 0⟩ : Pt ℚ) ⟨0, 1⟩ ⟨-1, 0⟩ ∧ Coarse (-240) ⟨0, 1 / 2⟩ :=
  ⟨by decide +kernel, by decide +kernel, by decide +kernel, ⟨0, by norm_num⟩, ⟨2 ^ 239, by decide +kernel⟩⟩

/-! ## C124: sums of expansions -/

/-- C124: the components of `fast_expansion_sum_zeroelim` are binary64 numbers and add up to the
sum of both arguments, if the second component of each argument is zero or not smaller than the
first. -/
theorem C124_value (e f : List ℚ) (he : ∀ x ∈ e, IsDouble x) (hf : ∀ x ∈ f, IsDouble x) (e0 : e ≠ []) (f0 : f ≠ [])
    (re : Rising e) (rf : Rising f) :
    ∃ h, fastExpansionSum e f = some h ∧ h.sum = e.sum + f.sum ∧ ∀ x ∈ h, IsDouble x :=
  fastExpansionSum_sum he hf e0 f0 re rf

/-- The sum 2⁵³ + 1 + 2⁻⁶⁰ + 2⁶⁰ - 1 in components. -/
example : fastExpansionSum [1, 2 ^ 53] [1 / 2 ^ 60, -1, 2 ^ 60] = some [1 / 2 ^ 60, 2 ^ 60 + 2 ^ 53] ∧
    Rising [1, 2 ^ 53] ∧ Rising [1 / 2 ^ 60, -1, 2 ^ 60] :=
  ⟨by decide +kernel, Or.inr (by norm_num), Or.inr (by norm_num)⟩

/-- C124: the code reads behind an array which its argument fills. -/
theorem C124_over_read (ce cf : Nat) (e f : List ℚ) (h : e.length = ce ∨ f.length = cf) :
    fastExpansionSumAt ce cf e f = .ub :=
  strictSum_full (h.imp (fun h => h.ge) (fun h => h.ge))

/-- C124: it does not if there is room behind both. -/
theorem C124_no_over_read (ce cf : Nat) (e f : List ℚ) (he : ∀ x ∈ e, IsDouble x) (hf : ∀ x ∈ f, IsDouble x) (e0 : e ≠ [])
    (f0 : f ≠ []) (re : Rising e) (rf : Rising f) (h1 : e.length < ce) (h2 : f.length < cf) :
    ∃ h, fastExpansionSumAt ce cf e f = .ok h ∧ h.sum = e.sum + f.sum := by
  obtain ⟨h, a, b, -⟩ := fastExpansionSum_sum he hf e0 f0 re rf
  refine ⟨h, ?_, b⟩
  unfold fastExpansionSumAt
  rw [if_pos ⟨h1, h2⟩, a]

end Delynoi
