import Verif.Proofs.AdaptMono
/-!
# Properties C123 and C151-C154: the adaptive in-circle test of Triangle
-/
set_option linter.unusedSectionVars false
namespace Delynoi
open Ex

/-! ## C151: products of expansions -/

/-- C151: `scale_expansion_zeroelim` multiplies an expansion by a number without error: the result has
the form of an expansion, no zero components (unless it is the single zero), a last component with the
sign of the product, and at most twice as many components. -/
theorem C151_scale (fuel : Nat) (k : Consts) (hk : exactinit fuel = some k) (e : List ℚ) (b : ℚ) (A B : Int)
    (he : Expansion 0 0 e) (e0 : e ≠ []) (me : ∀ x ∈ e, MultOf A x) (db : IsDouble b) (mb : MultOf B b)
    (hA : -1022 ≤ A) (hB : -1022 ≤ B) (hAB : -970 ≤ A + B) :
    ∃ h, scaleExpansion k.splitter e b = .ok h ∧ Expansion 0 0 h ∧ h.sum = b * e.sum ∧ ((∀ x ∈ h, x ≠ 0) ∨ h = [0]) ∧
      h.length ≤ 2 * e.length ∧ (∀ x ∈ h, MultOf (A + B) x) ∧ ∃ d, h.getLast? = some d ∧ SameSign d (b * e.sum) := by
  rw [exactinit_konst hk]
  obtain ⟨h, h1, h2, h3, h4, h5⟩ := scaleExpansion_exp he e0 me db mb ⟨hA, hB, hAB⟩
  obtain ⟨d, hd, hs⟩ := exp_sign h2 h4 h5
  rw [h3] at hs
  exact ⟨h, h1, h2, h3, h5, scale_length h1, (scaleExpansion_grid (exp_double he) me db mb ⟨hA, hB, hAB⟩ h1).1, d, hd, hs⟩

/-- `(2⁵³ + 2⁻¹⁰) * (2⁵² + 1)`, which has 116 bits, in two components. -/
example : scaleExpansion konst.splitter [1 / 2 ^ 10, 2 ^ 53] (2 ^ 52 + 1) = .ok [(2 ^ 52 + 1) / 2 ^ 10, 2 ^ 105 + 2 ^ 53] ∧
    Expansion 0 0 [1 / 2 ^ 10, 2 ^ 53] := by
  refine ⟨by decide +kernel, ?_⟩
  have d1 : IsDouble (1 / 2 ^ 10) := ⟨1, -10, by norm_num, by norm_num, by norm_num [zpow_neg]⟩
  have d2 : IsDouble (2 ^ 53) := ⟨1, 53, by norm_num, by norm_num, by norm_num⟩
  refine ⟨d1, Or.inr ⟨-10, ⟨1, by decide, by norm_num [zpow_neg]⟩, by norm_num, by norm_num, d2,
    Or.inr ⟨53, ⟨1, by decide, by norm_num⟩, ?_, ?_, trivial⟩⟩⟩
  · rw [abs_of_pos (by norm_num)]; norm_num
  · rw [abs_of_pos (by norm_num)]; norm_num

/-- C151: neither the product nor the sum of expansions has more components than the arrays which the
callers provide, whatever the numbers are. -/
theorem C151_lengths (s b : ℚ) (e f h : List ℚ) :
    (scaleExpansion s e b = .ok h → h.length ≤ 2 * e.length) ∧
    (fastExpansionSum e f = some h → h.length ≤ e.length + f.length) :=
  ⟨scale_length, fes_length⟩

/-! ## C152: the estimate -/

/-- C152: `estimate` gives the value of an expansion with a relative error below `2⁻⁵¹`, so it has the
sign of the value. -/
theorem C152_estimate (h : List ℚ) (he : Expansion 0 0 h) (hn : h ≠ []) :
    ∃ q, estimate h = some q ∧ |q - h.sum| ≤ 5 / 4 * (1 / 2 ^ 52) * |h.sum| ∧ SameSign q h.sum := by
  obtain ⟨q, h1, h2⟩ := estimate_exp he hn
  have e : eta = 1 / 2 ^ 52 := by unfold eta; norm_num
  rw [e] at h2
  refine ⟨q, h1, h2, ?_⟩
  rcases lt_trichotomy h.sum 0 with hs | hs | hs
  · rw [abs_of_neg hs] at h2
    have := (abs_le.1 h2).2
    exact ⟨⟨fun _ => by linarith, fun _ => by linarith⟩, ⟨fun _ => hs, fun _ => by linarith⟩⟩
  · rw [hs, abs_zero, mul_zero, sub_zero] at h2
    have : q = 0 := abs_eq_zero.1 (le_antisymm h2 (abs_nonneg _))
    rw [this, hs]
    exact ⟨Iff.rfl, Iff.rfl⟩
  · rw [abs_of_pos hs] at h2
    have := (abs_le.1 h2).1
    exact ⟨⟨fun _ => hs, fun _ => by linarith⟩, ⟨fun _ => by linarith, fun _ => by linarith⟩⟩

/-- An estimate which is not exact. -/
example : estimate [1 / 2 ^ 10, 2 ^ 53] = some (2 ^ 53) := by decide +kernel

/-! ## C153: the in-circle test decides -/

/-- C153: on a machine where reading one element behind an array does no harm, the in-circle test
returns for all binary64 points whose coordinates are multiples of `2⁻²⁴⁰`, through all its stages,
and its result has the sign of `turn a b c` times the power of `d` with respect to the circle through
`a`, `b` and `c`. -/
theorem C153_sign (fuel : Nat) (k : Consts) (hk : exactinit fuel = some k) (pa pb pc pd o : Pt ℚ)
    (da : DPt pa) (db : DPt pb) (dc : DPt pc) (dd : DPt pd)
    (ca : Coarse (-240) pa) (cb : Coarse (-240) pb) (cc : Coarse (-240) pc) (cd : Coarse (-240) pd)
    (h1 : sqDist o pa = sqDist o pb) (h2 : sqDist o pa = sqDist o pc) :
    ∃ d, incircle (incircleAdapt laxSum k) k false pa pb pc pd = .ok d ∧
      SameSign d (turn pa pb pc * (sqDist o pa - sqDist o pd)) := by
  rw [exactinit_konst hk, ← icDet_eq pa pb pc pd o h1 h2]
  unfold incircle
  dsimp only
  rw [if_neg (by simp)]
  split_ifs with hf
  · exact ⟨_, rfl, incircle_filter pa pb pc pd ca cb cc cd hf⟩
  · exact adapt_lax pa pb pc pd da db dc dd ca cb cc cd

/-- C153: so for a counterclockwise triangle the result is positive, zero or negative as `d` lies inside
the circumcircle, on it or outside. -/
theorem C153_decides (fuel : Nat) (k : Consts) (hk : exactinit fuel = some k) (pa pb pc pd o : Pt ℚ)
    (da : DPt pa) (db : DPt pb) (dc : DPt pc) (dd : DPt pd)
    (ca : Coarse (-240) pa) (cb : Coarse (-240) pb) (cc : Coarse (-240) pc) (cd : Coarse (-240) pd)
    (h1 : sqDist o pa = sqDist o pb) (h2 : sqDist o pa = sqDist o pc) (ht : 0 < turn pa pb pc) :
    ∃ d, incircle (incircleAdapt laxSum k) k false pa pb pc pd = .ok d ∧
      (0 < d ↔ sqDist o pd < sqDist o pa) ∧ (d = 0 ↔ sqDist o pd = sqDist o pa) ∧ (d < 0 ↔ sqDist o pa < sqDist o pd) := by
  obtain ⟨d, h, s1, s2⟩ := C153_sign fuel k hk pa pb pc pd o da db dc dd ca cb cc cd h1 h2
  have p1 : 0 < d ↔ sqDist o pd < sqDist o pa := by rw [s1, mul_pos_iff_of_pos_left ht, sub_pos]
  have p2 : d < 0 ↔ sqDist o pa < sqDist o pd := by
    rw [s2, mul_neg_iff]
    refine ⟨?_, fun h => Or.inl ⟨ht, by linarith⟩⟩
    rintro (⟨-, h⟩ | ⟨h, -⟩) <;> linarith
  refine ⟨d, h, p1, ?_, p2⟩
  constructor
  · intro h0
    subst h0
    exact le_antisymm (not_lt.1 fun h => lt_irrefl _ (p2.2 h)) (not_lt.1 fun h => lt_irrefl _ (p1.2 h))
  · intro h0
    exact le_antisymm (not_lt.1 fun h => (p1.1 h).ne h0) (not_lt.1 fun h => (p2.1 h).ne h0.symm)

/-- C153: the determinant itself, also for points on a line: the test agrees with itself when points
change places. -/
theorem C153_symmetric (fuel : Nat) (k : Consts) (hk : exactinit fuel = some k) (pa pb pc pd : Pt ℚ)
    (da : DPt pa) (db : DPt pb) (dc : DPt pc) (dd : DPt pd)
    (ca : Coarse (-240) pa) (cb : Coarse (-240) pb) (cc : Coarse (-240) pc) (cd : Coarse (-240) pd) :
    ∃ d d' d'' d''', incircle (incircleAdapt laxSum k) k false pa pb pc pd = .ok d ∧
      incircle (incircleAdapt laxSum k) k false pb pa pc pd = .ok d' ∧
      incircle (incircleAdapt laxSum k) k false pb pc pa pd = .ok d'' ∧
      incircle (incircleAdapt laxSum k) k false pa pb pd pc = .ok d''' ∧
      SameSign d (-d') ∧ SameSign d d'' ∧ SameSign d (-d''') := by
  have one : ∀ pa pb pc pd : Pt ℚ, DPt pa → DPt pb → DPt pc → DPt pd → Coarse (-240) pa → Coarse (-240) pb → Coarse (-240) pc →
      Coarse (-240) pd → ∃ d, incircle (incircleAdapt laxSum k) k false pa pb pc pd = .ok d ∧ SameSign d (icDet pa pb pc pd) := by
    intro pa pb pc pd da db dc dd ca cb cc cd
    rw [exactinit_konst hk]
    unfold incircle
    dsimp only
    rw [if_neg (by simp)]
    split_ifs with hf
    · exact ⟨_, rfl, incircle_filter pa pb pc pd ca cb cc cd hf⟩
    · exact adapt_lax pa pb pc pd da db dc dd ca cb cc cd
  have flip : ∀ x y a b : ℚ, SameSign x a → SameSign y b → a = -b → SameSign x (-y) := by
    intro x y a b h1 h2 e
    refine h1.trans ?_
    rw [e]
    exact ⟨by simpa using h2.2.symm, by simpa using h2.1.symm⟩
  obtain ⟨d, h1, s1⟩ := one pa pb pc pd da db dc dd ca cb cc cd
  obtain ⟨d', h2, s2⟩ := one pb pa pc pd db da dc dd cb ca cc cd
  obtain ⟨d'', h3, s3⟩ := one pb pc pa pd db dc da dd cb cc ca cd
  obtain ⟨d''', h4, s4⟩ := one pa pb pd pc da db dd dc ca cb cd cc
  refine ⟨d, d', d'', d''', h1, h2, h3, h4, flip _ _ _ _ s1 s2 ?_, s1.trans ?_, flip _ _ _ _ s1 s4 ?_⟩
  · unfold icDet; ring
  · have e : icDet pa pb pc pd = icDet pb pc pa pd := by unfold icDet; ring
    rw [e]
    exact s3.symm
  · unfold icDet; ring

/-- Three corners of a square, its fourth corner, and points which differ from it by `2⁻¹¹²` or
`2⁻¹¹³`: only the last stage tells them apart. -/
example : incircle (incircleAdapt laxSum konst) konst false ⟨1 / 2 ^ 60, 1 / 2 ^ 60⟩ ⟨1, 1 / 2 ^ 60⟩ ⟨1, 1⟩ ⟨1 / 2 ^ 60, 1⟩ = .ok 0 ∧
    incircle (incircleAdapt laxSum konst) konst false ⟨1 / 2 ^ 60, 1 / 2 ^ 60⟩ ⟨1, 1 / 2 ^ 60⟩ ⟨1, 1⟩
      ⟨1 / 2 ^ 60 + 1 / 2 ^ 112, 1⟩ = .ok (1 / 2 ^ 112) ∧
    incircle (incircleAdapt laxSum konst) konst false ⟨1 / 2 ^ 60, 1 / 2 ^ 60⟩ ⟨1, 1 / 2 ^ 60⟩ ⟨1, 1⟩
      ⟨1 / 2 ^ 60 - 1 / 2 ^ 113, 1⟩ = .ok (-1 / 2 ^ 113) := by decide +kernel

/-! ## C123: the in-circle test on the abstract machine of C -/

/-- C123: what the in-circle test returns, on the abstract machine of C, has the right sign. -/
theorem C123_sign (fuel : Nat) (k : Consts) (hk : exactinit fuel = some k) (pa pb pc pd o : Pt ℚ)
    (da : DPt pa) (db : DPt pb) (dc : DPt pc) (dd : DPt pd)
    (ca : Coarse (-240) pa) (cb : Coarse (-240) pb) (cc : Coarse (-240) pc) (cd : Coarse (-240) pd)
    (h1 : sqDist o pa = sqDist o pb) (h2 : sqDist o pa = sqDist o pc) (d : ℚ)
    (hd : incircle (incircleAdapt strictSum k) k false pa pb pc pd = .ok d) :
    SameSign d (turn pa pb pc * (sqDist o pa - sqDist o pd)) := by
  obtain ⟨d', h, s⟩ := C153_sign fuel k hk pa pb pc pd o da db dc dd ca cb cc cd h1 h2
  have le : LeOut (incircle (incircleAdapt strictSum k) k false pa pb pc pd)
      (incircle (incircleAdapt laxSum k) k false pa pb pc pd) := by
    unfold incircle
    dsimp only
    rw [if_neg Bool.false_ne_true, if_neg Bool.false_ne_true]
    split_ifs
    · exact .rfl' _
    · exact adapt_le strict_le_lax k pa pb pc pd _
  rcases le with hu | he
  · rw [hu] at hd; cases hd
  · rw [← he, hd, Outcome.ok.injEq] at h
    rwa [h]

/-- C123: for the four corners of a square the last stage is reached, and there `Two_Two_Sum` fills the
four elements of `u` and `v`, behind which `fast_expansion_sum_zeroelim` reads: undefined behaviour. -/
theorem C123_returns_refuted : ∃ pa pb pc pd : Pt ℚ, DPt pa ∧ DPt pb ∧ DPt pc ∧ DPt pd ∧ Coarse (-240) pa ∧
    Coarse (-240) pb ∧ Coarse (-240) pc ∧ Coarse (-240) pd ∧ ∃ k, exactinit 54 = some k ∧
    incircle (incircleAdapt strictSum k) k false pa pb pc pd = .ub := by
  have d0 : IsDouble (1 / 2 ^ 60) := ⟨1, -60, by norm_num, by norm_num, by norm_num [zpow_neg]⟩
  have d1 : IsDouble 1 := ⟨1, 0, by norm_num, by norm_num, by norm_num⟩
  have m0 : MultOf (-240) (1 / 2 ^ 60) := ⟨2 ^ 180, by norm_num [zpow_neg]⟩
  have m1 : MultOf (-240) 1 := ⟨2 ^ 240, by norm_num [zpow_neg]⟩
  exact ⟨⟨1 / 2 ^ 60, 1 / 2 ^ 60⟩, ⟨1, 1 / 2 ^ 60⟩, ⟨1, 1⟩, ⟨1 / 2 ^ 60, 1⟩, ⟨d0, d0⟩, ⟨d1, d0⟩, ⟨d1, d1⟩, ⟨d0, d1⟩,
    ⟨m0, m0⟩, ⟨m1, m0⟩, ⟨m1, m1⟩, ⟨m0, m1⟩, konst, exactinit_eq, by decide +kernel⟩

/-- On the abstract machine a later stage may well return: four corners of a square whose sides are
binary64 numbers, and a point off by one bit. -/
example : incircle (incircleAdapt strictSum konst) konst false ⟨0, 0⟩ ⟨1, 0⟩ ⟨1, 1⟩ ⟨0, 1⟩ = .ok 0 ∧
    incircle (incircleAdapt strictSum konst) konst false ⟨0, 0⟩ ⟨1, 0⟩ ⟨1, 1⟩ ⟨1 / 2 ^ 53, 1⟩ =
      .ok ((2 ^ 53 - 1) / 2 ^ 106) := by decide +kernel

/-! ## C154: the arrays of the in-circle test -/

/-- C154: no sum in `incircleadapt` gets or gives more components than fit into its arrays, in particular
none of the up to 27 sums in `fin1` and `fin2` exceeds 1152, whatever the points are. -/
theorem C154_capacity (k : Consts) (pa pb pc pd : Pt ℚ) (permanent : ℚ) :
    incircleAdapt capSum k pa pb pc pd permanent = incircleAdapt laxSum k pa pb pc pd permanent :=
  adapt_cap k pa pb pc pd permanent

/-- So for binary64 points on the grid the checked machine returns, too. -/
theorem C154_returns (fuel : Nat) (k : Consts) (hk : exactinit fuel = some k) (pa pb pc pd : Pt ℚ)
    (da : DPt pa) (db : DPt pb) (dc : DPt pc) (dd : DPt pd)
    (ca : Coarse (-240) pa) (cb : Coarse (-240) pb) (cc : Coarse (-240) pc) (cd : Coarse (-240) pd) :
    ∃ d, incircle (incircleAdapt capSum k) k false pa pb pc pd = .ok d := by
  have e : incircleAdapt capSum k = incircleAdapt laxSum k := by
    funext a b c d p
    exact adapt_cap k a b c d p
  rw [e]
  obtain ⟨d, -, -, -, h, -⟩ := C153_symmetric fuel k hk pa pb pc pd da db dc dd ca cb cc cd
  exact ⟨d, h⟩

/-- The check is not idle: too many components are an error. -/
example : capSum 1 4 [1 / 2 ^ 60, 1] [2 ^ 60] = .ub ∧
    capSum 4 4 [1 / 2 ^ 60, 1] [2 ^ 60] = .ok [1 / 2 ^ 60, 1, 2 ^ 60] := by decide +kernel

end Delynoi
