import Verif.Model.Trig
import Verif.Props.AddHole
import Mathlib.Tactic.FieldSimp
import Mathlib.Tactic.Ring
import Mathlib.Tactic.Linarith
import Mathlib.Tactic.Positivity
/-!
# Properties C57, C58, C78, C81: angles, circles, arcs, trigonometric functors
-/
set_option linter.unusedSectionVars false
namespace Delynoi

/-! ### C57 -/

/-- C57: the point at an angle is at distance `|radius|` from the center. -/
theorem circlePoint_dist (c : Pt ℝ) (r a : ℝ) :
    ((circlePoint c r a).x - c.x) ^ 2 + ((circlePoint c r a).y - c.y) ^ 2 = r ^ 2 := by
  unfold circlePoint
  have := Real.sin_sq_add_cos_sq (radian a)
  dsimp only
  linear_combination r ^ 2 * this

private theorem circleLoop_spec (c : Pt ℝ) (r : ℝ) (d : Nat) (hd : 0 < d) (fuel : Nat) : ∀ k : Nat,
    fuel * d + k * d ≥ 360 + d → k * d < 360 + d →
    circleLoop c r (d : ℝ) fuel ((k * d : Nat) : ℝ) =
      .ok ((List.range' k ((360 + d - 1) / d - k)).map (fun i => circlePoint c r ((i * d : Nat) : ℝ))) := by
  induction fuel with
  | zero => intro k h1 h2; omega
  | succ fuel ih =>
    intro k h1 h2
    unfold circleLoop
    by_cases hk : k * d < 360
    · have hk' : ((k * d : Nat) : ℝ) < 360 := by exact_mod_cast hk
      rw [if_pos hk']
      have e : ((k * d : Nat) : ℝ) + (d : ℝ) = (((k + 1) * d : Nat) : ℝ) := by push_cast; ring
      have h3 := ih (k + 1) (by rw [Nat.add_mul] at h1 ⊢; omega) (by rw [Nat.add_mul]; omega)
      rw [e, h3]
      have hlt : k < (360 + d - 1) / d := by
        rw [Nat.lt_div_iff_mul_lt hd]; omega
      have e2 : (360 + d - 1) / d - k = ((360 + d - 1) / d - (k + 1)) + 1 := by omega
      rw [e2, List.range'_succ, List.map_cons]
      rfl
    · have hk' : ¬ ((k * d : Nat) : ℝ) < 360 := by push Not; exact_mod_cast Nat.le_of_not_lt hk
      rw [if_neg hk']
      have : (360 + d - 1) / d ≤ k := by
        apply Nat.le_of_lt_succ
        rw [Nat.div_lt_iff_lt_mul hd, Nat.succ_mul]; omega
      rw [Nat.sub_eq_zero_of_le this]; rfl

private theorem circleLoop_diverges (c : Pt ℝ) (r d : ℝ) (hd : d ≤ 0) (fuel : Nat) : ∀ a : ℝ, a < 360 →
    circleLoop c r d fuel a = .ub := by
  induction fuel with
  | zero => intro a _; rfl
  | succ fuel ih =>
    intro a ha
    unfold circleLoop
    rw [if_pos ha, ih (a + d) (by linarith)]; rfl

private theorem tdiv_pos (g : Int) (h1 : 1 ≤ g) (h2 : g ≤ 360) :
    Int.tdiv 360 g = ((360 / g.toNat : Nat) : Int) ∧ 0 < 360 / g.toNat := by
  constructor
  · have : g = (g.toNat : Int) := by omega
    conv_lhs => rw [this]
    rfl
  · exact Nat.div_pos (by omega) (by omega)

/-- C57, termination: the loop ends iff the grade is between 1 and 360. -/
theorem C57_terminates_iff (g : Int) (c : Pt ℝ) (r : ℝ) :
    (∃ fuel pts, discretizeCircle fuel g c r = .ok pts) ↔ 1 ≤ g ∧ g ≤ 360 := by
  constructor
  · rintro ⟨fuel, pts, h⟩
    unfold discretizeCircle at h
    by_cases h0 : g = 0
    · rw [if_pos h0] at h; cases h
    rw [if_neg h0] at h
    by_contra hc
    have hle : Int.tdiv 360 g ≤ 0 := by
      rcases lt_or_gt_of_ne h0 with hg | hg
      · exact Int.tdiv_nonpos_of_nonneg_of_nonpos (by norm_num) hg.le
      · have : 360 < g := by omega
        rw [Int.tdiv_eq_zero_of_lt (by norm_num) this]
    rw [circleLoop_diverges c r _ (by exact_mod_cast hle) fuel 0 (by norm_num)] at h
    cases h
  · rintro ⟨h1, h2⟩
    obtain ⟨e, hd⟩ := tdiv_pos g h1 h2
    have := circleLoop_spec c r (360 / g.toNat) hd 361 0 (by
      simp only [Nat.zero_mul, Nat.add_zero]
      have : 360 / g.toNat ≥ 1 := hd
      omega) (by omega)
    refine ⟨361, (List.range' 0 ((360 + 360 / g.toNat - 1) / (360 / g.toNat) - 0)).map
        (fun i => circlePoint c r ((i * (360 / g.toNat) : Nat) : ℝ)), ?_⟩
    · unfold discretizeCircle
      rw [if_neg (by omega), e]
      rw [Nat.zero_mul, Nat.cast_zero] at this
      exact_mod_cast this

/-- C57: the points, in order: one every `⌊360/grade⌋` degrees from 0 up to but not including
360. -/
theorem C57_points (g : Int) (h1 : 1 ≤ g) (h2 : g ≤ 360) (c : Pt ℝ) (r : ℝ) :
    ∃ fuel d : Nat, d = 360 / g.toNat ∧ 0 < d ∧ discretizeCircle fuel g c r =
      .ok ((List.range ((360 + d - 1) / d)).map (fun i => circlePoint c r ((i * d : Nat) : ℝ))) := by
  obtain ⟨e, hd⟩ := tdiv_pos g h1 h2
  refine ⟨361, 360 / g.toNat, rfl, hd, ?_⟩
  have := circleLoop_spec c r (360 / g.toNat) hd 361 0 (by
    simp only [Nat.zero_mul, Nat.add_zero]
    have : 360 / g.toNat ≥ 1 := hd
    omega) (by omega)
  unfold discretizeCircle
  rw [if_neg (by omega), e]
  rw [Nat.zero_mul, Nat.cast_zero, Nat.sub_zero, ← List.range_eq_range'] at this
  exact_mod_cast this

/-- More fuel does not change a completed result. -/
private theorem circleLoop_mono (c : Pt ℝ) (r d : ℝ) (f : Nat) : ∀ (a : ℝ) (x : List (Pt ℝ)),
    circleLoop c r d f a = .ok x → ∀ f', f ≤ f' → circleLoop c r d f' a = .ok x := by
  induction f with
  | zero => intro a x h; cases h
  | succ f ih =>
    intro a x h f' hf
    obtain ⟨f', rfl⟩ : ∃ k, f' = k + 1 := ⟨f' - 1, by omega⟩
    unfold circleLoop at h ⊢
    by_cases ha : a < 360
    · rw [if_pos ha] at h ⊢
      cases h1 : circleLoop c r d f (a + d) with
      | exn => rw [h1] at h; cases h
      | ub => rw [h1] at h; cases h
      | ok y =>
        rw [h1] at h
        rw [ih _ _ h1 f' (by omega)]
        exact h
    · rw [if_neg ha] at h ⊢; exact h

/-- The result of `discretizeCircle` does not depend on the bound used in the model. -/
theorem C57_deterministic (g : Int) (c : Pt ℝ) (r : ℝ) (f f' : Nat) (x y : List (Pt ℝ))
    (hx : discretizeCircle f g c r = .ok x) (hy : discretizeCircle f' g c r = .ok y) : x = y := by
  unfold discretizeCircle at hx hy
  by_cases h0 : g = 0
  · rw [if_pos h0] at hx; cases hx
  rw [if_neg h0] at hx hy
  rcases Nat.le_total f f' with h | h
  · have := circleLoop_mono c r _ f _ _ hx f' h
    rw [hy] at this
    exact (Outcome.ok.inj this).symm
  · have := circleLoop_mono c r _ f' _ _ hy f h
    rw [hx] at this
    exact Outcome.ok.inj this

/-- C57: all points of a completed call are on the circle. -/
theorem C57_on_circle (g : Int) (c : Pt ℝ) (r : ℝ) (fuel : Nat) (pts : List (Pt ℝ))
    (h : discretizeCircle fuel g c r = .ok pts) (p : Pt ℝ) (hp : p ∈ pts) :
    (p.x - c.x) ^ 2 + (p.y - c.y) ^ 2 = r ^ 2 := by
  obtain ⟨h1, h2⟩ := (C57_terminates_iff g c r).1 ⟨fuel, pts, h⟩
  obtain ⟨f, d, _, _, e⟩ := C57_points g h1 h2 c r
  rw [C57_deterministic g c r _ _ _ _ h e] at hp
  obtain ⟨i, _, rfl⟩ := List.mem_map.1 hp
  exact circlePoint_dist c r _

/-- C57, the number of points: at least the grade, and equal to it iff the grade divides 360. -/
theorem C57_count_partial (g : Int) (c : Pt ℝ) (r : ℝ) (fuel : Nat) (pts : List (Pt ℝ))
    (h : discretizeCircle fuel g c r = .ok pts) :
    g ≤ pts.length ∧ ((pts.length : Int) = g ↔ g ∣ 360) := by
  obtain ⟨h1, h2⟩ := (C57_terminates_iff g c r).1 ⟨fuel, pts, h⟩
  obtain ⟨f, d, hd, hd0, e⟩ := C57_points g h1 h2 c r
  rw [C57_deterministic g c r _ _ _ _ h e, List.length_map, List.length_range]
  obtain ⟨n, rfl⟩ : ∃ n : Nat, g = (n : Int) := ⟨g.toNat, by omega⟩
  simp only [Int.toNat_natCast] at hd
  have hn1 : 1 ≤ n := by exact_mod_cast h1
  have hnd : d * n ≤ 360 := by rw [hd]; exact Nat.div_mul_le_self 360 n
  constructor
  · have : n ≤ (360 + d - 1) / d := by
      rw [Nat.le_div_iff_mul_le hd0, Nat.mul_comm]; omega
    exact_mod_cast this
  · constructor
    · intro hl
      have hl : (360 + d - 1) / d = n := by exact_mod_cast hl
      have hlt : 360 + d - 1 < (n + 1) * d := by
        rw [← hl]; rw [Nat.add_mul, Nat.one_mul, Nat.mul_comm]
        have := Nat.div_add_mod (360 + d - 1) d
        have := Nat.mod_lt (360 + d - 1) hd0
        omega
      have : d * n = 360 := by
        rw [Nat.add_mul, Nat.one_mul, Nat.mul_comm] at hlt; omega
      exact ⟨(d : Int), by rw [Int.mul_comm]; exact_mod_cast this.symm⟩
    · rintro ⟨k, hk⟩
      have hkd : (d : Int) = k := by
        have : (d : Int) = 360 / (n : Int) := by rw [hd]; simp
        rw [this, hk]
        exact Int.mul_ediv_cancel_left _ (by omega)
      have hnd' : d * n = 360 := by
        have : (360 : Int) = n * d := by rw [hkd]; exact hk
        rw [Nat.mul_comm]; exact_mod_cast this.symm
      have : (360 + d - 1) / d = n := by
        apply Nat.div_eq_of_lt_le
        · rw [Nat.mul_comm]; omega
        · rw [Nat.add_mul, Nat.one_mul, Nat.mul_comm]; omega
      exact_mod_cast this

/-- C57 is false: with grade 7 there are 8 points, and with grade 361 or -1 the loop never ends. -/
theorem C57_refuted (c : Pt ℝ) (r : ℝ) :
    (∃ fuel pts, discretizeCircle fuel 7 c r = .ok pts ∧ pts.length = 8) ∧
    (∀ fuel, discretizeCircle fuel 361 c r = .ub) ∧ ∀ fuel, discretizeCircle fuel (-1) c r = .ub := by
  refine ⟨?_, ?_, ?_⟩
  · obtain ⟨f, d, hd, _, e⟩ := C57_points 7 (by norm_num) (by norm_num) c r
    refine ⟨f, _, e, ?_⟩
    have hd : d = 51 := by rw [hd]; rfl
    rw [List.length_map, List.length_range, hd]
  · intro fuel
    unfold discretizeCircle
    rw [if_neg (by norm_num)]
    exact circleLoop_diverges c r _ (by norm_num [Int.tdiv]) fuel 0 (by norm_num)
  · intro fuel
    unfold discretizeCircle
    rw [if_neg (by norm_num)]
    have e : Int.tdiv 360 (-1) = -360 := by decide
    rw [e]
    exact circleLoop_diverges c r _ (by norm_num) fuel 0 (by norm_num)

/-- The default grade 12: twelve points, 30 degrees apart, the first to the right of the center. -/
example (c : Pt ℝ) (r : ℝ) : ∃ fuel pts, discretizeCircle fuel 12 c r = .ok pts ∧ pts.length = 12 ∧
    pts[0]? = some ⟨c.x + r, c.y⟩ ∧ pts[3]? = some ⟨c.x, c.y + r⟩ := by
  obtain ⟨f, d, hd, _, e⟩ := C57_points 12 (by norm_num) (by norm_num) c r
  have hd : d = 30 := by rw [hd]; rfl
  subst hd
  refine ⟨f, _, e, by simp, ?_, ?_⟩
  · simp [circlePoint, radian]
  · have : (3 * 30 : ℝ) * Real.pi / 180 = Real.pi / 2 := by ring
    simp [circlePoint, radian, this]

/-! ### C58 -/

/-- C58: `grade + 1` points on the circle, in equal angular steps from `initAngle` to
`endAngle`. -/
theorem C58_arc (g : Int) (hg : 1 ≤ g) (c : Pt ℝ) (r a b : ℝ) :
    ((generateArcPoints g c r a b).length : Int) = g + 1 ∧
    (∀ q ∈ generateArcPoints g c r a b, ∃ p, q = some p ∧ (p.x - c.x) ^ 2 + (p.y - c.y) ^ 2 = r ^ 2) ∧
    (generateArcPoints g c r a b)[0]? =
      some (some ⟨c.x + r * Real.cos (a * Real.pi / 180), c.y + r * Real.sin (a * Real.pi / 180)⟩) ∧
    (generateArcPoints g c r a b)[g.toNat]? =
      some (some ⟨c.x + r * Real.cos (b * Real.pi / 180), c.y + r * Real.sin (b * Real.pi / 180)⟩) ∧
    ∀ i : Nat, (i : Int) ≤ g → ∃ t : ℝ, t = a + (i : ℝ) * ((b - a) / g) ∧
      (generateArcPoints g c r a b)[i]? =
        some (some ⟨c.x + r * Real.cos (t * Real.pi / 180), c.y + r * Real.sin (t * Real.pi / 180)⟩) := by
  have hg0 : ¬ g = 0 := by omega
  have hgR : (g : ℝ) ≠ 0 := by exact_mod_cast hg0
  have hget : ∀ i : Nat, (i : Int) ≤ g → (generateArcPoints g c r a b)[i]? =
      some (some (circlePoint c r (a + (b - a) / (g : ℝ) * (i : ℝ)))) := by
    intro i hi
    unfold generateArcPoints
    rw [List.getElem?_map, List.getElem?_range (by omega)]
    simp [hg0]
  refine ⟨?_, ?_, ?_, ?_, ?_⟩
  · unfold generateArcPoints
    rw [List.length_map, List.length_range]; omega
  · intro q hq
    unfold generateArcPoints at hq
    obtain ⟨i, _, rfl⟩ := List.mem_map.1 hq
    rw [if_neg hg0]
    exact ⟨_, rfl, circlePoint_dist _ _ _⟩
  · rw [hget 0 (by omega)]
    simp [circlePoint, radian]
  · rw [hget g.toNat (by omega)]
    have : ((g.toNat : Nat) : ℝ) = g := by
      have h : ((g.toNat : Nat) : Int) = g := by omega
      exact_mod_cast congrArg (Int.cast : Int → ℝ) h
    rw [this, div_mul_cancel₀ _ hgR, add_sub_cancel]
    rfl
  · intro i hi
    refine ⟨_, rfl, ?_⟩
    rw [hget i hi, mul_comm (i : ℝ)]; rfl

/-- C58, outside of its range: a grade of 0 gives one point that is not a number, a negative grade
gives no points. -/
theorem C58_degenerate (c : Pt ℝ) (r a b : ℝ) (g : Int) :
    generateArcPoints 0 c r a b = [none] ∧ (g < 0 → generateArcPoints g c r a b = []) := by
  constructor
  · simp [generateArcPoints]
  · intro h
    unfold generateArcPoints
    have : (g + 1).toNat = 0 := by omega
    rw [this]; rfl

/-! ### C78 -/

/-- C78: `degrees` undoes `radian` on `(0, 360]`-angles: for an angle in `(-π, π]` the result is
the equivalent angle in `(0, 360]`. -/
theorem C78_degrees (t : ℝ) (h1 : -Real.pi < t) (h2 : t ≤ Real.pi) :
    0 < degrees t ∧ degrees t ≤ 360 ∧ ∃ k : Int, radian (degrees t) = t + k * (2 * Real.pi) := by
  have hpi := Real.pi_pos
  unfold degrees radian
  by_cases h : t > 0
  · rw [if_pos h]
    refine ⟨by positivity, ?_, 0, by field_simp; simp⟩
    rw [div_le_iff₀ hpi]; nlinarith
  · rw [if_neg h]
    push Not at h
    refine ⟨?_, ?_, 1, by field_simp; push_cast; ring⟩
    · apply div_pos _ hpi; nlinarith
    · rw [div_le_iff₀ hpi]; nlinarith

/-- C78: `cartesianAngle` lies in `(0, 360]` and is the direction from the first to the second
point: the second point is found again at that angle and the distance of the two. -/
theorem C78_cartesianAngle (p q : Pt ℝ) :
    0 < cartesianAngle p q ∧ cartesianAngle p q ≤ 360 ∧
    q.x = p.x + Real.sqrt ((q.x - p.x) ^ 2 + (q.y - p.y) ^ 2) * Real.cos (cartesianAngle p q * Real.pi / 180) ∧
    q.y = p.y + Real.sqrt ((q.x - p.x) ^ 2 + (q.y - p.y) ^ 2) * Real.sin (cartesianAngle p q * Real.pi / 180) := by
  obtain ⟨h1, h2, k, h3⟩ := C78_degrees (atan2 (q.y - p.y) (q.x - p.x)) (Complex.neg_pi_lt_arg _)
    (Complex.arg_le_pi _)
  have hr : cartesianAngle p q * Real.pi / 180 = atan2 (q.y - p.y) (q.x - p.x) + k * (2 * Real.pi) := h3
  have hn : ‖(⟨q.x - p.x, q.y - p.y⟩ : ℂ)‖ = Real.sqrt ((q.x - p.x) ^ 2 + (q.y - p.y) ^ 2) := by
    rw [Complex.norm_def, Complex.normSq_mk]
    congr 1; ring
  refine ⟨h1, h2, ?_, ?_⟩
  · rw [hr, Real.cos_add_int_mul_two_pi, ← hn]
    unfold atan2
    rw [Complex.norm_mul_cos_arg]; ring
  · rw [hr, Real.sin_add_int_mul_two_pi, ← hn]
    unfold atan2
    rw [Complex.norm_mul_sin_arg]; ring

/-- C78: pointing right gives 360, not 0. -/
theorem C78_right (p : Pt ℝ) (d : ℝ) (hd : 0 < d) : cartesianAngle p ⟨p.x + d, p.y⟩ = 360 := by
  have hpi := Real.pi_pos
  have : atan2 (p.y - p.y) (p.x + d - p.x) = 0 := by
    unfold atan2
    rw [sub_self, add_sub_cancel_left]
    exact Complex.arg_ofReal_of_nonneg hd.le
  unfold cartesianAngle
  dsimp only
  rw [this]
  unfold degrees
  rw [if_neg (lt_irrefl _)]
  field_simp; ring

section angle
variable {K : Type} [Field K] [LinearOrder K] [IsStrictOrderedRing K] [FloorRing K]

/-- C78, the part of the `Angle` claim that holds: a non-negative angle below `360 * 2^31` is mapped to
the equivalent one (modulo 180) in `[0, 180)`. -/
theorem C78_angle_partial (a : K) (h0 : 0 ≤ a) (h1 : a < 360 * 2147483648) :
    ∃ b, angleOf a = .ok b ∧ 0 ≤ b ∧ b < 180 ∧ ∃ k : Int, a = b + 180 * k := by
  have hq0 : 0 ≤ a / 360 := by positivity
  obtain ⟨z, hz⟩ := (C50_toInt_defined (a / 360)).2 ⟨by linarith, by
    rw [div_lt_iff₀ (by norm_num)]; linarith⟩
  obtain ⟨e1, e2, e3, _, _⟩ := (C50_toInt_iff _ z).1 hz
  have hz0 : (0 : K) ≤ z := by
    by_contra hc
    push Not at hc
    have h2 := abs_lt.1 e2
    rw [abs_of_neg hc, abs_of_nonneg hq0] at e1
    rcases hq0.eq_or_lt with h | h
    · rw [← h] at e1; linarith
    · nlinarith
  rw [abs_of_nonneg hz0, abs_of_nonneg hq0] at e1
  have h2 := (abs_lt.1 e2).2
  have ea : a = 360 * (a / 360) := by field_simp
  have lo : 0 ≤ a - 360 * z := by linarith
  have hi : a - 360 * z < 360 := by linarith
  unfold angleOf
  rw [hz]
  simp only [Outcome.bind_ok]
  by_cases h : a - 360 * (z : K) ≥ 0 ∧ a - 360 * (z : K) < 180
  · rw [if_pos h]
    exact ⟨_, rfl, h.1, h.2, 2 * z, by push_cast; ring⟩
  · rw [if_neg h]
    have : 180 ≤ a - 360 * (z : K) := by
      by_contra hc; push Not at hc; exact h ⟨lo, hc⟩
    exact ⟨_, rfl, by linarith, by linarith, 2 * z + 1, by push_cast; ring⟩

/-- C78: every angle that has an image is mapped to an equivalent one modulo 180. -/
theorem C78_angle_equivalent (a b : K) (h : angleOf a = .ok b) : ∃ k : Int, a = b + 180 * k := by
  unfold angleOf at h
  cases hz : Region.toInt (a / 360) with
  | exn => rw [hz] at h; cases h
  | ub => rw [hz] at h; cases h
  | ok z =>
    rw [hz] at h
    simp only [Outcome.bind_ok] at h
    by_cases hc : a - 360 * (z : K) ≥ 0 ∧ a - 360 * (z : K) < 180
    · rw [if_pos hc] at h
      rw [← Outcome.ok.inj h]; exact ⟨2 * z, by push_cast; ring⟩
    · rw [if_neg hc] at h
      rw [← Outcome.ok.inj h]; exact ⟨2 * z + 1, by push_cast; ring⟩

/-- C78 is false for negative angles: -10 becomes -190. -/
theorem C78_refuted : angleOf (-10 : ℚ) = .ok (-190) := by decide +kernel

/-- C78: every negative angle above -360 is moved further away. -/
theorem C78_negative (a : K) (h0 : a < 0) (h1 : -360 < a) : angleOf a = .ok (a - 180) := by
  have hz : Region.toInt (a / 360) = .ok 0 := by
    rw [C50_toInt_iff]
    have : -1 < a / 360 := by rw [lt_div_iff₀ (by norm_num)]; linarith
    have h2 : a / 360 < 0 := div_neg_of_neg_of_pos h0 (by norm_num)
    refine ⟨by simp, ?_, by simp, by norm_num, by norm_num⟩
    rw [Int.cast_zero, sub_zero, abs_lt]; constructor <;> linarith
  unfold angleOf
  rw [hz]
  simp only [Outcome.bind_ok, Int.cast_zero, mul_zero, sub_zero]
  rw [if_neg (by intro h; linarith [h.1])]; rfl

example : angleOf (750 : ℚ) = .ok 30 ∧ angleOf (200 : ℚ) = .ok 20 ∧ angleOf (360 : ℚ) = .ok 0 := by
  decide +kernel
end angle

/-- C78: on angles produced by `cartesianAngle` the wrapper does what is claimed, and parallel
directions (opposite or not) get the same value. -/
theorem C78_cartesian_wrapped (p q : Pt ℝ) :
    ∃ b, angleOf (cartesianAngle p q) = .ok b ∧ 0 ≤ b ∧ b < 180 ∧ ∃ k : Int, cartesianAngle p q = b + 180 * k := by
  obtain ⟨h1, h2, _⟩ := C78_cartesianAngle p q
  exact C78_angle_partial _ h1.le (by linarith)

/-! ### C81 -/

/-- C81: the sine functor is bounded by its amplitude, has period `2 / frecuency`, and takes the
value `amplitude * sin(phase in degrees)` at 0. -/
theorem C81_sine (a f p x : ℝ) : ∃ v, Fn.sine a f p () (some x) = .ok (some v, ()) ∧ |v| ≤ |a| ∧
    (f ≠ 0 → Fn.sine a f p () (some (x + 2 / f)) = .ok (some v, ())) ∧
    Fn.sine a f p () (some 0) = .ok (some (a * Real.sin (p * Real.pi / 180)), ()) := by
  refine ⟨_, rfl, ?_, ?_, ?_⟩
  · rw [abs_mul]
    exact mul_le_of_le_one_right (abs_nonneg _) (Real.abs_sin_le_one _)
  · intro hf
    have : radian (f * (x + 2 / f) * 180) + radian p = radian (f * x * 180) + radian p + 2 * Real.pi := by
      unfold radian; field_simp; ring
    simp only [Fn.sine, Option.map_some]
    rw [this, Real.sin_add_two_pi]
  · simp [Fn.sine, radian]

/-- C81: the cosine functor is the sine functor a quarter turn ahead. -/
theorem C81_cosine (a f p : ℝ) (x : Option ℝ) : Fn.cosine a f p () x = Fn.sine a f (p + 90) () x := by
  unfold Fn.cosine Fn.sine
  have : ∀ v : ℝ, Real.cos (radian (f * v * 180) + radian p) = Real.sin (radian (f * v * 180) + radian (p + 90)) := by
    intro v
    have : radian (f * v * 180) + radian (p + 90) = radian (f * v * 180) + radian p + Real.pi / 2 := by
      unfold radian; ring
    rw [this, Real.sin_add_pi_div_two]
  simp only [this]

/-- C81: `normalize` gives a unit vector of the same direction, except for the zero vector. -/
theorem C81_normalize (v : Pt ℝ) : (normalize v = none ↔ v = ⟨0, 0⟩) ∧
    ∀ u, normalize v = some u → u.x ^ 2 + u.y ^ 2 = 1 ∧ ∃ k : ℝ, 0 < k ∧ v.x = k * u.x ∧ v.y = k * u.y := by
  have hs : 0 ≤ v.x ^ 2 + v.y ^ 2 := by positivity
  unfold normalize
  constructor
  · by_cases h : Real.sqrt (v.x ^ 2 + v.y ^ 2) = 0
    · simp only [h, if_true, true_iff]
      rw [Real.sqrt_eq_zero hs] at h
      have hx : v.x = 0 := by nlinarith [sq_nonneg v.x, sq_nonneg v.y]
      have hy : v.y = 0 := by nlinarith [sq_nonneg v.x, sq_nonneg v.y]
      cases v; simp_all
    · simp only [h, if_false, reduceCtorEq, false_iff]
      rintro rfl
      simp at h
  · intro u hu
    by_cases h : Real.sqrt (v.x ^ 2 + v.y ^ 2) = 0
    · simp [h] at hu
    · simp only [h, if_false, Option.some.injEq] at hu
      subst hu
      have hp := lt_of_le_of_ne (Real.sqrt_nonneg (v.x ^ 2 + v.y ^ 2)) (Ne.symm h)
      have e := Real.sq_sqrt hs
      refine ⟨?_, _, hp, ?_, ?_⟩
      · dsimp only
        rw [div_pow, div_pow, ← add_div, e]
        exact div_self (by rw [← e]; positivity)
      · dsimp only; field_simp
      · dsimp only; field_simp

end Delynoi
