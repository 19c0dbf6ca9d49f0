import Verif.Model.Double
import Verif.Spec.Double
import Verif.Proofs.Number
import Mathlib.Tactic.Ring
import Mathlib.Tactic.Linarith
import Mathlib.Tactic.NormNum
import Mathlib.Tactic.Positivity
import Mathlib.Tactic.FieldSimp
/-!
# Facts about rounding to binary64
-/
namespace Delynoi

theorem two_zpow_pos (e : Int) : (0 : ℚ) < (2 : ℚ) ^ e := zpow_pos (by norm_num) e

theorem two_zpow_mono {a b : Int} (h : a ≤ b) : (2 : ℚ) ^ a ≤ (2 : ℚ) ^ b :=
  zpow_le_zpow_right₀ (by norm_num) h

theorem two_zpow_add (a b : Int) : (2 : ℚ) ^ (a + b) = (2 : ℚ) ^ a * (2 : ℚ) ^ b :=
  zpow_add₀ (by norm_num) a b

theorem log_le (x : ℚ) (hx : x ≠ 0) : (2 : ℚ) ^ (Int.log 2 |x|) ≤ |x| := by
  have := Int.zpow_log_le_self (b := 2) (by norm_num) (abs_pos.2 hx)
  exact_mod_cast this

theorem lt_log (x : ℚ) : |x| < (2 : ℚ) ^ (Int.log 2 |x| + 1) := by
  have := Int.lt_zpow_succ_log_self (b := 2) (by norm_num) |x|
  exact_mod_cast this

/-- Rounding to an integer is to the nearest one. -/
theorem roundHE_nearest (q : ℚ) (k : Int) : |(roundHE q : ℚ) - q| ≤ |(k : ℚ) - q| := by
  by_cases h : |(k : ℚ) - q| < 1 / 2
  · rw [roundHE_unique q k h]
  · push Not at h
    exact (roundHE_close q).trans h

theorem roundHE_below (q : ℚ) (h : q - ⌊q⌋ < 1 / 2) : roundHE q = ⌊q⌋ := by
  unfold roundHE; simp only; rw [if_pos h]

theorem roundHE_above (q : ℚ) (h : 1 / 2 < q - ⌊q⌋) : roundHE q = ⌊q⌋ + 1 := by
  unfold roundHE; simp only; rw [if_neg (by linarith), if_pos h]

theorem roundHE_half (q : ℚ) (h : q - ⌊q⌋ = 1 / 2) :
    roundHE q = if ⌊q⌋ % 2 = 0 then ⌊q⌋ else ⌊q⌋ + 1 := by
  unfold roundHE; simp only; rw [if_neg (by linarith), if_neg (by linarith)]

theorem roundHE_neg (q : ℚ) : roundHE (-q) = - roundHE q := by
  have hf := Int.floor_le q
  have hf' := Int.lt_floor_add_one q
  by_cases h0 : q = ⌊q⌋
  · rw [h0, roundHE_int, ← Int.cast_neg, roundHE_int]
  · have hlt : (⌊q⌋ : ℚ) < q := lt_of_le_of_ne hf (Ne.symm h0)
    have e : ⌊-q⌋ = -⌊q⌋ - 1 := by
      rw [Int.floor_eq_iff]; push_cast; constructor <;> linarith
    have e' : ((⌊-q⌋ : Int) : ℚ) = -⌊q⌋ - 1 := by rw [e]; push_cast; ring
    rcases lt_trichotomy (q - ⌊q⌋) (1 / 2) with h | h | h
    · rw [roundHE_below q h, roundHE_above (-q) (by rw [e']; linarith), e]; ring
    · rw [roundHE_half q h, roundHE_half (-q) (by rw [e']; linarith), e]
      by_cases h2 : ⌊q⌋ % 2 = 0
      · rw [if_pos h2, if_neg (by omega)]; ring
      · rw [if_neg h2, if_pos (by omega)]; ring
    · rw [roundHE_above q h, roundHE_below (-q) (by rw [e']; linarith), e]; ring

theorem ulpExp_neg (x : ℚ) : ulpExp (-x) = ulpExp x := by unfold ulpExp; rw [abs_neg]

theorem fl_neg (x : ℚ) : fl (-x) = - fl x := by
  unfold fl
  rw [ulpExp_neg, neg_div, roundHE_neg]
  push_cast; ring

theorem fl_zero : fl 0 = 0 := by
  unfold fl
  have : roundHE 0 = 0 := by have := roundHE_int 0; simpa using this
  rw [zero_div, this]; simp

/-- `x` divided by its last place is below `2^53`. -/
theorem scaled_lt (x : ℚ) : |x / (2 : ℚ) ^ ulpExp x| < 2 ^ 53 := by
  rw [abs_div, abs_of_pos (two_zpow_pos _), div_lt_iff₀ (two_zpow_pos _)]
  refine (lt_log x).trans_le ?_
  have h : Int.log 2 |x| + 1 ≤ 53 + ulpExp x := by unfold ulpExp; omega
  refine (two_zpow_mono h).trans_eq ?_
  rw [two_zpow_add]; norm_num

theorem round_abs_le (q : ℚ) (n : Int) (h : |q| < n) : |roundHE q| ≤ n := by
  have h1 := roundHE_close q
  rw [abs_le] at h1
  rw [abs_lt] at h
  rw [abs_le]
  have a : ((roundHE q : Int) : ℚ) < ((n + 1 : Int) : ℚ) := by push_cast; linarith
  have b : ((-n - 1 : Int) : ℚ) < ((roundHE q : Int) : ℚ) := by push_cast; linarith
  have a' : roundHE q < n + 1 := by exact_mod_cast a
  have b' : -n - 1 < roundHE q := by exact_mod_cast b
  omega

/-- The result of rounding is a binary64 number. -/
theorem fl_isDouble (x : ℚ) : IsDouble (fl x) := by
  have hm : |roundHE (x / (2 : ℚ) ^ ulpExp x)| ≤ 2 ^ 53 :=
    round_abs_le _ _ (by have := scaled_lt x; push_cast; exact this)
  have he : -1074 ≤ ulpExp x := le_max_right _ _
  rcases hm.lt_or_eq with h | h
  · exact ⟨_, _, he, h, rfl⟩
  · unfold fl
    generalize roundHE (x / (2 : ℚ) ^ ulpExp x) = m at h
    generalize ulpExp x = e at he
    rcases abs_eq (by norm_num) |>.1 h with h | h
    · refine ⟨2 ^ 52, e + 1, by omega, by norm_num, ?_⟩
      rw [h, two_zpow_add]; norm_num; ring
    · refine ⟨-2 ^ 52, e + 1, by omega, by norm_num, ?_⟩
      rw [h, two_zpow_add]; norm_num; ring

/-- Multiples of a power of two are multiples of the smaller powers. -/
theorem zpow_nat_mul {a b : Int} (h : a ≤ b) : ∃ k : Int, (2 : ℚ) ^ b = (k : ℚ) * (2 : ℚ) ^ a := by
  refine ⟨2 ^ (b - a).toNat, ?_⟩
  have : b = ((b - a).toNat : Int) + a := by omega
  conv_lhs => rw [this, two_zpow_add, zpow_natCast]
  push_cast; rfl

/-- If `x` is a multiple of its last place, it is not changed. -/
theorem fl_of_multiple (x : ℚ) (k : Int) (h : x = (k : ℚ) * (2 : ℚ) ^ ulpExp x) : fl x = x := by
  unfold fl
  have : x / (2 : ℚ) ^ ulpExp x = (k : ℚ) := by
    rw [div_eq_iff (two_zpow_pos _).ne']; exact h
  rw [this, roundHE_int]; exact h.symm

theorem ulpExp_le {m e : Int} (he : -1074 ≤ e) (hm : |m| < 2 ^ 53) (h0 : m ≠ 0) :
    ulpExp ((m : ℚ) * (2 : ℚ) ^ e) ≤ e := by
  have hx : (m : ℚ) * (2 : ℚ) ^ e ≠ 0 := mul_ne_zero (by exact_mod_cast h0) (two_zpow_pos e).ne'
  have h1 := log_le _ hx
  have h2 : |(m : ℚ) * (2 : ℚ) ^ e| < (2 : ℚ) ^ (53 + e) := by
    rw [abs_mul, abs_of_pos (two_zpow_pos e), two_zpow_add]
    refine mul_lt_mul_of_pos_right ?_ (two_zpow_pos e)
    have : ((|m| : Int) : ℚ) < ((2 ^ 53 : Int) : ℚ) := by exact_mod_cast hm
    push_cast at this
    exact this
  have h3 := (zpow_lt_zpow_iff_right₀ (by norm_num : (1 : ℚ) < 2)).1 (h1.trans_lt h2)
  unfold ulpExp
  omega

/-- binary64 numbers are not changed. -/
theorem fl_of_double {x : ℚ} (h : IsDouble x) : fl x = x := by
  obtain ⟨m, e, he, hm, hx⟩ := h
  by_cases h0 : m = 0
  · have : x = 0 := by rw [hx, h0]; simp
    rw [this, fl_zero]
  · have := ulpExp_le he hm h0
    rw [← hx] at this
    obtain ⟨k, hk⟩ := zpow_nat_mul this
    refine fl_of_multiple x (m * k) ?_
    have : x = (m : ℚ) * ((k : ℚ) * (2 : ℚ) ^ ulpExp x) := by rw [← hk]; exact hx
    push_cast; rw [mul_assoc]; exact this

/-- Distance to any multiple of the last place. -/
theorem fl_near_multiple (x : ℚ) (k : Int) : |fl x - x| ≤ |(k : ℚ) * (2 : ℚ) ^ ulpExp x - x| := by
  unfold fl
  have hs := two_zpow_pos (ulpExp x)
  generalize (2 : ℚ) ^ ulpExp x = s at hs
  have e : ∀ t : ℚ, t * s - x = (t - x / s) * s := by intro t; field_simp
  rw [e, e, abs_mul, abs_mul]
  exact mul_le_mul_of_nonneg_right (roundHE_nearest _ k) (abs_nonneg s)

/-- No binary64 number is closer. -/
theorem fl_nearest (x d : ℚ) (hd : IsDouble d) : |fl x - x| ≤ |d - x| := by
  by_cases hx0 : x = 0
  · rw [hx0, fl_zero, sub_zero, abs_zero]; exact abs_nonneg _
  obtain ⟨m, e, he, hm, hx⟩ := hd
  by_cases h : ulpExp x ≤ e
  · obtain ⟨k, hk⟩ := zpow_nat_mul h
    have := fl_near_multiple x (m * k)
    rw [hx, hk]
    push_cast at this
    rwa [mul_assoc] at this
  · push Not at h
    have hu : ulpExp x = Int.log 2 |x| - 52 := by unfold ulpExp at h ⊢; omega
    have hl := log_le x hx0
    -- the power of two just below `|x|`
    have hp : (2 : ℚ) ^ (Int.log 2 |x|) = ((2 ^ 52 : Int) : ℚ) * (2 : ℚ) ^ ulpExp x := by
      rw [show Int.log 2 |x| = 52 + ulpExp x by omega, two_zpow_add]; norm_num
    have hd' : |d| < (2 : ℚ) ^ (Int.log 2 |x|) := by
      have h2 : |d| < (2 : ℚ) ^ (53 + e) := by
        rw [hx, abs_mul, abs_of_pos (two_zpow_pos e), two_zpow_add]
        refine mul_lt_mul_of_pos_right ?_ (two_zpow_pos e)
        have : ((|m| : Int) : ℚ) < ((2 ^ 53 : Int) : ℚ) := by exact_mod_cast hm
        push_cast at this
        exact this
      exact h2.trans_le (two_zpow_mono (by omega))
    rw [abs_lt] at hd'
    rcases lt_or_gt_of_ne hx0 with hneg | hpos
    · have h1 := fl_near_multiple x (-2 ^ 52)
      have h3 : ((-2 ^ 52 : Int) : ℚ) * (2 : ℚ) ^ ulpExp x = -(2 : ℚ) ^ (Int.log 2 |x|) := by
        rw [hp]; push_cast; ring
      rw [h3] at h1
      have hax : |x| = -x := abs_of_neg hneg
      have hl' : (2 : ℚ) ^ (Int.log 2 |x|) ≤ -x := by rw [← hax]; exact hl
      refine h1.trans ?_
      generalize (2 : ℚ) ^ (Int.log 2 |x|) = P at hl' hd'
      rw [abs_of_nonneg (show 0 ≤ -P - x by linarith), abs_of_nonneg (show 0 ≤ d - x by linarith)]
      linarith
    · have h1 := fl_near_multiple x (2 ^ 52)
      rw [← hp] at h1
      have hax : |x| = x := abs_of_pos hpos
      have hl' : (2 : ℚ) ^ (Int.log 2 |x|) ≤ x := by conv_rhs => rw [← hax]
                                                     exact hl
      refine h1.trans ?_
      generalize (2 : ℚ) ^ (Int.log 2 |x|) = P at hl' hd'
      rw [abs_of_nonpos (show P - x ≤ 0 by linarith), abs_of_nonpos (show d - x ≤ 0 by linarith)]
      linarith

/-- Rounding is monotone. -/
theorem fl_mono {x y : ℚ} (h : x ≤ y) : fl x ≤ fl y := by
  rcases h.eq_or_lt with h | h
  · rw [h]
  by_contra hc
  push Not at hc
  have h1 := fl_nearest x (fl y) (fl_isDouble y)
  have h2 := fl_nearest y (fl x) (fl_isDouble x)
  have a1 : x ≥ (fl x + fl y) / 2 := by
    by_contra hh
    push Not at hh
    have : |fl y - x| < |fl x - x| := by
      rw [abs_of_pos (show 0 < fl x - x by linarith), abs_lt]
      constructor <;> linarith
    linarith
  have a2 : y ≤ (fl x + fl y) / 2 := by
    by_contra hh
    push Not at hh
    have : |fl x - y| < |fl y - y| := by
      rw [abs_of_neg (show fl y - y < 0 by linarith), abs_lt]
      constructor <;> linarith
    linarith
  linarith

theorem fl_le_of_double {x d : ℚ} (hd : IsDouble d) (h : x ≤ d) : fl x ≤ d := by
  have := fl_mono h; rwa [fl_of_double hd] at this

theorem le_fl_of_double {x d : ℚ} (hd : IsDouble d) (h : d ≤ x) : d ≤ fl x := by
  have := fl_mono h; rwa [fl_of_double hd] at this

theorem fl_nonneg {x : ℚ} (h : 0 ≤ x) : 0 ≤ fl x := by
  have := fl_mono h; rwa [fl_zero] at this

theorem fl_nonpos {x : ℚ} (h : x ≤ 0) : fl x ≤ 0 := by
  have := fl_mono h; rwa [fl_zero] at this

theorem fl_abs (x : ℚ) : |fl x| = fl |x| := by
  rcases le_total 0 x with h | h
  · rw [abs_of_nonneg h, abs_of_nonneg (fl_nonneg h)]
  · rw [abs_of_nonpos h, abs_of_nonpos (fl_nonpos h), fl_neg]

theorem IsDouble.neg {x : ℚ} (h : IsDouble x) : IsDouble (-x) := by
  obtain ⟨m, e, he, hm, hx⟩ := h
  exact ⟨-m, e, he, by rwa [abs_neg], by rw [hx]; push_cast; ring⟩

theorem isDouble_zero : IsDouble 0 := ⟨0, 0, by norm_num, by norm_num, by norm_num⟩

theorem IsDouble.two_mul {x : ℚ} (h : IsDouble x) : IsDouble (2 * x) := by
  obtain ⟨m, e, he, hm, hx⟩ := h
  exact ⟨m, e + 1, by omega, hm, by rw [hx, two_zpow_add]; ring⟩

/-- Half a last place. -/
theorem fl_half_ulp (x : ℚ) : |fl x - x| ≤ (2 : ℚ) ^ ulpExp x / 2 := by
  unfold fl
  have hs := two_zpow_pos (ulpExp x)
  generalize (2 : ℚ) ^ ulpExp x = s at hs
  have e : ∀ t : ℚ, t * s - x = (t - x / s) * s := by intro t; field_simp
  rw [e, abs_mul, abs_of_pos hs]
  have := mul_le_mul_of_nonneg_right (roundHE_close (x / s)) hs.le
  linarith

theorem uRnd_pos : 0 < uRnd := by unfold uRnd; positivity

theorem etaRnd_pos : 0 < etaRnd := by unfold etaRnd; positivity

theorem log_part (x : ℚ) (hx : x ≠ 0) : (2 : ℚ) ^ (Int.log 2 |x| - 52) / 2 ≤ uRnd * |x| := by
  have h1 := log_le x hx
  have e : (2 : ℚ) ^ (Int.log 2 |x| - 52) / 2 = uRnd * (2 : ℚ) ^ (Int.log 2 |x|) := by
    rw [show Int.log 2 |x| - 52 = -52 + Int.log 2 |x| by ring, two_zpow_add]
    unfold uRnd; norm_num; ring
  rw [e]
  exact mul_le_mul_of_nonneg_left h1 uRnd_pos.le

/-- Relative error above the underflow threshold, absolute error below. -/
theorem fl_error (x : ℚ) : |fl x - x| ≤ uRnd * |x| ∨ |fl x - x| ≤ etaRnd := by
  by_cases hx : x = 0
  · left; rw [hx, fl_zero]; simp
  have h := fl_half_ulp x
  rcases max_choice (Int.log 2 |x| - 52) (-1074) with h1 | h1
  · left
    unfold ulpExp at h
    rw [h1] at h
    exact h.trans (log_part x hx)
  · right
    unfold ulpExp at h
    rw [h1] at h
    refine h.trans (le_of_eq ?_)
    unfold etaRnd
    rw [show (-1074 : Int) = -(1074 : Nat) by norm_num, zpow_neg, zpow_natCast, ← one_div, div_div]
    congr 1
    exact (pow_succ 2 1074).symm

theorem fl_error_add (x : ℚ) : |fl x - x| ≤ uRnd * |x| + etaRnd := by
  have h1 : 0 ≤ uRnd * |x| := mul_nonneg uRnd_pos.le (abs_nonneg x)
  rcases fl_error x with h | h
  · linarith [etaRnd_pos]
  · linarith

/-- Every binary64 number is a multiple of the smallest one. -/
theorem IsDouble.multiple {x : ℚ} (h : IsDouble x) : ∃ k : Int, x = (k : ℚ) * (2 : ℚ) ^ (-1074 : Int) := by
  obtain ⟨m, e, he, hm, hx⟩ := h
  obtain ⟨k, hk⟩ := zpow_nat_mul he
  exact ⟨m * k, by rw [hx, hk]; push_cast; ring⟩

/-- Sums of binary64 numbers never underflow. -/
theorem fl_add_error {a b : ℚ} (ha : IsDouble a) (hb : IsDouble b) :
    |fl (a + b) - (a + b)| ≤ uRnd * |a + b| := by
  obtain ⟨j, hj⟩ := ha.multiple
  obtain ⟨k, hk⟩ := hb.multiple
  by_cases hx : a + b = 0
  · rw [hx, fl_zero]; simp
  rcases max_choice (Int.log 2 |a + b| - 52) (-1074) with h1 | h1
  · have h := fl_half_ulp (a + b)
    unfold ulpExp at h
    rw [h1] at h
    exact h.trans (log_part _ hx)
  · have hu : ulpExp (a + b) = -1074 := h1
    have e : a + b = ((j + k : Int) : ℚ) * (2 : ℚ) ^ (-1074 : Int) := by
      rw [hj, hk]
      generalize (2 : ℚ) ^ (-1074 : Int) = P
      push_cast; ring
    have : fl (a + b) = a + b := by
      refine fl_of_multiple _ (j + k) ?_
      rw [hu]; exact e
    rw [this, sub_self, abs_zero]
    exact mul_nonneg uRnd_pos.le (abs_nonneg _)

theorem fl_sub_error {a b : ℚ} (ha : IsDouble a) (hb : IsDouble b) :
    |fl (a - b) - (a - b)| ≤ uRnd * |a - b| := by
  have := fl_add_error ha hb.neg
  rwa [← sub_eq_add_neg a b] at this

/-- Differences of close binary64 numbers are exact (Sterbenz). -/
theorem isDouble_sub {a b : ℚ} (ha : IsDouble a) (hb : IsDouble b) (h1 : |a - b| ≤ |a|) (h2 : |a - b| ≤ |b|) :
    IsDouble (a - b) := by
  obtain ⟨m, e, he, hm, hx⟩ := ha
  obtain ⟨n, f, hf, hn, hy⟩ := hb
  have key : ∀ (k m : Int) (d x : ℚ) (e : Int), -1074 ≤ e → |m| < 2 ^ 53 → x = (m : ℚ) * (2 : ℚ) ^ e →
      d = (k : ℚ) * (2 : ℚ) ^ e → |d| ≤ |x| → IsDouble d := by
    intro k m d x e he hm hx hd h
    refine ⟨k, e, he, ?_, hd⟩
    rw [hx, hd, abs_mul, abs_mul] at h
    have h := le_of_mul_le_mul_right h (abs_pos.2 (two_zpow_pos e).ne')
    have : |k| ≤ |m| := by exact_mod_cast h
    exact this.trans_lt hm
  rcases le_total e f with h | h
  · obtain ⟨k, hk⟩ := zpow_nat_mul h
    exact key (m - n * k) m _ a e he hm hx (by rw [hy, hx, hk]; push_cast; ring) h1
  · obtain ⟨k, hk⟩ := zpow_nat_mul h
    exact key (m * k - n) n _ b f hf hn hy (by rw [hy, hx, hk]; push_cast; ring) h2

/-! ### With `id` for the rounding, the functions are those of the exact model -/

theorem rnd_id_sum (acc : ℚ) (ts : List ℚ) : Rnd.sumLoop id acc ts = acc + ts.sum := by
  unfold Rnd.sumLoop
  induction ts generalizing acc with
  | nil => simp
  | cons t ts ih => rw [List.foldl_cons, ih, List.sum_cons]; simp only [id]; ring

theorem rnd_id_eqTol : Rnd.eqTol id = Pt.eqTol := rfl
theorem rnd_id_ltTol : Rnd.ltTol id = Pt.ltTol := rfl
theorem rnd_id_orientation : Rnd.orientation id = orientation := rfl
theorem rnd_id_area2 : Rnd.area2 id = area2 := rfl
theorem rnd_id_collinear : Rnd.collinear id = collinear := rfl
theorem rnd_id_middle : Rnd.middle id = Seg.middle := rfl
theorem rnd_id_contains : Rnd.contains id = Seg.contains := by
  funext
  simp only [Rnd.contains, Seg.contains, Rnd.geTol, Rnd.leTol, Seg.geTol, Seg.leTol, id]
theorem rnd_id_crosses : Rnd.crosses id = crosses := by
  funext
  simp only [Rnd.crosses, crosses, id]

theorem rnd_id_fanArea (l : List (Pt ℚ)) : Rnd.fanArea id l = fanArea l := by
  cases l with
  | nil => rfl
  | cons a l => simp only [Rnd.fanArea, fanArea, rnd_id_sum, zero_add]; rfl

theorem rnd_id_signedArea (l : List (Pt ℚ)) : Rnd.signedArea id l = signedArea l := by
  unfold Rnd.signedArea signedArea; rw [rnd_id_sum, zero_add]; rfl

theorem rnd_id_isClockwise (l : List (Pt ℚ)) : Rnd.isClockwise id l = isClockwise l := by
  cases l with
  | nil => rfl
  | cons a l => unfold Rnd.isClockwise isClockwise; simp only [rnd_id_sum]; rfl

theorem rnd_id_isConvex (l : List (Pt ℚ)) : Rnd.isConvex id l = isConvex l := by
  match l with
  | [] => rfl
  | [_] => rfl
  | [_, _] => rfl
  | _ :: _ :: _ :: _ => rfl

theorem rnd_id_intersects : Rnd.intersects id = Seg.intersects := rfl
theorem rnd_id_intersectionInfinite : Rnd.intersectionInfinite id = Seg.intersectionInfinite := rfl

theorem rnd_id_circumcenter (a b c : Pt ℚ) : Rnd.circumcenter id a b c = circumcenter a b c := by
  simp only [Rnd.circumcenter, Rnd.circumD, Rnd.sum3, Rnd.sqNorm, circumcenter, circumD, sqNorm, id, pow_two]
  rfl

theorem rnd_id_getAverage (l : List (Pt ℚ)) : Rnd.getAverage id l = getAverage l := by
  unfold Rnd.getAverage getAverage; simp only [rnd_id_sum, zero_add]; rfl

theorem rnd_id_oddLoop (tol : ℚ) (q : Pt ℚ) (l : List (Pt ℚ)) (p : Pt ℚ) (b : Bool) :
    Rnd.oddLoop id tol q p b l = oddLoop tol q p b l := by
  induction l generalizing p b with
  | nil => rfl
  | cons a l ih => unfold Rnd.oddLoop oddLoop; rw [ih, ih]; rfl

theorem rnd_id_containsPoint (tol : ℚ) (l : List (Pt ℚ)) (q : Pt ℚ) :
    Rnd.containsPoint id tol l q = containsPoint tol l q := by
  unfold Rnd.containsPoint containsPoint
  cases l.getLast? with
  | none => rfl
  | some z => simp only; rw [rnd_id_oddLoop]; rfl

end Delynoi
