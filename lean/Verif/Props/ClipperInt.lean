import Verif.Proofs.ClipperInt
import Mathlib.Tactic.NormNum
import Mathlib.Tactic.Tauto
import Mathlib.Tactic.LinearCombination
/-!
# Properties C108, C109: Clipper's integer arithmetic
-/
set_option linter.unusedSectionVars false
namespace Delynoi
open Clip

/-- A signed 64-bit number. -/
def Is64 (z : Int) : Prop := -2 ^ 63 ≤ z ∧ z < 2 ^ 63

/-- The pair of words `a` denotes the number `v`: two's complement with 128 bits. -/
def Denotes128 (a : I128) (v : Int) : Prop := a.lo < 2 ^ 64 ∧ Is64 a.hi ∧ v = a.hi * 2 ^ 64 + a.lo

private theorem denotes_iff (a : I128) (v : Int) : Denotes128 a v ↔ a.lo < 18446744073709551616 ∧
    -9223372036854775808 ≤ a.hi ∧ a.hi ≤ 9223372036854775807 ∧ v = a.hi * 18446744073709551616 + a.lo := by
  unfold Denotes128 Is64; norm_num; omega

private theorem is64_iff (z : Int) : Is64 z ↔ -9223372036854775808 ≤ z ∧ z ≤ 9223372036854775807 := by
  unfold Is64; norm_num; omega

/-! ### C108 -/

/-- C108: numbers are represented uniquely, and the comparisons compare them. -/
theorem C108_compare (a b : I128) (v w : Int) (ha : Denotes128 a v) (hb : Denotes128 b w) :
    (I128.eq a b = true ↔ v = w) ∧ (I128.lt a b = true ↔ v < w) ∧ (I128.gt a b = true ↔ v > w) ∧
    (I128.le a b = true ↔ v ≤ w) ∧ (I128.ge a b = true ↔ v ≥ w) := by
  rw [denotes_iff] at ha hb
  have hlt : I128.lt a b = true ↔ v < w := by
    unfold I128.lt; split <;> rw [decide_eq_true_iff] <;> omega
  have hgt : I128.gt a b = true ↔ v > w := by
    unfold I128.gt; split <;> rw [decide_eq_true_iff] <;> omega
  refine ⟨?_, hlt, hgt, ?_, ?_⟩
  · unfold I128.eq; rw [Bool.and_eq_true, decide_eq_true_iff, decide_eq_true_iff]; omega
  · unfold I128.le; rw [Bool.not_eq_true', ← Bool.not_eq_true, hgt]; omega
  · unfold I128.ge; rw [Bool.not_eq_true', ← Bool.not_eq_true, hlt]; omega

/-- C108: conversion from 64 bits. -/
theorem C108_of (v : Int) (h : Is64 v) : Denotes128 (I128.of v) v := by
  rw [is64_iff] at h
  rw [denotes_iff]
  unfold I128.of toU64
  dsimp only
  split <;> omega

/-- C108: negation is right, and defined unless the number is `-2^127`. -/
theorem C108_neg (a : I128) (v : Int) (ha : Denotes128 a v) :
    (v ≠ -2 ^ 127 → ∃ r, I128.neg a = .ok r ∧ Denotes128 r (-v)) ∧ (v = -2 ^ 127 → I128.neg a = .ub) := by
  rw [denotes_iff] at ha
  have e127 : (2 : Int) ^ 127 = 170141183460469231731687303715884105728 := by norm_num
  rw [e127]
  unfold I128.neg
  by_cases h0 : a.lo = 0
  · rw [if_pos h0]
    constructor
    · intro hv
      rw [i64_ok (by omega), Outcome.bind_ok, Outcome.pure_eq]
      exact ⟨_, rfl, (denotes_iff _ _).2 (by dsimp only; omega)⟩
    · intro hv
      unfold i64
      rw [if_neg (by omega)]; rfl
  · rw [if_neg h0]
    refine ⟨fun _ => ⟨_, rfl, (denotes_iff _ _).2 ?_⟩, fun hv => by omega⟩
    unfold u64
    dsimp only
    omega

/-- C108: a completed addition is right; it completes if the sum of the upper words fits, with the
carry.  Missing: see `C108_add_refuted`. -/
theorem C108_add_partial (a b : I128) (v w : Int) (ha : Denotes128 a v) (hb : Denotes128 b w) :
    (∀ r, I128.add a b = .ok r → Denotes128 r (v + w)) ∧
    (-2 ^ 127 ≤ v + w → v + w < 2 ^ 127 → -2 ^ 63 ≤ a.hi + b.hi → ∃ r, I128.add a b = .ok r) := by
  rw [denotes_iff] at ha hb
  have e127 : (2 : Int) ^ 127 = 170141183460469231731687303715884105728 := by norm_num
  have e63 : (2 : Int) ^ 63 = 9223372036854775808 := by norm_num
  rw [e127, e63]
  unfold I128.add
  constructor
  · intro r h
    cases h1 : i64 (a.hi + b.hi) with
    | exn => rw [h1, Outcome.bind_exn] at h; cases h
    | ub => rw [h1, Outcome.bind_ub] at h; cases h
    | ok hi =>
      rw [h1, Outcome.bind_ok] at h
      obtain ⟨rfl, h2⟩ := i64_eq_ok h1
      dsimp only at h
      rw [denotes_iff]
      by_cases hc : u64 (a.lo + b.lo) < b.lo
      · rw [if_pos hc] at h
        cases h3 : i64 (a.hi + b.hi + 1) with
        | exn => rw [h3, Outcome.bind_exn] at h; cases h
        | ub => rw [h3, Outcome.bind_ub] at h; cases h
        | ok hi' =>
          rw [h3, Outcome.bind_ok] at h
          obtain ⟨rfl, h4⟩ := i64_eq_ok h3
          have h := Outcome.ok.inj h
          subst h
          unfold u64 at hc ⊢
          dsimp only
          omega
      · rw [if_neg hc] at h
        have h := Outcome.ok.inj h
        subst h
        unfold u64 at hc ⊢
        dsimp only
        omega
  · intro l u h
    rw [i64_ok (by omega), Outcome.bind_ok]
    dsimp only
    by_cases hc : u64 (a.lo + b.lo) < b.lo
    · rw [if_pos hc, i64_ok (by unfold u64 at hc; omega)]
      exact ⟨_, rfl⟩
    · rw [if_neg hc]
      exact ⟨_, rfl⟩

/-- C108 refuted as stated: the sum `-2^127` fits, but the upper words overflow before the carry is
added. -/
theorem C108_add_refuted : ∃ (a b : I128) (v w : Int), Denotes128 a v ∧ Denotes128 b w ∧
    v + w = -2 ^ 127 ∧ I128.add a b = .ub :=
  ⟨⟨18446744073709551615, -9223372036854775808⟩, ⟨1, -1⟩, -2 ^ 127 + (2 ^ 64 - 1), -2 ^ 64 + 1,
    by unfold Denotes128 Is64; norm_num, by unfold Denotes128 Is64; norm_num, by norm_num, by decide +kernel⟩

/-- C108: a completed subtraction is right; numbers of absolute value below `2^126` can be
subtracted. -/
theorem C108_sub_partial (a b : I128) (v w : Int) (ha : Denotes128 a v) (hb : Denotes128 b w) :
    (∀ r, I128.sub a b = .ok r → Denotes128 r (v - w)) ∧
    (|v| < 2 ^ 126 → |w| < 2 ^ 126 → ∃ r, I128.sub a b = .ok r) := by
  have hn := C108_neg b w hb
  unfold I128.sub
  by_cases hw : w = -2 ^ 127
  · rw [hn.2 hw]
    refine ⟨fun r h => (by cases h), fun _ h => ?_⟩
    rw [hw, abs_neg] at h
    norm_num at h
  · obtain ⟨n, h1, h2⟩ := hn.1 hw
    rw [h1, Outcome.bind_ok]
    have h3 := C108_add_partial a n v (-w) ha h2
    refine ⟨fun r h => ?_, fun hv hw' => ?_⟩
    · have := h3.1 r h
      rwa [← sub_eq_add_neg] at this
    · rw [abs_lt] at hv hw'
      rw [denotes_iff] at h2 ha
      have e126 : (2 : Int) ^ 126 = 85070591730234615865843651857942052864 := by norm_num
      rw [e126] at hv hw'
      apply h3.2
      · norm_num; omega
      · norm_num; omega
      · norm_num; omega

/-- C108: the product of two 64-bit numbers is right for all of them but `-2^63`, whose negation is
undefined. -/
theorem C108_mul (x y : Int) (hx : Is64 x) (hy : Is64 y) :
    (x ≠ -2 ^ 63 → y ≠ -2 ^ 63 → ∃ r, I128.mul x y = .ok r ∧ Denotes128 r (x * y)) ∧
    (x = -2 ^ 63 ∨ y = -2 ^ 63 → I128.mul x y = .ub) := by
  rw [is64_iff] at hx hy
  have e63 : (2 : Int) ^ 63 = 9223372036854775808 := by norm_num
  rw [e63]
  constructor
  · intro h1 h2
    have a1 := absolute_eq (x := x) (by omega) (by omega)
    have a2 := absolute_eq (x := y) (by omega) (by omega)
    have b1 : |x| < 9223372036854775808 := abs_lt.2 ⟨by omega, by omega⟩
    have b2 : |y| < 9223372036854775808 := abs_lt.2 ⟨by omega, by omega⟩
    have n1 := abs_nonneg x
    have n2 := abs_nonneg y
    obtain ⟨r, r1, r2, r3, r4, r5⟩ := mulU_ok |x|.toNat |y|.toNat (by omega) (by omega)
    have e := mul_eq x y a1 a2 (toU64_nonneg n1 (by omega)) (toU64_nonneg n2 (by omega))
    have hp : ((|x|.toNat * |y|.toNat : Nat) : Int) = |x| * |y| := by
      rw [Int.natCast_mul, Int.toNat_of_nonneg n1, Int.toNat_of_nonneg n2]
    rw [hp, ← abs_mul] at r5
    rw [e, r1, Outcome.bind_ok]
    have hden : Denotes128 r |x * y| := (denotes_iff _ _).2 ⟨r2, by omega, r4, by omega⟩
    by_cases hs : (decide (x < 0) != decide (y < 0)) = true
    · rw [if_pos hs]
      have hneg : x * y = -|x * y| := by
        rw [abs_of_nonpos, neg_neg]
        simp only [bne_iff_ne, ne_eq, decide_eq_decide] at hs
        rcases lt_or_ge x 0 with h | h
        · exact mul_nonpos_of_nonpos_of_nonneg h.le (by omega)
        · exact mul_nonpos_of_nonneg_of_nonpos h (by omega)
      obtain ⟨q, q1, q2⟩ := (C108_neg r _ hden).1 (by
        have := abs_nonneg (x * y)
        have : (0 : Int) < 2 ^ 127 := by norm_num
        omega)
      exact ⟨q, q1, by rw [hneg]; exact q2⟩
    · rw [if_neg hs]
      have hpos : x * y = |x * y| := by
        rw [abs_of_nonneg]
        simp only [bne_iff_ne, ne_eq, decide_eq_decide, not_not] at hs
        rcases lt_or_ge x 0 with h | h
        · exact mul_nonneg_of_nonpos_of_nonpos h.le (hs.1 h).le
        · exact mul_nonneg h (by omega)
      exact ⟨r, rfl, by rw [hpos]; exact hden⟩
  · intro h
    unfold I128.mul
    by_cases h1 : x = -9223372036854775808
    · subst h1
      rw [absolute_least, Outcome.bind_ub]
    · have h2 := h.resolve_left h1
      subst h2
      have a1 := absolute_eq (x := x) (by omega) (by omega)
      rw [a1, Outcome.bind_ok, absolute_least, Outcome.bind_ub]

/-- C108: the conversion to `double`, before rounding, is right for non-negative numbers and
multiples of `2^64`; other negative numbers come out one too large.  Missing: see
`C108_double_refuted`. -/
theorem C108_double_partial (a : I128) (v : Int) (ha : Denotes128 a v) :
    I128.toDouble a = if 0 ≤ v ∨ (2 ^ 64 : Int) ∣ v then v else v + 1 := by
  rw [denotes_iff] at ha
  have e64 : (2 : Int) ^ 64 = 18446744073709551616 := by norm_num
  rw [e64]
  unfold I128.toDouble
  by_cases hh : a.hi < 0
  · rw [if_pos hh]
    by_cases h0 : a.lo = 0
    · rw [if_pos h0, if_pos (by right; omega)]; omega
    · rw [if_neg h0, if_neg (by omega)]; omega
  · rw [if_neg hh, if_pos (by left; omega)]; omega

/-- C108 refuted as stated: -1 is converted to (minus) zero. -/
theorem C108_double_refuted : Denotes128 (I128.of (-1)) (-1) ∧ I128.toDouble (I128.of (-1)) = 0 := by
  unfold Denotes128 Is64
  decide +kernel

example : I128.mul 9223372036854775807 (-9223372036854775807) =
    .ok ⟨18446744073709551615, -4611686018427387904⟩ := by decide +kernel
example : Denotes128 ⟨18446744073709551615, -4611686018427387904⟩ (9223372036854775807 * -9223372036854775807) := by
  unfold Denotes128 Is64; decide +kernel
example : I128.sub (I128.of 5) (I128.of 7) = .ok (I128.of (-2)) := by decide +kernel

/-! ### C109 -/

/-- The coordinates of `p` are at most `r` in absolute value. -/
def CoordsWithin (r : Int) (p : IPt) : Prop := |p.X| ≤ r ∧ |p.Y| ≤ r

instance (r : Int) (p : IPt) : Decidable (CoordsWithin r p) := by unfold CoordsWithin; infer_instance

/-- The range the flag `useFullRange` stands for: `2^62 - 1` or `2^30 - 1`. -/
def RangeOf (full : Bool) : Int := if full then 4611686018427387903 else 1073741823

example : RangeOf true = 2 ^ 62 - 1 ∧ RangeOf false = 2 ^ 30 - 1 := by unfold RangeOf; norm_num

private theorem outside_eq {r : Int} {p : IPt} (hx : Is64 p.X) (hy : Is64 p.Y) (h0 : 0 ≤ r)
    (hm : p.X ≠ -2 ^ 63) (hn : p.Y ≠ -2 ^ 63) :
    outside r p = .ok (decide (¬ CoordsWithin r p)) := by
  rw [is64_iff] at hx hy
  have e63 : (2 : Int) ^ 63 = 9223372036854775808 := by norm_num
  rw [e63] at hm hn
  have hw : CoordsWithin r p ↔ -r ≤ p.X ∧ p.X ≤ r ∧ -r ≤ p.Y ∧ p.Y ≤ r := by
    unfold CoordsWithin; rw [abs_le, abs_le]; tauto
  unfold outside
  by_cases h1 : p.X > r
  · rw [if_pos h1, decide_eq_true (by rw [hw]; omega)]
  rw [if_neg h1]
  by_cases h2 : p.Y > r
  · rw [if_pos h2, decide_eq_true (by rw [hw]; omega)]
  rw [if_neg h2, i64_ok (by omega), Outcome.bind_ok]
  by_cases h3 : -p.X > r
  · rw [if_pos h3, decide_eq_true (by rw [hw]; omega)]
  rw [if_neg h3, i64_ok (by omega), Outcome.bind_ok, Outcome.pure_eq]
  by_cases h4 : -p.Y > r
  · rw [decide_eq_true h4, decide_eq_true (by rw [hw]; omega)]
  · rw [decide_eq_false h4, decide_eq_false (by rw [hw]; omega)]

private theorem within_mono {p : IPt} {r s : Int} (h : CoordsWithin r p) (hrs : r ≤ s) : CoordsWithin s p :=
  ⟨h.1.trans hrs, h.2.trans hrs⟩
/-- C109: a range test of 64-bit coordinates other than `-2^63` throws exactly if a coordinate
exceeds `2^62-1`; otherwise the flag is set if it was set or a coordinate exceeds `2^30-1`. -/
theorem C109_rangeTest (p : IPt) (full : Bool) (hx : Is64 p.X) (hy : Is64 p.Y)
    (hm : p.X ≠ -2 ^ 63) (hn : p.Y ≠ -2 ^ 63) :
    rangeTest p full = if CoordsWithin (RangeOf true) p
      then .ok (full || !decide (CoordsWithin (RangeOf false) p)) else .exn := by
  have e1 : RangeOf true = hiRange := rfl
  have e2 : RangeOf false = loRange := rfl
  rw [e1, e2]
  have o1 := outside_eq (r := hiRange) hx hy (by unfold hiRange; omega) hm hn
  have o2 := outside_eq (r := loRange) hx hy (by unfold loRange; omega) hm hn
  have hmono : CoordsWithin loRange p → CoordsWithin hiRange p :=
    fun h => within_mono h (by unfold loRange hiRange; omega)
  unfold rangeTest
  rw [o1, o2]
  clear o1 o2 e1 e2
  generalize hiRange = H at *
  generalize loRange = L at *
  simp only [Outcome.bind_ok]
  by_cases h1 : CoordsWithin H p
  · rw [if_pos h1]
    cases full with
    | true => simp [h1]
    | false =>
      by_cases h2 : CoordsWithin L p <;> simp [h1, h2]
  · rw [if_neg h1]
    have h2 : ¬ CoordsWithin L p := fun h => h1 (hmono h)
    cases full <;> simp [h1, h2]

/-- C109: after the range tests of a path all its points are within the range of the flag, and the
flag is never cleared; points `int`s can denote never make them throw. -/
theorem C109_rangeTests (ps : List IPt) (full : Bool) (h64 : ∀ p ∈ ps, Is64 p.X ∧ Is64 p.Y ∧
      p.X ≠ -2 ^ 63 ∧ p.Y ≠ -2 ^ 63) :
    (∀ f, rangeTests ps full = .ok f → (full = true → f = true) ∧ ∀ p ∈ ps, CoordsWithin (RangeOf f) p) ∧
    ((∀ p ∈ ps, CoordsWithin (RangeOf true) p) → ∃ f, rangeTests ps full = .ok f) ∧
    ((∃ p ∈ ps, ¬ CoordsWithin (RangeOf true) p) → rangeTests ps full = .exn) := by
  induction ps generalizing full with
  | nil =>
    refine ⟨fun f h => ?_, fun _ => ⟨full, rfl⟩, fun ⟨p, hp, _⟩ => by simp at hp⟩
    have h := Outcome.ok.inj h
    subst h
    exact ⟨id, by simp⟩
  | cons p ps ih =>
    obtain ⟨a1, a2, a3, a4⟩ := h64 p (by simp)
    have hps : ∀ q ∈ ps, Is64 q.X ∧ Is64 q.Y ∧ q.X ≠ -2 ^ 63 ∧ q.Y ≠ -2 ^ 63 :=
      fun q hq => h64 q (List.mem_cons_of_mem _ hq)
    unfold rangeTests
    rw [C109_rangeTest p full a1 a2 a3 a4]
    by_cases hp : CoordsWithin (RangeOf true) p
    · rw [if_pos hp, Outcome.bind_ok]
      obtain ⟨i1, i2, i3⟩ := ih (full || !decide (CoordsWithin (RangeOf false) p)) hps
      refine ⟨fun f h => ?_, fun h => i2 (fun q hq => h q (List.mem_cons_of_mem _ hq)), ?_⟩
      · obtain ⟨j1, j2⟩ := i1 f h
        refine ⟨fun hf => j1 (by rw [hf]; rfl), fun q hq => ?_⟩
        rcases List.mem_cons.1 hq with rfl | hq
        · by_cases hlo : CoordsWithin (RangeOf false) q
          · cases f
            · exact hlo
            · exact hp
          · rw [j1 (by simp [hlo])]; exact hp
        · exact j2 q hq
      · rintro ⟨q, hq, hq'⟩
        rcases List.mem_cons.1 hq with rfl | hq
        · exact absurd hp hq'
        · exact i3 ⟨q, hq, hq'⟩
    · rw [if_neg hp, Outcome.bind_exn]
      exact ⟨fun f h => (by cases h), fun h => absurd (h p (by simp)) hp, fun _ => rfl⟩

private theorem products (full : Bool) (a b c d : Int) (r : Int)
    (hr : r = 2 * RangeOf full) (ha : |a| ≤ r) (hb : |b| ≤ r) (hc : |c| ≤ r) (hd : |d| ≤ r) :
    productsEqual full a b c d = .ok (decide (a * b = c * d)) := by
  rw [abs_le] at ha hb hc hd
  unfold productsEqual
  cases full with
  | true =>
    have er : r = 9223372036854775806 := by rw [hr]; unfold RangeOf; norm_num
    have e63 : (2 : Int) ^ 63 = 9223372036854775808 := by norm_num
    rw [if_pos rfl]
    obtain ⟨u, u1, u2⟩ := (C108_mul a b ((is64_iff a).2 (by omega)) ((is64_iff b).2 (by omega))).1
      (by omega) (by omega)
    obtain ⟨v, v1, v2⟩ := (C108_mul c d ((is64_iff c).2 (by omega)) ((is64_iff d).2 (by omega))).1
      (by omega) (by omega)
    rw [u1, v1, Outcome.bind_ok, Outcome.bind_ok, Outcome.pure_eq]
    congr 1
    have := (C108_compare u v _ _ u2 v2).1
    by_cases h : a * b = c * d
    · rw [decide_eq_true h, this.2 h]
    · rw [decide_eq_false h, ← Bool.not_eq_true, this]; exact h
  | false =>
    have er : r = 2147483646 := by rw [hr]; unfold RangeOf; norm_num
    have bound : ∀ x y : Int, -r ≤ x ∧ x ≤ r → -r ≤ y ∧ y ≤ r →
        -9223372036854775808 ≤ x * y ∧ x * y ≤ 9223372036854775807 := by
      intro x y hx hy
      have h1 : |x * y| ≤ r * r := by
        rw [abs_mul]
        exact mul_le_mul (abs_le.2 hx) (abs_le.2 hy) (abs_nonneg y) (by omega)
      rw [er, abs_le] at h1
      omega
    rw [if_neg (by simp), i64_ok (bound a b ha hb), i64_ok (bound c d hc hd)]
    rfl

private theorem diff64 {full : Bool} {x y : Int} (hx : |x| ≤ RangeOf full) (hy : |y| ≤ RangeOf full) :
    i64 (x - y) = .ok (x - y) ∧ |x - y| ≤ 2 * RangeOf full := by
  have h : |x - y| ≤ 2 * RangeOf full := by
    calc |x - y| ≤ |x| + |y| := abs_sub x y
      _ ≤ 2 * RangeOf full := by omega
  refine ⟨i64_ok ?_, h⟩
  have h2 : 2 * RangeOf full ≤ 9223372036854775806 := by cases full <;> unfold RangeOf <;> norm_num
  rw [abs_le] at h
  omega

/-- C109: on points within the range of the flag, `SlopesEqual` of three points is defined and tells
whether they lie on a line. -/
theorem C109_slopes3 (p q s : IPt) (full : Bool) (hp : CoordsWithin (RangeOf full) p)
    (hq : CoordsWithin (RangeOf full) q) (hs : CoordsWithin (RangeOf full) s) :
    slopesEqual3 p q s full =
      .ok (decide ((q.X - p.X) * (s.Y - p.Y) - (q.Y - p.Y) * (s.X - p.X) = 0)) := by
  obtain ⟨a1, a2⟩ := diff64 hp.2 hq.2
  obtain ⟨b1, b2⟩ := diff64 hq.1 hs.1
  obtain ⟨c1, c2⟩ := diff64 hp.1 hq.1
  obtain ⟨d1, d2⟩ := diff64 hq.2 hs.2
  unfold slopesEqual3
  rw [a1, b1, c1, d1]
  simp only [Outcome.bind_ok]
  rw [products full _ _ _ _ _ rfl a2 b2 c2 d2]
  congr 1
  rw [decide_eq_decide]
  constructor <;> intro h <;> linear_combination -h

/-- C109: `SlopesEqual` of four points: the lines through the first two and the last two are
parallel. -/
theorem C109_slopes4 (p q s t : IPt) (full : Bool) (hp : CoordsWithin (RangeOf full) p)
    (hq : CoordsWithin (RangeOf full) q) (hs : CoordsWithin (RangeOf full) s)
    (ht : CoordsWithin (RangeOf full) t) :
    slopesEqual4 p q s t full =
      .ok (decide ((q.X - p.X) * (t.Y - s.Y) - (q.Y - p.Y) * (t.X - s.X) = 0)) := by
  obtain ⟨a1, a2⟩ := diff64 hp.2 hq.2
  obtain ⟨b1, b2⟩ := diff64 hs.1 ht.1
  obtain ⟨c1, c2⟩ := diff64 hp.1 hq.1
  obtain ⟨d1, d2⟩ := diff64 hs.2 ht.2
  unfold slopesEqual4
  rw [a1, b1, c1, d1]
  simp only [Outcome.bind_ok]
  rw [products full _ _ _ _ _ rfl a2 b2 c2 d2]
  congr 1
  rw [decide_eq_decide]
  constructor <;> intro h <;> linear_combination -h

/-- C109: `SlopesEqual` of two edges: they are parallel. -/
theorem C109_slopesE (b1 t1 b2 t2 : IPt) (full : Bool) (h1 : CoordsWithin (RangeOf full) b1)
    (h2 : CoordsWithin (RangeOf full) t1) (h3 : CoordsWithin (RangeOf full) b2)
    (h4 : CoordsWithin (RangeOf full) t2) :
    slopesEqualE b1 t1 b2 t2 full =
      .ok (decide ((t1.X - b1.X) * (t2.Y - b2.Y) - (t1.Y - b1.Y) * (t2.X - b2.X) = 0)) := by
  obtain ⟨a1, a2⟩ := diff64 h2.2 h1.2
  obtain ⟨b1', b2'⟩ := diff64 h4.1 h3.1
  obtain ⟨c1, c2⟩ := diff64 h2.1 h1.1
  obtain ⟨d1, d2⟩ := diff64 h4.2 h3.2
  unfold slopesEqualE
  rw [a1, b1', c1, d1]
  simp only [Outcome.bind_ok]
  rw [products full _ _ _ _ _ rfl a2 b2' c2 d2]
  congr 1
  rw [decide_eq_decide]
  constructor <;> intro h <;> linear_combination -h

/-- C109: the flag matters: beyond `2^30-1` (but not with 128 bits) the products can overflow. -/
theorem C109_overflow : slopesEqual3 ⟨-2147483648, 2147483647⟩ ⟨2147483647, -2147483648⟩ ⟨-2147483648, 2147483646⟩ false = .ub ∧
    slopesEqual3 ⟨-2147483648, 2147483647⟩ ⟨2147483647, -2147483648⟩ ⟨-2147483648, 2147483646⟩ true = .ok false := by
  decide +kernel

example : rangeTests [⟨5, 7⟩, ⟨-2147483648, 2147483647⟩, ⟨0, 1⟩] false = .ok true := by decide +kernel
example : rangeTest ⟨-4611686018427387904, 0⟩ true = .exn := by decide +kernel
example : CoordsWithin (RangeOf true) ⟨-2147483648, 2147483647⟩ := by
  unfold CoordsWithin RangeOf; norm_num

end Delynoi
