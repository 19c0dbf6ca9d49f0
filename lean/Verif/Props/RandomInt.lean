import Verif.Model.RandomInt
import Mathlib.Tactic.NormNum
import Mathlib.Tactic.Linarith
import Mathlib.Data.Rat.Floor
/-!
# Property C107: random integers
-/
set_option linter.unusedSectionVars false
namespace Delynoi
variable {K : Type} [Field K] [LinearOrder K] [IsStrictOrderedRing K] [FloorRing K] {σ : Type}

/-- `z` is `x` without its fractional part. -/
def IsTrunc (x : K) (z : Int) : Prop :=
  (0 ≤ x → (z : K) ≤ x ∧ x < z + 1) ∧ (x < 0 → x ≤ z ∧ (z : K) - 1 < x)

private theorem trunc_of {x : K} {z : Int} (h : Region.toInt x = .ok z) :
    IsTrunc x z ∧ -2147483648 ≤ z ∧ z ≤ 2147483647 := by
  unfold Region.toInt at h
  dsimp only at h
  by_cases hz : -2147483648 ≤ (if 0 ≤ x then ⌊x⌋ else ⌈x⌉) ∧ (if 0 ≤ x then ⌊x⌋ else ⌈x⌉) ≤ 2147483647
  · rw [if_pos hz] at h
    have h := Outcome.ok.inj h
    subst h
    refine ⟨⟨fun h0 => ?_, fun h0 => ?_⟩, hz⟩
    · rw [if_pos h0]; exact ⟨Int.floor_le x, Int.lt_floor_add_one x⟩
    · rw [if_neg (not_le.2 h0)]
      exact ⟨Int.le_ceil x, by linarith [Int.ceil_lt_add_one x]⟩
  · rw [if_neg hz] at h; cases h

private theorem of_trunc {x : K} {z : Int} (h : IsTrunc x z) (hz : -2147483648 ≤ z ∧ z ≤ 2147483647) :
    Region.toInt x = .ok z := by
  have e : (if 0 ≤ x then ⌊x⌋ else ⌈x⌉) = z := by
    by_cases h0 : 0 ≤ x
    · rw [if_pos h0]; exact Int.floor_eq_iff.2 (h.1 h0)
    · rw [if_neg h0]
      obtain ⟨ha, hb⟩ := h.2 (not_le.1 h0)
      exact Int.ceil_eq_iff.2 ⟨hb, ha⟩
  unfold Region.toInt
  dsimp only
  rw [e, if_pos hz]

private theorem draw_mem (p : Int × Int) (h : p.1 ≤ p.2) (n : Nat) :
    p.1 ≤ uniformDraw p n ∧ uniformDraw p n ≤ p.2 := by
  unfold uniformDraw
  have h1 := Int.emod_nonneg (n : Int) (b := p.2 - p.1 + 1) (by omega)
  have h2 := Int.emod_lt_of_pos (n : Int) (b := p.2 - p.1 + 1) (by omega)
  omega

private theorem uniform_iff (lo hi : K) (p : Int × Int) : uniformInt lo hi = .ok p ↔
    (IsTrunc lo p.1 ∧ IsTrunc hi p.2 ∧ -2147483648 ≤ p.1 ∧ p.1 ≤ p.2 ∧ p.2 ≤ 2147483647) := by
  constructor
  · intro h
    unfold uniformInt at h
    cases ha : Region.toInt lo with
    | ok a =>
      cases hb : Region.toInt hi with
      | ok b =>
        rw [ha, hb, Outcome.bind_ok, Outcome.bind_ok] at h
        split at h
        · rename_i hab
          have h := Outcome.ok.inj h
          subst h
          exact ⟨(trunc_of ha).1, (trunc_of hb).1, (trunc_of ha).2.1, hab, (trunc_of hb).2.2⟩
        · cases h
      | exn => rw [ha, hb, Outcome.bind_ok, Outcome.bind_exn] at h; cases h
      | ub => rw [ha, hb, Outcome.bind_ok, Outcome.bind_ub] at h; cases h
    | exn => rw [ha, Outcome.bind_exn] at h; cases h
    | ub => rw [ha, Outcome.bind_ub] at h; cases h
  · rintro ⟨h1, h2, h3, h4, h5⟩
    unfold uniformInt
    rw [of_trunc h1 ⟨h3, by omega⟩, of_trunc h2 ⟨by omega, h5⟩, Outcome.bind_ok, Outcome.bind_ok,
      if_pos h4]

/-- C107: the constructor is defined exactly if the truncated bounds are `int`s in order; then every
value, whatever the engine and the argument, is an integer between the truncated bounds, and each
integer between them is drawn by some engine.  The values hence exceed the given bounds by less
than 1; they keep to a bound that is an integer, to a minimum that is not positive and to a
maximum that is not negative.  Missing: the values need not lie between the bounds
(`C107_range_refuted`). -/
theorem C107_values_partial (lo hi : K) (engine : Nat → Nat) :
    ((∃ f, randomInteger lo hi engine = .ok f) ↔
      ∃ a b : Int, IsTrunc lo a ∧ IsTrunc hi b ∧ -2147483648 ≤ a ∧ a ≤ b ∧ b ≤ 2147483647) ∧
    ∀ f, randomInteger lo hi engine = .ok f → ∀ k x, ∃ z : Int, f k x = .ok (some (z : K), k + 1) ∧
      lo - 1 < z ∧ (z : K) < hi + 1 ∧ -2147483648 ≤ z ∧ z ≤ 2147483647 ∧
      (∀ a, IsTrunc lo a → a ≤ z) ∧ (∀ b, IsTrunc hi b → z ≤ b) ∧
      (lo ≤ 0 ∨ (∃ a : Int, lo = a) → lo ≤ z) ∧ (0 ≤ hi ∨ (∃ b : Int, hi = b) → (z : K) ≤ hi) := by
  constructor
  · constructor
    · rintro ⟨f, hf⟩
      unfold randomInteger at hf
      cases hu : uniformInt lo hi with
      | ok p => exact ⟨p.1, p.2, (uniform_iff lo hi p).1 hu⟩
      | exn => rw [hu, Outcome.bind_exn] at hf; cases hf
      | ub => rw [hu, Outcome.bind_ub] at hf; cases hf
    · rintro ⟨a, b, h⟩
      unfold randomInteger
      rw [(uniform_iff lo hi (a, b)).2 h, Outcome.bind_ok]
      exact ⟨_, rfl⟩
  · intro f hf k x
    unfold randomInteger at hf
    cases hu : uniformInt lo hi with
    | exn => rw [hu, Outcome.bind_exn] at hf; cases hf
    | ub => rw [hu, Outcome.bind_ub] at hf; cases hf
    | ok p =>
      rw [hu, Outcome.bind_ok, Outcome.pure_eq] at hf
      have hf := Outcome.ok.inj hf
      subst hf
      obtain ⟨h1, h2, h3, h4, h5⟩ := (uniform_iff lo hi p).1 hu
      obtain ⟨d1, d2⟩ := draw_mem p h4 (engine k)
      have c1 : ((p.1 : Int) : K) ≤ (uniformDraw p (engine k) : Int) := by exact_mod_cast d1
      have c2 : ((uniformDraw p (engine k) : Int) : K) ≤ (p.2 : Int) := by exact_mod_cast d2
      have u1 : ∀ a, IsTrunc lo a → a = p.1 := by
        intro a ha
        by_cases h0 : 0 ≤ lo
        · rw [← Int.floor_eq_iff.2 (ha.1 h0), ← Int.floor_eq_iff.2 (h1.1 h0)]
        · have e1 := ha.2 (not_le.1 h0)
          have e2 := h1.2 (not_le.1 h0)
          rw [← Int.ceil_eq_iff.2 ⟨e1.2, e1.1⟩, ← Int.ceil_eq_iff.2 ⟨e2.2, e2.1⟩]
      have u2 : ∀ b, IsTrunc hi b → b = p.2 := by
        intro b hb
        by_cases h0 : 0 ≤ hi
        · rw [← Int.floor_eq_iff.2 (hb.1 h0), ← Int.floor_eq_iff.2 (h2.1 h0)]
        · have e1 := hb.2 (not_le.1 h0)
          have e2 := h2.2 (not_le.1 h0)
          rw [← Int.ceil_eq_iff.2 ⟨e1.2, e1.1⟩, ← Int.ceil_eq_iff.2 ⟨e2.2, e2.1⟩]
      have b1 : lo - 1 < (p.1 : K) ∧ (lo ≤ 0 ∨ (∃ a : Int, lo = a) → lo ≤ (p.1 : K)) := by
        rcases lt_or_ge lo 0 with h0 | h0
        · have := h1.2 h0
          exact ⟨by linarith [this.1], fun _ => this.1⟩
        · have := h1.1 h0
          refine ⟨by linarith [this.2], ?_⟩
          rintro (h | ⟨a, ha⟩)
          · have e : lo = 0 := le_antisymm h h0
            have : (0 : K) < p.1 + 1 := by linarith [this.2]
            have : (0 : Int) < p.1 + 1 := by exact_mod_cast this
            have : (0 : Int) ≤ p.1 := by omega
            rw [e]; exact_mod_cast this
          · have : (a : K) < p.1 + 1 := by rw [← ha]; exact this.2
            have : a < p.1 + 1 := by exact_mod_cast this
            have : a ≤ p.1 := by omega
            rw [ha]; exact_mod_cast this
      have b2 : (p.2 : K) < hi + 1 ∧ (0 ≤ hi ∨ (∃ b : Int, hi = b) → (p.2 : K) ≤ hi) := by
        rcases lt_or_ge hi 0 with h0 | h0
        · have := h2.2 h0
          refine ⟨by linarith [this.2], ?_⟩
          rintro (h | ⟨b, hb⟩)
          · exact absurd h (not_le.2 h0)
          · have : (p.2 : K) - 1 < b := by rw [← hb]; exact this.2
            have : (p.2 : Int) - 1 < b := by exact_mod_cast this
            have : p.2 ≤ b := by omega
            rw [hb]; exact_mod_cast this
        · have := h2.1 h0
          exact ⟨by linarith [this.1], fun _ => this.1⟩
      refine ⟨uniformDraw p (engine k), rfl, by linarith [b1.1], by linarith [b2.1], by omega,
        by omega, ?_, ?_, fun h => (b1.2 h).trans c1, fun h => c2.trans (b2.2 h)⟩
      · intro a ha; rw [u1 a ha]; exact d1
      · intro b hb; rw [u2 b hb]; exact d2

/-- C107: every integer between the truncated bounds is a possible value. -/
theorem C107_surjective (lo hi : K) (a b z : Int) (ha : IsTrunc lo a) (hb : IsTrunc hi b)
    (h1 : -2147483648 ≤ a) (h2 : b ≤ 2147483647) (h : a ≤ z ∧ z ≤ b) :
    ∃ f, randomInteger lo hi (fun _ => (z - a).toNat) = .ok f ∧
      ∀ k x, f k x = .ok (some (z : K), k + 1) := by
  unfold randomInteger
  rw [(uniform_iff lo hi (a, b)).2 ⟨ha, hb, h1, by dsimp only; omega, h2⟩, Outcome.bind_ok]
  refine ⟨_, rfl, fun k x => ?_⟩
  have e : uniformDraw (a, b) (z - a).toNat = z := by
    unfold uniformDraw
    dsimp only
    rw [Int.toNat_of_nonneg (by omega), Int.emod_eq_of_lt (by omega) (by omega)]
    omega
  show Outcome.ok (some ((uniformDraw (a, b) (z - a).toNat : Int) : K), k + 1) = _
  rw [e]

/-- C107 refuted as stated: `random_integer(0.5, 0.7)` yields 0. -/
theorem C107_range_refuted : (do
    let f ← randomInteger (1/2 : ℚ) (7/10) (fun _ => 0)
    f 0 none) = .ok (some 0, 1) := by decide +kernel

/-- C107: reversed bounds are undefined even if the truncated range contains values
(`random_integer(3, 1)`), and so are bounds beyond `int`. -/
theorem C107_undefined : randomInteger (3 : ℚ) 1 (fun _ => 0) matches .ub ∧
    randomInteger (0 : ℚ) 3000000000 (fun _ => 0) matches .ub := by decide +kernel

/-- C107: if both bounds truncate to the same even number `a`, integer noise always subtracts `a`:
the sign is not random.  (For an odd number it is always added.) -/
theorem C107_noise_sign (f : Fn σ K) (lo hi : K) (a : Int) (ha : IsTrunc lo a) (hb : IsTrunc hi a)
    (h1 : -2147483648 < a) (h2 : a ≤ 2147483647) (engine : Nat → Nat × Nat) :
    ∃ g, randomIntegerNoise f lo hi engine = .ok g ∧
      ∀ s s' c x v, f s x = .ok (some v, s') →
        g (s, c) x = .ok (some (if Even a then v - a else v + a), (s', c + 1)) := by
  unfold randomIntegerNoise
  rw [(uniform_iff lo hi (a, a)).2 ⟨ha, hb, by dsimp only; omega, le_refl _, h2⟩, Outcome.bind_ok]
  refine ⟨_, rfl, fun s s' c x v h => ?_⟩
  have e : ∀ n, uniformDraw (a, a) n = a := by
    intro n; unfold uniformDraw; dsimp only; rw [sub_self, zero_add, Int.emod_one, add_zero]
  unfold Fn.integerNoise
  simp only [h, Outcome.bind_ok, e, Option.map_some, Outcome.pure_eq]
  by_cases he : Even a
  · have h0 : ¬ a % 2 ≠ 0 := by rw [Int.even_iff] at he; omega
    rw [if_neg h0, if_neg (by omega), if_pos he]
    push_cast
    congr 3; ring
  · have h0 : a % 2 ≠ 0 := by rw [Int.even_iff] at he; omega
    rw [if_pos h0, if_neg (by omega), if_neg he, mul_one]

/-- C107: with non-negative truncated bounds, each call changes the inner functor's value by an
integer whose absolute value lies between the truncated bounds; nothing else changes. -/
theorem C107_noise_size (f : Fn σ K) (lo hi : K) (a b : Int) (ha : IsTrunc lo a) (hb : IsTrunc hi b)
    (h0 : 0 ≤ a) (hab : a ≤ b) (h2 : b ≤ 2147483647) (engine : Nat → Nat × Nat) :
    ∃ g, randomIntegerNoise f lo hi engine = .ok g ∧
      ∀ s s' c x v, f s x = .ok (some v, s') →
        ∃ z : Int, g (s, c) x = .ok (some (v + z), (s', c + 1)) ∧ a ≤ |z| ∧ |z| ≤ b := by
  unfold randomIntegerNoise
  rw [(uniform_iff lo hi (a, b)).2 ⟨ha, hb, by dsimp only; omega, hab, h2⟩, Outcome.bind_ok]
  refine ⟨_, rfl, fun s s' c x v h => ?_⟩
  obtain ⟨d1, d2⟩ := draw_mem (a, b) hab (engine c).1
  dsimp only at d1 d2
  unfold Fn.integerNoise
  simp only [h, Outcome.bind_ok, Option.map_some, Outcome.pure_eq]
  have hfit : ¬ 2147483647 < uniformDraw (a, b) (engine c).1 *
      (if uniformDraw (a, b) (engine c).2 % 2 ≠ 0 then 1 else -1) := by split <;> omega
  refine ⟨_, by rw [if_neg hfit], ?_⟩
  split
  · rw [mul_one, abs_of_nonneg (by omega)]; exact ⟨d1, d2⟩
  · rw [mul_neg, mul_one, abs_neg, abs_of_nonneg (by omega)]; exact ⟨d1, d2⟩

/-- C107: with the least `int` among the values, integer noise can overflow. -/
theorem C107_noise_overflow : (do
    let g ← randomIntegerNoise (Fn.constantClass (K := ℚ)) (-2147483648) 0 (fun _ => (0, 0))
    g ((), 0) (some 1)) = .ub := by decide +kernel

example : IsTrunc (-7/2 : ℚ) (-3) ∧ IsTrunc (19/4 : ℚ) 4 := by
  unfold IsTrunc; norm_num
example : (do
    let f ← randomInteger (-7/2 : ℚ) (19/4) (fun k => 3 * k)
    Fn.run f 0 [none, some 1, some 1]) = .ok ([some (-3), some 0, some 3], 3) := by decide +kernel
example : (do
    let g ← randomIntegerNoise (Fn.uniform (2 : ℚ)) (19/4) (19/4) (fun k => (k, k))
    Fn.run g ((), 0) [some 1, some 5]) = .ok ([some (-2), some 6], ((), 2)) := by decide +kernel

end Delynoi
