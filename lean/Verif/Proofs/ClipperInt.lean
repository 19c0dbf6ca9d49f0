import Verif.Model.ClipperInt
import Mathlib.Tactic.Ring
import Mathlib.Tactic.Linarith
import Mathlib.Algebra.Order.Ring.Int
import Mathlib.Algebra.Order.Ring.Abs
/-!
# Lemmas about Clipper's integers
-/
namespace Delynoi.Clip

theorem i64_ok {z : Int} (h : -9223372036854775808 ≤ z ∧ z ≤ 9223372036854775807) : i64 z = .ok z := if_pos h

theorem i64_eq_ok {z w : Int} (h : i64 z = .ok w) :
    w = z ∧ -9223372036854775808 ≤ z ∧ z ≤ 9223372036854775807 := by
  unfold i64 at h
  split at h
  · rename_i hz; exact ⟨(Outcome.ok.inj h).symm, hz⟩
  · cases h

theorem toU64_nonneg {z : Int} (h0 : 0 ≤ z) (h1 : z < 18446744073709551616) : toU64 z = z.toNat := by
  unfold toU64; rw [Int.emod_eq_of_lt h0 h1]

theorem absolute_least : I128.absolute (-9223372036854775808) = .ub := by
  unfold I128.absolute i64
  rw [if_pos (by omega), if_neg (by omega)]

/-- The part of `Int128Mul` without signs. -/
def mulU (x y : Nat) : Outcome I128 :=
  let int1Hi := x / 4294967296
  let int1Lo := x % 4294967296
  let int2Hi := y / 4294967296
  let int2Lo := y % 4294967296
  let a := u64 (int1Hi * int2Hi)
  let b := u64 (int1Lo * int2Lo)
  let c := u64 (u64 (int1Hi * int2Lo) + u64 (int1Lo * int2Hi))
  I128.withCarry (toI64 (u64 (a + c / 4294967296))) (u64 (c * 4294967296)) b

theorem absolute_eq {x : Int} (h : -9223372036854775808 < x) (h' : x ≤ 9223372036854775807) :
    I128.absolute x = .ok |x| := by
  unfold I128.absolute
  split
  · rw [i64_ok (by omega), abs_of_neg (by omega)]
  · rw [abs_of_nonneg (by omega)]

theorem mulU_ok (x y : Nat) (hx : x < 9223372036854775808) (hy : y < 9223372036854775808) :
    ∃ r : I128, mulU x y = .ok r ∧ r.lo < 18446744073709551616 ∧ 0 ≤ r.hi ∧
      r.hi ≤ 9223372036854775807 ∧ r.hi * 18446744073709551616 + r.lo = (x * y : Nat) := by
  have key : ∀ x1 x0 y1 y0 : Nat, x1 < 2147483648 → x0 < 4294967296 → y1 < 2147483648 → y0 < 4294967296 →
      x1 * y1 ≤ 2147483647 * 2147483647 ∧ x1 * y0 ≤ 2147483647 * 4294967295 ∧
      x0 * y1 ≤ 4294967295 * 2147483647 ∧ x0 * y0 ≤ 4294967295 * 4294967295 := by
    intro x1 x0 y1 y0 h1 h2 h3 h4
    exact ⟨Nat.mul_le_mul (by omega) (by omega), Nat.mul_le_mul (by omega) (by omega),
      Nat.mul_le_mul (by omega) (by omega), Nat.mul_le_mul (by omega) (by omega)⟩
  obtain ⟨k1, k2, k3, k4⟩ := key (x / 4294967296) (x % 4294967296) (y / 4294967296) (y % 4294967296)
    (by omega) (by omega) (by omega) (by omega)
  have hxy : x * y = (x / 4294967296) * (y / 4294967296) * 18446744073709551616 +
      ((x / 4294967296) * (y % 4294967296) + (x % 4294967296) * (y / 4294967296)) * 4294967296 +
      (x % 4294967296) * (y % 4294967296) := by
    have e1 : x = (x / 4294967296) * 4294967296 + x % 4294967296 := by omega
    have e2 : y = (y / 4294967296) * 4294967296 + y % 4294967296 := by omega
    generalize x / 4294967296 = x1 at *
    generalize x % 4294967296 = x0 at *
    generalize y / 4294967296 = y1 at *
    generalize y % 4294967296 = y0 at *
    rw [e1, e2]; ring
  have hprod : x * y ≤ 9223372036854775807 * 9223372036854775807 := Nat.mul_le_mul (by omega) (by omega)
  unfold mulU I128.withCarry
  dsimp only
  rw [hxy] at hprod ⊢
  generalize (x / 4294967296) * (y / 4294967296) = P at *
  generalize (x / 4294967296) * (y % 4294967296) = Q at *
  generalize (x % 4294967296) * (y / 4294967296) = R at *
  generalize (x % 4294967296) * (y % 4294967296) = S at *
  have hP : u64 P = P := by unfold u64; omega
  have hQ : u64 Q = Q := by unfold u64; omega
  have hR : u64 R = R := by unfold u64; omega
  have hS : u64 S = S := by unfold u64; omega
  have hC : u64 (Q + R) = Q + R := by unfold u64; omega
  have hH : u64 (P + (Q + R) / 4294967296) = P + (Q + R) / 4294967296 := by unfold u64; omega
  have hI : toI64 (P + (Q + R) / 4294967296) = ((P + (Q + R) / 4294967296 : Nat) : Int) := by
    unfold toI64; rw [if_pos (by omega)]
  have hL : u64 ((Q + R) * 4294967296) = (Q + R) % 4294967296 * 4294967296 := by unfold u64; omega
  rw [hP, hQ, hR, hS, hC, hH, hI, hL]
  by_cases hcarry : u64 ((Q + R) % 4294967296 * 4294967296 + S) < S
  · rw [if_pos hcarry]
    have e : u64 ((Q + R) % 4294967296 * 4294967296 + S) =
        (Q + R) % 4294967296 * 4294967296 + S - 18446744073709551616 ∧
        18446744073709551616 ≤ (Q + R) % 4294967296 * 4294967296 + S := by
      unfold u64 at hcarry ⊢; omega
    rw [i64_ok (by omega), Outcome.bind_ok, Outcome.pure_eq]
    refine ⟨_, rfl, ?_, ?_, ?_, ?_⟩ <;> dsimp only <;> omega
  · rw [if_neg hcarry]
    have e : u64 ((Q + R) % 4294967296 * 4294967296 + S) = (Q + R) % 4294967296 * 4294967296 + S ∧
        (Q + R) % 4294967296 * 4294967296 + S < 18446744073709551616 := by
      unfold u64 at hcarry ⊢; omega
    refine ⟨_, rfl, ?_, ?_, ?_, ?_⟩ <;> dsimp only <;> omega

theorem mul_eq (x y : Int) (a1 : I128.absolute x = .ok |x|) (a2 : I128.absolute y = .ok |y|)
   (t1 : toU64 |x| = |x|.toNat) (t2 : toU64 |y| = |y|.toNat) : I128.mul x y = (do
        let tmp ← mulU |x|.toNat |y|.toNat
        if (decide (x < 0) != decide (y < 0)) = true then I128.neg tmp else Outcome.ok tmp) := by
      unfold I128.mul mulU
      rw [a1, Outcome.bind_ok]
      dsimp only
      rw [a2, Outcome.bind_ok, t1, t2]

end Delynoi.Clip
