import Verif.Model.IndexSegment
import Verif.Spec.Geometry
import Mathlib.Tactic.Linarith
import Mathlib.Tactic.Ring
import Mathlib.Data.Nat.Bitwise
import Mathlib.Data.Rat.Cast.Order
import Mathlib.Algebra.Order.Field.Rat
/-!
# Properties C14-C16: index segments as keys, hashing, orientation
-/
set_option linter.unusedSectionVars false
namespace Delynoi
open ISeg

/-- What a user means by "the same segment": same unordered pair of end points. -/
def SameEnds (a b : ISeg) : Prop :=
  (a.p1 = b.p1 ∧ a.p2 = b.p2) ∨ (a.p1 = b.p2 ∧ a.p2 = b.p1)

/-- C14: `==` compares unordered pairs. -/
theorem C14_eq_iff (a b : ISeg) : a.eq b = true ↔ SameEnds a b := by
  simp [ISeg.eq, SameEnds]

theorem pairHash_comm (i j : Int) : pairHash i j = pairHash j i := by
  unfold pairHash; rw [BitVec.add_comm]

/-- C14: swapping the end points gives an equal segment with the same hash. -/
theorem C14_swap (i j : Int) :
    (mk' i j).eq (mk' j i) = true ∧ (mk' i j).hash = (mk' j i).hash := by
  refine ⟨by simp [mk', ISeg.eq], ?_⟩
  unfold mk'; exact pairHash_comm i j

/-- C14: `==` is an equivalence relation. -/
theorem C14_equivalence :
    (∀ a : ISeg, a.eq a = true) ∧ (∀ a b : ISeg, a.eq b = true → b.eq a = true) ∧
    (∀ a b c : ISeg, a.eq b = true → b.eq c = true → a.eq c = true) := by
  refine ⟨?_, ?_, ?_⟩
  · intro a; simp [ISeg.eq]
  · intro a b; simp only [C14_eq_iff, SameEnds]; rintro (⟨h1, h2⟩ | ⟨h1, h2⟩) <;> simp [h1, h2]
  · intro a b c; simp only [C14_eq_iff, SameEnds]
    rintro (⟨h1, h2⟩ | ⟨h1, h2⟩) (⟨h3, h4⟩ | ⟨h3, h4⟩) <;> simp [h1, h2, h3, h4]

/-- The hash field agrees with the end points. -/
def HashOk (s : ISeg) : Prop := s.hash = pairHash s.p1 s.p2

/-- Field access with an abstract hash function (keeps the kernel from evaluating it). -/
theorem hash_field (f : Int → Int → BitVec 64) (i j : Int) : (ISeg.mk i j (f i j)).hash = f i j :=
  rfl

theorem hashOk_mk' (i j : Int) : HashOk (mk' i j) := hash_field pairHash i j

theorem hashOk_swap (i j : Int) (h : BitVec 64) (hh : HashOk ⟨i, j, h⟩) : HashOk ⟨j, i, h⟩ := by
  have h1 : h = pairHash i j := hh
  have h2 := hash_field pairHash j i
  rw [pairHash_comm j i, ← h1] at h2
  unfold HashOk
  rw [h2, h1]
  exact pairHash_comm i j

/-- Ways a program can obtain an index segment. -/
inductive Obtainable {K : Type} [Field K] [LinearOrder K] : ISeg → Prop
  | make (i j : Int) : Obtainable (mk' i j)
  | copy (s : ISeg) : Obtainable (K := K) s → Obtainable (ISeg.copy s)
  | add (s : ISeg) (o : Int) : Obtainable (K := K) s → Obtainable (s.add o)
  | order (s t : ISeg) (pts : List (Pt K)) (c : Pt K) :
      Obtainable (K := K) s → orderCCW pts c s = .ok t → Obtainable t

theorem orderCCW_cases {K : Type} [Field K] [LinearOrder K] {pts : List (Pt K)} {c : Pt K}
    {s t : ISeg} (h : orderCCW pts c s = .ok t) :
    ∃ a b, vecGet pts s.p1 = .ok a ∧ vecGet pts s.p2 = .ok b ∧
      ((orientation a b c > 0 ∧ t = s) ∨
        (¬ orientation a b c > 0 ∧ t = { s with p1 := s.p2, p2 := s.p1 })) := by
  unfold orderCCW isCCW at h
  cases ha : vecGet pts s.p1 with
  | exn => simp [ha] at h
  | ub => simp [ha] at h
  | ok a =>
    cases hb : vecGet pts s.p2 with
    | exn => simp [ha, hb] at h
    | ub => simp [ha, hb] at h
    | ok b =>
      refine ⟨a, b, rfl, rfl, ?_⟩
      simp only [ha, hb, Outcome.bind_ok, Outcome.pure_eq, decide_eq_true_eq] at h
      split at h
      · rename_i hc; left; exact ⟨hc, (Outcome.ok.inj h).symm⟩
      · rename_i hc; right; exact ⟨hc, (Outcome.ok.inj h).symm⟩

/-- C14: however a segment was obtained, its hash field is right; hence equal segments always
hash equally, which is what `std::unordered_map` needs. -/
theorem C14_hash_always_consistent {K : Type} [Field K] [LinearOrder K] (s : ISeg)
    (h : Obtainable (K := K) s) : HashOk s := by
  induction h with
  | make i j => exact hashOk_mk' i j
  | copy s _ _ => exact hashOk_mk' s.p1 s.p2
  | add s o _ _ => exact hashOk_mk' _ _
  | order s t pts c _ ht ih =>
    obtain ⟨_, _, _, _, ⟨_, h1⟩ | ⟨_, h1⟩⟩ := orderCCW_cases ht
    · rw [h1]; exact ih
    · subst h1; exact hashOk_swap s.p1 s.p2 s.hash ih

theorem C14_equal_hash {K : Type} [Field K] [LinearOrder K] (s t : ISeg)
    (hs : Obtainable (K := K) s) (ht : Obtainable (K := K) t) (h : s.eq t = true) :
    s.hash = t.hash := by
  have h1 := C14_hash_always_consistent s hs
  have h2 := C14_hash_always_consistent t ht
  unfold HashOk at h1 h2
  rw [h1, h2]
  rcases (C14_eq_iff s t).1 h with ⟨e1, e2⟩ | ⟨e1, e2⟩
  · rw [e1, e2]
  · rw [e1, e2]; exact pairHash_comm _ _

/-- C14: the same for the `Key` structure. -/
theorem C14_key_consistent (a b c d : Int) (h : (Key.mk' a b).eq (Key.mk' c d) = true) :
    (Key.mk' a b).hash = (Key.mk' c d).hash := by
  simp only [Key.eq, Key.mk', Bool.or_eq_true, Bool.and_eq_true, beq_iff_eq] at h
  rcases h with ⟨rfl, rfl⟩ | ⟨rfl, rfl⟩
  · rfl
  · unfold Key.mk'; exact pairHash_comm _ _

example : (ISeg.mk' 3 7).eq ((ISeg.mk' 6 2).add 1) = true := by decide

/-- `operator<` distinguishes segments that `==` identifies, so ordered containers of index
segments would treat `(1,2)` and `(2,1)` as different. -/
theorem C14_lt_inconsistent_with_eq :
    (mk' 1 2).eq (mk' 2 1) = true ∧ (mk' 1 2).lt (mk' 2 1) = true := by decide +kernel

/-! ### C15 -/

private theorem topbit_lt {x : Nat} (_hx : x ≠ 0) {k : Nat} (hk : 0 < k) :
    (x >>> k).testBit x.log2 = false := by
  apply Nat.testBit_lt_two_pow
  rw [Nat.shiftRight_eq_div_pow]
  have h1 : x < 2 ^ (x.log2 + 1) := Nat.lt_log2_self
  have h2 : 2 ≤ 2 ^ k := by
    calc 2 = 2 ^ 1 := rfl
      _ ≤ 2 ^ k := Nat.pow_le_pow_right (by norm_num) hk
  apply Nat.div_lt_of_lt_mul
  calc x < 2 ^ (x.log2 + 1) := h1
    _ = 2 * 2 ^ x.log2 := by rw [pow_succ]; ring
    _ ≤ 2 ^ k * 2 ^ x.log2 := Nat.mul_le_mul_right _ h2

private theorem topbit_self {x : Nat} (hx : x ≠ 0) : x.testBit x.log2 = true :=
  Nat.testBit_log2 hx

private theorem log2_ge {x k : Nat} (h : 2 ^ k ≤ x) : k ≤ x.log2 := by
  have hx : x ≠ 0 := by have := Nat.two_pow_pos k; omega
  exact (Nat.le_log2 hx).2 h

private theorem xor_shift_small {x : Nat} (h : x ^^^ (x >>> 4) ≤ 3) : x ≤ 3 := by
  by_contra hc
  have hx : x ≠ 0 := by omega
  have hl : 2 ≤ x.log2 := log2_ge (by omega)
  have hb : (x ^^^ (x >>> 4)).testBit x.log2 = true := by
    rw [Nat.testBit_xor, topbit_lt hx (by norm_num), topbit_self hx]; rfl
  have := Nat.ge_two_pow_of_testBit hb
  have h4 : 4 ≤ 2 ^ x.log2 := by
    calc 4 = 2 ^ 2 := rfl
      _ ≤ 2 ^ x.log2 := Nat.pow_le_pow_right (by norm_num) hl
  omega

private theorem first_step_zero {n : Nat} (h : (n ^^^ 61) ^^^ (n >>> 16) = 0) : n = 61 := by
  have he : n ^^^ 61 = n >>> 16 := by
    have := congrArg (fun z => z ^^^ (n >>> 16)) h
    simpa [Nat.xor_assoc] using this
  by_cases hn : n < 2 ^ 16
  · have h0 : n >>> 16 = 0 := by rw [Nat.shiftRight_eq_div_pow]; exact Nat.div_eq_of_lt hn
    rw [h0] at he
    have := congrArg (fun z => z ^^^ 61) he
    simpa [Nat.xor_assoc] using this
  · exfalso
    have hn : 2 ^ 16 ≤ n := by omega
    have hx : n ≠ 0 := by have := Nat.two_pow_pos 16; omega
    have hl : 16 ≤ n.log2 := log2_ge hn
    have h61 : (61 : Nat).testBit n.log2 = false := by
      apply Nat.testBit_lt_two_pow
      calc 61 < 2 ^ 16 := by norm_num
        _ ≤ 2 ^ n.log2 := Nat.pow_le_pow_right (by norm_num) hl
    have h1 : (n ^^^ 61).testBit n.log2 = true := by
      rw [Nat.testBit_xor, topbit_self hx, h61]; rfl
    rw [he, topbit_lt hx (by norm_num)] at h1
    exact absurd h1 (by simp)

/-- C15 is violated: for every index below 2^28 the evaluation of `hash32` overflows a signed
`int`, which is undefined behaviour - with the single exception of index 61. -/
theorem C15_hash32_undefined_refuted (key : BitVec 32) (hk : key.toNat < 2 ^ 28) :
    hash32Checked key = .ub ↔ key ≠ 61#32 := by
  constructor
  · rintro h rfl
    revert h; decide
  · intro hne
    have hmsb : key.msb = false := by rw [BitVec.msb_eq_false_iff_two_mul_lt]; omega
    -- the first step as a natural number
    set k1 := (key ^^^ 61#32) ^^^ (key.sshiftRight 16) with hk1
    have hk1n : k1.toNat = (key.toNat ^^^ 61) ^^^ (key.toNat >>> 16) := by
      rw [hk1, BitVec.toNat_xor, BitVec.toNat_xor, BitVec.sshiftRight_eq_of_msb_false hmsb,
        BitVec.toNat_ushiftRight]
      rfl
    have hk1lt : k1.toNat < 2 ^ 28 := by
      rw [hk1n]
      apply Nat.xor_lt_two_pow
      · exact Nat.xor_lt_two_pow hk (by norm_num)
      · rw [Nat.shiftRight_eq_div_pow]
        exact lt_of_le_of_lt (Nat.div_le_self _ _) hk
    have hk1ne : k1.toNat ≠ 0 := by
      intro h0
      rw [hk1n] at h0
      apply hne
      apply BitVec.eq_of_toNat_eq
      rw [first_step_zero h0]; rfl
    have hshl : (k1 <<< 3).toNat = 8 * k1.toNat := by
      rw [BitVec.toNat_shiftLeft, Nat.shiftLeft_eq]
      rw [Nat.mod_eq_of_lt (by omega)]; omega
    have hi1 : k1.toInt = (k1.toNat : Int) := BitVec.toInt_eq_toNat_of_lt (by omega)
    have hi2 : (k1 <<< 3).toInt = ((8 * k1.toNat : Nat) : Int) := by
      rw [← hshl]; exact BitVec.toInt_eq_toNat_of_lt (by rw [hshl]; omega)
    unfold hash32Checked
    simp only [← hk1]
    split
    · rename_i hfit
      split
      · exfalso
        rename_i hfit2
        simp only [fitsInt32, Bool.and_eq_true, decide_eq_true_eq, hi1, hi2] at hfit
        have h9 : 9 * k1.toNat ≤ 2147483647 := by have := hfit.2; push_cast at this; omega
        have hk2 : (k1 + k1 <<< 3).toNat = 9 * k1.toNat := by
          rw [BitVec.toNat_add, hshl, Nat.mod_eq_of_lt (by omega)]; omega
        have hmsb2 : (k1 + k1 <<< 3).msb = false := by
          rw [BitVec.msb_eq_false_iff_two_mul_lt, hk2]; omega
        have hk3 : ((k1 + k1 <<< 3) ^^^ (k1 + k1 <<< 3).sshiftRight 4).toNat =
            (9 * k1.toNat) ^^^ ((9 * k1.toNat) >>> 4) := by
          rw [BitVec.toNat_xor, BitVec.sshiftRight_eq_of_msb_false hmsb2,
            BitVec.toNat_ushiftRight, hk2]
        have hk3lt : (9 * k1.toNat) ^^^ ((9 * k1.toNat) >>> 4) < 2 ^ 31 := by
          apply Nat.xor_lt_two_pow
          · omega
          · rw [Nat.shiftRight_eq_div_pow]
            exact lt_of_le_of_lt (Nat.div_le_self _ _) (by omega)
        have hi3 : ((k1 + k1 <<< 3) ^^^ (k1 + k1 <<< 3).sshiftRight 4).toInt =
            (((9 * k1.toNat) ^^^ ((9 * k1.toNat) >>> 4) : Nat) : Int) := by
          rw [← hk3]; exact BitVec.toInt_eq_toNat_of_lt (by rw [hk3]; omega)
        simp only [fitsInt32, Bool.and_eq_true, decide_eq_true_eq, hi3] at hfit2
        have h3 : (9 * k1.toNat) ^^^ ((9 * k1.toNat) >>> 4) ≤ 3 := by
          have := hfit2.2; omega
        have := xor_shift_small h3
        omega
      · rfl
    · rfl

/-- C15, what does hold: with wrap-around arithmetic (e.g. `-fwrapv`) the value is the one of
the checked evaluation whenever that one is defined. -/
theorem C15_wrap_agrees_partial (key h : BitVec 32) (hd : hash32Checked key = .ok h) :
    hash32 key = h := by
  unfold hash32Checked at hd
  simp only at hd
  split at hd
  · split at hd
    · have := Outcome.ok.inj hd
      rw [← this]; rfl
    · simp at hd
  · simp at hd

example : hash32Checked 61#32 = .ok 0#32 := by decide
example : hash32Checked 0#32 = .ub := by decide

/-! ### C16 -/

variable {K : Type} [Field K] [LinearOrder K] [IsStrictOrderedRing K]

/-- C16: with in-range end points `orderCCW` succeeds, keeps the unordered end points, and the
resulting segment sees the reference point on its left unless the three are collinear. -/
theorem C16_orderCCW (pts : List (Pt K)) (c a b : Pt K) (s : ISeg)
    (h1 : vecGet pts s.p1 = .ok a) (h2 : vecGet pts s.p2 = .ok b) :
    ∃ t, orderCCW pts c s = .ok t ∧ SameEnds t s ∧ t.hash = s.hash ∧
      (turn a b c ≠ 0 → isCCW pts c t = .ok true) ∧
      (turn a b c = 0 → t.p1 = s.p2 ∧ t.p2 = s.p1) := by
  have ho : ∀ a b : Pt K, orientation a b c = turn a b c := by
    intro a b; simp only [orientation, crossProduct, Pt.sub, turn]
  have hsw : turn b a c = -turn a b c := by unfold turn; ring
  unfold orderCCW isCCW
  simp only [h1, h2, Outcome.bind_ok, Outcome.pure_eq, ho, decide_eq_true_eq]
  by_cases hp : turn a b c > 0
  · refine ⟨s, by simp [hp], Or.inl ⟨rfl, rfl⟩, rfl, ?_, ?_⟩
    · intro _; simp [h1, h2, hp]
    · intro h0; rw [h0] at hp; exact absurd hp (lt_irrefl _)
  · refine ⟨{ s with p1 := s.p2, p2 := s.p1 }, by simp [hp], Or.inr ⟨rfl, rfl⟩, rfl, ?_, ?_⟩
    · intro hne
      have : turn a b c < 0 := lt_of_le_of_ne (not_lt.1 hp) hne
      simp [h1, h2, hsw, this]
    · intro _; exact ⟨rfl, rfl⟩

/-- C16: ordering twice is the same as ordering once, unless the points are collinear. -/
theorem C16_orderCCW_idempotent (pts : List (Pt K)) (c a b : Pt K) (s t : ISeg)
    (h1 : vecGet pts s.p1 = .ok a) (h2 : vecGet pts s.p2 = .ok b) (hne : turn a b c ≠ 0)
    (ht : orderCCW pts c s = .ok t) : orderCCW pts c t = .ok t := by
  obtain ⟨t', ht', _, _, hc, _⟩ := C16_orderCCW pts c a b s h1 h2
  rw [ht] at ht'
  obtain rfl := Outcome.ok.inj ht'
  unfold orderCCW
  rw [hc hne]; simp

/-- C16: in the collinear case every call swaps the end points, so it is not idempotent. -/
theorem C16_collinear_refuted : ∃ (pts : List (Pt ℚ)) (c : Pt ℚ) (s t u : ISeg),
    orderCCW pts c s = .ok t ∧ orderCCW pts c t = .ok u ∧ t ≠ u :=
  ⟨[⟨0, 0⟩, ⟨1, 0⟩], ⟨2, 0⟩, mk' 0 1, ⟨1, 0, pairHash 0 1⟩, mk' 0 1, by decide +kernel,
    by decide +kernel, by decide +kernel⟩

example : orderCCW [⟨0, 0⟩, ⟨1, 0⟩] (⟨0, -1⟩ : Pt ℚ) (mk' 0 1) = .ok ⟨1, 0, pairHash 0 1⟩ := by
  decide +kernel

end Delynoi
