import Verif.Model.Generator
import Verif.Proofs.UniqueList
import Mathlib.Algebra.Ring.Periodic
import Mathlib.Algebra.Order.Ring.Defs
import Mathlib.Tactic.Ring
/-!
# The state of `ConstantAlternating` over a periodic call sequence
-/
set_option linter.unusedSectionVars false
namespace Delynoi
variable {K : Type} [Field K] [LinearOrder K] [IsStrictOrderedRing K]

theorem swo_ltNum : SWO (ltNum : Option K → Option K → Bool) {o | o.isSome = true} := by
  refine ⟨?_, ?_, ?_⟩
  · rintro (_ | a) ha
    · simp at ha
    · simp [ltNum]
  · rintro (_ | a) ha (_ | b) hb (_ | c) hc <;> simp_all [ltNum]
    intro h1 h2; exact h1.trans h2
  · rintro (_ | a) ha (_ | b) hb (_ | c) hc <;> simp_all [ltNum]
    intro h1 h2 h3 h4
    exact ⟨h3.trans h1, h2.trans h4⟩

theorem equiv_ltNum (a b : K) : Equiv' ltNum (some a) (some b) ↔ a = b := by
  unfold Equiv'
  simp only [ltNum, decide_eq_false_iff_not, not_lt]
  constructor
  · rintro ⟨h1, h2⟩; exact le_antisymm h2 h1
  · rintro rfl; exact ⟨le_refl _, le_refl _⟩

/-- The spacing seen at the start of epoch `c` (an epoch is `m + 1` calls). -/
def altSpacing (x : Nat → K) (m c : Nat) : K := |x (c * (m + 1)) - x (c * (m + 1) + 1)|

/-- State after `r` calls of epoch `c`. -/
structure AltInv (x : Nat → K) (m c r : Nat) (s : AltState K) : Prop where
  inv : UList.Inv ltNum {o : Option K | o.isSome = true} s.visited
  list : s.visited.list = (List.range r).map (fun i => some (x (c * (m + 1) + i)))
  delta : s.delta = if 2 ≤ r then some (some (altSpacing x m c)) else
    if c = 0 then none else some (some (altSpacing x m (c - 1)))
  alt : s.alternating = decide (c % 2 = 1)

variable {x : Nat → K} {m : Nat}

theorem periodic_eq (hper : ∀ n, x (n + m) = x n) (hinj : ∀ i j, i < m → j < m → x i = x j → i = j)
    (hm : 0 < m) (a b : Nat) : x a = x b ↔ a % m = b % m := by
  have h1 : ∀ n, x (n % m) = x n := fun n => by
    conv_rhs => rw [← Nat.mod_add_div n m]
    induction n / m with
    | zero => simp
    | succ k ih => rw [Nat.mul_succ, ← Nat.add_assoc, hper]; exact ih
  constructor
  · intro h
    exact hinj _ _ (Nat.mod_lt _ hm) (Nat.mod_lt _ hm) (by rw [h1, h1, h])
  · intro h
    rw [← h1 a, ← h1 b, h]

theorem alt_step (hm : 2 ≤ m) (hper : ∀ n, x (n + m) = x n)
    (hinj : ∀ i j, i < m → j < m → x i = x j → i = j) (c r : Nat) (hr : r ≤ m) (s : AltState K)
    (h : AltInv x m c r s) :
    ∃ s', AltInv x m (if r = m then c + 1 else c) (if r = m then 0 else r + 1) s' ∧
      Fn.alternating s (some (x (c * (m + 1) + r))) =
        .ok (some (x (c * (m + 1) + r) +
          if (if r = m then c + 1 else c) % 2 = 1 then altSpacing x m (if r = 0 then c - 1 else c) / 2 else 0), s') := by
  have hm0 : 0 < m := by omega
  have hmem : (some (x (c * (m + 1) + r))) ∈ {o : Option K | o.isSome = true} := rfl
  -- the value of `delta` after the first statement
  have hdelta : altDelta s (some (x (c * (m + 1) + r))) = if 1 ≤ r then some (some (altSpacing x m c)) else
        if c = 0 then none else some (some (altSpacing x m (c - 1))) := by
    unfold altDelta
    rw [h.list, h.delta]
    match r, hr with
    | 0, _ => simp
    | 1, _ => simp [absDiff, altSpacing]
    | r + 2, _ =>
      simp [List.range_succ_eq_map]
  unfold Fn.alternating
  dsimp only
  rw [hdelta]
  by_cases hrm : r = m
  · -- the first value comes back: toggle
    subst hrm
    have hx0 : x (c * (r + 1) + r) = x (c * (r + 1)) := hper _
    rcases UList.pushBack_cases swo_ltNum h.inv hmem with ⟨hf, _⟩ | ⟨y, i, hy, hq, he⟩
    · exfalso
      refine hf (some (x (c * (r + 1)))) ?_ ((equiv_ltNum _ _).2 hx0.symm)
      rw [h.list]
      exact List.mem_map.2 ⟨0, List.mem_range.2 hm0, by simp⟩
    · rw [h.list] at hy
      have hil : i < r := by
        have := (List.getElem?_eq_some_iff.1 hy).1
        simpa using this
      have hyv : y = some (x (c * (r + 1) + i)) := by
        rw [List.getElem?_map, List.getElem?_range hil] at hy
        simpa using hy.symm
      rw [hyv, equiv_ltNum, hx0] at hq
      have hi0 : i = 0 := by
        have := (periodic_eq hper hinj hm0 _ _).1 hq
        have h2 : i ≡ 0 [MOD r] := by
          have h3 : c * (r + 1) + i ≡ c * (r + 1) + 0 [MOD r] := this
          exact Nat.ModEq.add_left_cancel' _ h3
        have h4 : i % r = 0 % r := h2
        rw [Nat.mod_eq_of_lt hil, Nat.zero_mod] at h4
        exact h4
      subst hi0
      have hlen : s.visited.list.length = r := by rw [h.list]; simp
      have ht : decide (((0 : Nat) : Int) < (s.visited.list.length : Int) - 1) = true := by
        rw [hlen]; exact decide_eq_true (by omega)
      rw [he]
      dsimp only
      rw [ht]
      simp only [if_true]
      have h1r : 1 ≤ r := by omega
      refine ⟨⟨UList.clear s.visited, some (some (altSpacing x r c)), !s.alternating⟩, ?_, ?_⟩
      · refine ⟨UList.inv_empty, by simp [UList.clear], by simp, ?_⟩
        show (!s.alternating) = _
        rw [h.alt]
        by_cases hc : c % 2 = 1
        · have : ¬ (c + 1) % 2 = 1 := by omega
          simp [hc, this]
        · have : (c + 1) % 2 = 1 := by omega
          simp [hc, this]
      · rw [if_pos h1r, h.alt]
        have hr0 : ¬ r = 0 := by omega
        by_cases hc : c % 2 = 1
        · have h2 : ¬ (c + 1) % 2 = 1 := by omega
          simp [hc, h2]
        · have h2 : (c + 1) % 2 = 1 := by omega
          simp [hc, h2, hr0]
  · have hlt : r < m := by omega
    rcases UList.pushBack_cases swo_ltNum h.inv hmem with ⟨hf, he⟩ | ⟨y, i, hy, hq, he⟩
    · have hinv' := UList.inv_append swo_ltNum h.inv hmem hf
      have hlen : s.visited.list.length = r := by rw [h.list]; simp
      have ht : decide (((s.visited.list.length : Nat) : Int) <
          (((s.visited.list ++ [some (x (c * (m + 1) + r))]).length : Nat) : Int) - 1) = false := by
        rw [List.length_append, List.length_singleton]; exact decide_eq_false (by omega)
      rw [he]
      dsimp only
      rw [ht]
      simp only [hrm, if_false, Bool.false_eq_true]
      refine ⟨⟨⟨s.visited.list ++ [some (x (c * (m + 1) + r))],
        SMap.insert ltNum s.visited.map (some (x (c * (m + 1) + r))) s.visited.list.length⟩,
        if 1 ≤ r then some (some (altSpacing x m c)) else
        if c = 0 then none else some (some (altSpacing x m (c - 1))), s.alternating⟩, ?_, ?_⟩
      · refine ⟨hinv', ?_, ?_, h.alt⟩
        · show s.visited.list ++ _ = _
          rw [h.list, List.range_succ, List.map_append]; rfl
        · by_cases h1 : 1 ≤ r
          · have : 2 ≤ r + 1 := by omega
            simp [h1, this]
          · have : ¬ 2 ≤ r + 1 := by omega
            simp [h1, this]
      · rw [h.alt]
        by_cases hc : c % 2 = 1
        · have hc0 : c ≠ 0 := by omega
          by_cases h1 : 1 ≤ r
          · have : r ≠ 0 := by omega
            simp [hc, h1, this]
          · have : r = 0 := by omega
            subst this
            simp [hc, hc0]
        · simp [hc]
    · exfalso
      rw [h.list] at hy
      have hil : i < r := by
        have := (List.getElem?_eq_some_iff.1 hy).1
        simpa using this
      have hyv : y = some (x (c * (m + 1) + i)) := by
        rw [List.getElem?_map, List.getElem?_range hil] at hy
        simpa using hy.symm
      rw [hyv, equiv_ltNum] at hq
      have := (periodic_eq hper hinj hm0 _ _).1 hq
      have h2 : i ≡ r [MOD m] := Nat.ModEq.add_left_cancel' _ this
      have h4 : i % m = r % m := h2
      rw [Nat.mod_eq_of_lt (by omega), Nat.mod_eq_of_lt hlt] at h4
      omega

/-- The result of call number `n` (from 0). -/
def altOut (x : Nat → K) (m n : Nat) : K :=
  x n + if ((n + 1) / (m + 1)) % 2 = 1 then altSpacing x m ((n - 1) / (m + 1)) / 2 else 0

theorem alt_run (hm : 2 ≤ m) (hper : ∀ n, x (n + m) = x n)
    (hinj : ∀ i j, i < m → j < m → x i = x j → i = j) (k : Nat) : ∀ (n : Nat) (s : AltState K),
    AltInv x m (n / (m + 1)) (n % (m + 1)) s →
    ∃ s', Fn.run Fn.alternating s ((List.range' n k).map (fun i => some (x i))) =
      .ok ((List.range' n k).map (fun i => some (altOut x m i)), s') := by
  induction k with
  | zero => intro n s _; exact ⟨s, rfl⟩
  | succ k ih =>
    intro n s h
    have hM : 0 < m + 1 := by omega
    have hrm : n % (m + 1) ≤ m := by have := Nat.mod_lt n hM; omega
    have hn : n / (m + 1) * (m + 1) + n % (m + 1) = n := by
      rw [Nat.mul_comm]; exact Nat.div_add_mod n (m + 1)
    obtain ⟨s1, h1, e1⟩ := alt_step hm hper hinj _ _ hrm s h
    rw [hn] at e1
    have hdm : (if n % (m + 1) = m then n / (m + 1) + 1 else n / (m + 1)) = (n + 1) / (m + 1) ∧
        (if n % (m + 1) = m then 0 else n % (m + 1) + 1) = (n + 1) % (m + 1) := by
      by_cases hr : n % (m + 1) = m
      · rw [if_pos hr, if_pos hr]
        have e : n + 1 = (n / (m + 1) + 1) * (m + 1) := by
          rw [Nat.add_mul]; omega
        constructor
        · rw [e, Nat.mul_div_cancel _ hM]
        · rw [e, Nat.mul_mod_left]
      · rw [if_neg hr, if_neg hr]
        have e : n + 1 = (n % (m + 1) + 1) + (m + 1) * (n / (m + 1)) := by
          rw [Nat.mul_comm]; omega
        constructor
        · conv_rhs => rw [e]
          rw [Nat.add_mul_div_left _ _ hM, Nat.div_eq_of_lt (show n % (m + 1) + 1 < m + 1 by omega), Nat.zero_add]
        · conv_rhs => rw [e]
          rw [Nat.add_mul_mod_self_left, Nat.mod_eq_of_lt (show n % (m + 1) + 1 < m + 1 by omega)]
    rw [hdm.1, hdm.2] at h1
    rw [hdm.1] at e1
    have hprev : (n + 1) / (m + 1) % 2 = 1 →
        (if n % (m + 1) = 0 then n / (m + 1) - 1 else n / (m + 1)) = (n - 1) / (m + 1) := by
      intro hodd
      by_cases hr : n % (m + 1) = 0
      · rw [if_pos hr]
        have hc : 0 < n / (m + 1) := by
          rcases Nat.eq_zero_or_pos (n / (m + 1)) with h0 | h0
          · exfalso
            rw [h0, hr] at hn
            have : n = 0 := by omega
            subst this
            rw [Nat.div_eq_of_lt (by omega)] at hodd
            simp at hodd
          · exact h0
        obtain ⟨d, hd⟩ := Nat.exists_eq_add_of_lt hc
        have hd : n / (m + 1) = d + 1 := by omega
        have e : n - 1 = m + (m + 1) * d := by
          rw [hd, hr, Nat.add_mul, Nat.mul_comm d] at hn; omega
        rw [hd, e, Nat.add_mul_div_left _ _ hM, Nat.div_eq_of_lt (by omega)]; omega
      · rw [if_neg hr]
        have e : n - 1 = (n % (m + 1) - 1) + (m + 1) * (n / (m + 1)) := by
          rw [Nat.mul_comm]; omega
        conv_rhs => rw [e]
        rw [Nat.add_mul_div_left _ _ hM, Nat.div_eq_of_lt (show n % (m + 1) - 1 < m + 1 by omega), Nat.zero_add]
    have e1' : Fn.alternating s (some (x n)) = .ok (some (altOut x m n), s1) := by
      rw [e1]
      unfold altOut
      by_cases hodd : (n + 1) / (m + 1) % 2 = 1
      · rw [if_pos hodd, if_pos hodd, hprev hodd]
      · rw [if_neg hodd, if_neg hodd]
    obtain ⟨s2, e2⟩ := ih (n + 1) s1 h1
    refine ⟨s2, ?_⟩
    rw [List.range'_succ, List.map_cons, List.map_cons]
    unfold Fn.run
    rw [e1']
    simp only [Outcome.bind_ok]
    rw [e2]
    rfl

theorem alt_init : AltInv x m 0 0 (AltState.init : AltState K) :=
  ⟨UList.inv_empty, by simp [AltState.init, UList.empty], by simp [AltState.init], by simp [AltState.init]⟩

end Delynoi
