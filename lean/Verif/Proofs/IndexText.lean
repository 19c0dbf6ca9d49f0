import Verif.Proofs.Number
/-!
# Lemmas about the text of indices
-/
namespace Delynoi

/-- Characters of printed numbers. -/
def NumChar (c : Char) : Prop := c.isDigit = true ∨ c = '-' ∨ c = '+' ∨ c = '.' ∨ c = 'e'

theorem NumChar.not_white {c : Char} (h : NumChar c) : ¬ White c := by
  rw [← isSpace_iff]
  rcases h with h | rfl | rfl | rfl | rfl
  · simp [isDigit_not_space h]
  all_goals decide

theorem NumChar.not_nl {c : Char} (h : NumChar c) : c ≠ '\n' := by
  rintro rfl
  exact h.not_white (by simp [White])

theorem mem_stripZeros {s : List Char} {c : Char} (h : c ∈ stripZeros s) : c ∈ s := by
  unfold stripZeros at h
  have sub : ∀ d ∈ s.reverse.dropWhile (fun c => c == '0'), d ∈ s := by
    intro d hd
    have := (List.dropWhile_sublist (fun c : Char => c == '0') (l := s.reverse)).subset hd
    simpa using this
  split at h
  · rename_i r heq
    apply sub
    rw [heq]
    simp at h ⊢; exact Or.inr h
  · apply sub
    simpa using h

theorem digits_numChar {s : List Char} (h : Digits s) : ∀ c ∈ s, NumChar c := fun c hc => Or.inl (h c hc)

theorem numChars_append {a b : List Char} (ha : ∀ c ∈ a, NumChar c) (hb : ∀ c ∈ b, NumChar c) :
    ∀ c ∈ a ++ b, NumChar c := by
  intro c hc
  rcases List.mem_append.1 hc with h | h
  · exact ha c h
  · exact hb c h

theorem numChars_cons {a : Char} {b : List Char} (ha : NumChar a) (hb : ∀ c ∈ b, NumChar c) :
    ∀ c ∈ a :: b, NumChar c := by
  intro c hc
  rcases List.mem_cons.1 hc with rfl | h
  · exact ha
  · exact hb c h

theorem fixedAbs_numChars (prec : Nat) (x : ℚ) : ∀ c ∈ fixedAbs prec x, NumChar c := by
  unfold fixedAbs
  simp only
  split
  · exact digits_numChar (natText_digits _)
  · exact numChars_append (digits_numChar (natText_digits _))
      (numChars_cons (by simp [NumChar]) (digits_numChar (padText_digits _ _)))

theorem fmtG_numChars (x : ℚ) : ∀ c ∈ fmtGAbs 6 x, NumChar c := by
  unfold fmtGAbs
  simp only
  split
  · split
    · exact fixedAbs_numChars _ _
    · intro c hc
      exact fixedAbs_numChars _ _ c (mem_stripZeros hc)
  · rw [if_neg (by decide)]
    have hd := natText_digits (sciParts 6 x).1
    refine numChars_append ?_ ?_
    · intro c hc
      refine numChars_append (digits_numChar (fun c hc => hd c (List.mem_of_mem_take hc)))
        (numChars_cons (by simp [NumChar])
          (digits_numChar (fun c hc => hd c (List.mem_of_mem_drop hc)))) c (mem_stripZeros hc)
    · unfold expText
      refine numChars_cons (by simp [NumChar]) (numChars_cons ?_ (digits_numChar (padText_digits _ _)))
      split <;> simp [NumChar]

theorem strip_ne (ip fp : List Char) (hi : ip ≠ []) (hf : Digits fp) :
    stripZeros (ip ++ '.' :: fp) ≠ [] := by
  obtain ⟨fp', k, h1, h2⟩ := split_zeros fp
  rw [h1, stripZeros_spec ip fp' k (fun c hc => hf c (by rw [h1]; simp [hc])) h2]
  split
  · exact hi
  · simp

theorem fmtG_ne (x : ℚ) : fmtGAbs 6 x ≠ [] := by
  unfold fmtGAbs
  simp only
  split
  · split
    · unfold fixedAbs; simp only [if_true]; exact natText_ne _
    · rename_i h
      unfold fixedAbs
      rw [if_neg h]
      exact strip_ne _ _ (natText_ne _) (padText_digits _ _)
  · unfold expText; simp

theorem toStringD_numChars (x : ℚ) : ∀ c ∈ toStringD x, NumChar c := by
  by_cases h : x = 0
  · rw [h, toStringD_zero]; intro c hc; simp at hc; subst hc; left; decide
  · rw [toStringD_eq x h]
    refine numChars_append ?_ (fmtG_numChars _)
    unfold sgn
    split
    · intro c hc; simp at hc; subst hc; simp [NumChar]
    · simp

theorem toStringD_ne (x : ℚ) : toStringD x ≠ [] := by
  by_cases h : x = 0
  · rw [h, toStringD_zero]; simp
  · rw [toStringD_eq x h]
    intro h2
    exact fmtG_ne _ (List.append_eq_nil_iff.1 h2).2

theorem toStringD_word (x : ℚ) : ∀ c ∈ toStringD x, ¬ White c :=
  fun c hc => (toStringD_numChars x c hc).not_white

theorem toStringD_line (x : ℚ) : IsLine (toStringD x) :=
  fun h => (toStringD_numChars x _ h).not_nl rfl

theorem natText_numChars (n : Nat) : ∀ c ∈ natText n, NumChar c := digits_numChar (natText_digits n)

theorem natText_line (n : Nat) : IsLine (natText n) := fun h => (natText_numChars n _ h).not_nl rfl

/-! ### Small and large indices -/

theorem intText_eq (n : Int) : intText n = sgn (decide (n < 0)) ++ natText n.natAbs := by
  have e : (toString n.natAbs).toList = natText n.natAbs := by
    show (n.natAbs.repr).toList = _
    rw [Nat.toList_repr]; rfl
  unfold intText sgn
  rw [e]
  by_cases h : n < 0 <;> simp [h]

theorem atoi_intText (n : Int) (h : |n| ≤ 2147483647) : atoi (intText n) = .ok n := by
  rw [intText_eq]
  have hb : n.natAbs ≤ 2147483647 := by
    have := abs_le.1 h; omega
  have := atoi_digits (decide (n < 0)) (natText n.natAbs) [] (natText_ne _) (natText_digits _)
    (by simp) (by rw [digitsVal_natText]; exact hb)
  rw [List.append_nil] at this
  rw [this, digitsVal_natText]
  by_cases hn : n < 0
  · simp only [hn, decide_true, if_true]; congr 1; omega
  · simp only [hn, decide_false, Bool.false_eq_true, if_false]; congr 1; omega

theorem pad_zero (prec : Nat) (h : prec ≠ 0) : padText prec 0 = List.replicate prec '0' := by
  unfold padText
  have e : natText 0 = ['0'] := by decide
  rw [e]
  simp only [List.length_cons, List.length_nil]
  have : prec = (prec - 1) + 1 := by omega
  conv_rhs => rw [this]
  rw [List.replicate_succ']

theorem sciParts_nat (N : Nat) (h0 : 0 < N) (h : N < 10 ^ 6) :
    ∃ L : Nat, L ≤ 5 ∧ sciParts 6 (N : ℚ) = (N * 10 ^ (5 - L), (L : Int)) := by
  refine ⟨Nat.log 10 N, ?_, ?_⟩
  · have := Nat.log_lt_of_lt_pow (b := 10) (y := N) (x := 6) (by omega) h
    omega
  · have hL : Nat.log 10 N ≤ 5 := by
      have := Nat.log_lt_of_lt_pow (b := 10) (y := N) (x := 6) (by omega) h
      omega
    have hlog : Int.log 10 (N : ℚ) = (Nat.log 10 N : Int) := Int.log_natCast 10 N
    have hlt : N < 10 ^ (Nat.log 10 N + 1) := Nat.lt_pow_succ_log_self (by decide) N
    unfold sciParts
    rw [hlog]
    generalize Nat.log 10 N = L at *
    have hz : (10 : ℚ) ^ ((L : Int) - ((6 : Nat) : Int) + 1) = ((10 : ℚ) ^ (5 - L))⁻¹ := by
      rw [← zpow_natCast, ← zpow_neg]; congr 1; push_cast; omega
    have hq : (N : ℚ) / ((10 : ℚ) ^ (5 - L))⁻¹ = (((N * 10 ^ (5 - L) : Nat) : Int) : ℚ) := by
      rw [div_inv_eq_mul]; push_cast; ring
    simp only [hz, hq, roundHE_int, Int.toNat_natCast]
    rw [if_neg]
    have : N * 10 ^ (5 - L) < 10 ^ (L + 1) * 10 ^ (5 - L) :=
      Nat.mul_lt_mul_of_pos_right hlt (by positivity)
    rw [← pow_add] at this
    have e : L + 1 + (5 - L) = 6 := by omega
    rw [e] at this
    omega

theorem fmtG_nat (N : Nat) (h0 : 0 < N) (h : N < 10 ^ 6) : fmtGAbs 6 (N : ℚ) = natText N := by
  obtain ⟨L, hL, hs⟩ := sciParts_nat N h0 h
  unfold fmtGAbs
  rw [hs]
  simp only
  rw [if_pos (by push_cast; omega)]
  have hp : (((6 : Nat) : Int) - 1 - (L : Int)).toNat = 5 - L := by push_cast; omega
  rw [hp]
  have hr : ∀ p : Nat, roundHE ((N : ℚ) * 10 ^ p) = ((N * 10 ^ p : Nat) : Int) := by
    intro p
    have : (N : ℚ) * 10 ^ p = (((N * 10 ^ p : Nat) : Int) : ℚ) := by push_cast; ring
    rw [this, roundHE_int]
  by_cases h5 : 5 - L = 0
  · rw [if_pos h5, fixedAbs_of_round 0 _ _ (hr 0), if_pos rfl]; simp
  · rw [if_neg h5, fixedAbs_of_round _ _ _ (hr (5 - L)), if_neg h5]
    rw [Nat.mul_div_cancel _ (by positivity), Nat.mul_mod_left, pad_zero _ h5]
    have := stripZeros_spec (natText N) [] (5 - L) (by simp [Digits]) (by simp)
    simpa using this

theorem toStringD_int (n : Int) (h : |n| < 10 ^ 6) : toStringD (n : ℚ) = intText n := by
  rw [intText_eq]
  by_cases h0 : n = 0
  · subst h0
    have : natText (0 : Int).natAbs = ['0'] := by decide
    rw [this]; simp [toStringD_zero, sgn]
  · have hq : (n : ℚ) ≠ 0 := by exact_mod_cast h0
    rw [toStringD_eq _ hq]
    have e1 : |(n : ℚ)| = ((n.natAbs : Nat) : ℚ) := by
      rw [← Int.cast_abs, Int.abs_eq_natAbs]; simp
    have e2 : decide ((n : ℚ) < 0) = decide (n < 0) := by
      congr 1; exact propext (by exact_mod_cast Iff.rfl)
    rw [e1, e2, fmtG_nat n.natAbs (by omega) (by
      have := abs_lt.1 h; omega)]

/-- An index of a million or more is read back as a single digit. -/
theorem atoi_large (n : Int) (h : 10 ^ 6 ≤ |n|) :
    ∃ k : Int, atoi (toStringD (n : ℚ)) = .ok k ∧ |k| ≤ 9 := by
  have h0 : (n : ℚ) ≠ 0 := by
    rintro h1
    have : n = 0 := by exact_mod_cast h1
    subst this; norm_num at h
  rw [toStringD_eq _ h0]
  have hz : (10 : ℚ) ^ 6 ≤ |(n : ℚ)| := by
    rw [← Int.cast_abs]; exact_mod_cast h
  have hpos : 0 < |(n : ℚ)| := abs_pos.2 h0
  obtain ⟨m, X, hs, hm1, hm2, _, e, _, h2, hX, _⟩ := sciParts_spec _ hpos
  have he : 6 ≤ e := by
    by_contra hlt
    push Not at hlt
    have : (10 : ℚ) ^ (e + 1) ≤ (10 : ℚ) ^ (6 : Int) := zpow_le_zpow_right₀ (by norm_num) (by omega)
    have e6 : (10 : ℚ) ^ (6 : Int) = 10 ^ 6 := by norm_cast
    rw [e6] at this
    linarith
  unfold fmtGAbs
  rw [hs]
  simp only
  rw [if_neg (by push_cast; omega), if_neg (by decide)]
  -- the first digit
  obtain ⟨d, ds, hds⟩ := List.exists_cons_of_ne_nil (natText_ne m)
  have hd := natText_digits m
  rw [hds] at hd ⊢
  have hd1 : d.isDigit = true := hd d (by simp)
  obtain ⟨fp', k, h1, h2'⟩ := split_zeros ds
  have hstrip := stripZeros_spec [d] fp' k
    (fun c hc => hd c (by rw [h1]; simp [hc])) h2'
  rw [← h1] at hstrip
  have e1 : (d :: ds).take 1 ++ '.' :: (d :: ds).drop 1 = [d] ++ '.' :: ds := rfl
  rw [e1, hstrip]
  have hval := digit_le d hd1
  generalize hneg : decide ((n : ℚ) < 0) = neg
  have fin : ∀ r : List Char, (∀ c, r.head? = some c → c.isDigit = false) →
      ∃ k : Int, atoi (sgn neg ++ ([d] ++ r)) = .ok k ∧ |k| ≤ 9 := by
    intro r hr
    refine ⟨_, atoi_digits neg [d] r (by simp) (by intro c hc; simp at hc; subst hc; exact hd1) hr
      (by omega), ?_⟩
    rw [abs_le]
    cases neg <;> simp <;> omega
  split
  · exact fin _ (fun c hc => (expText_head X c hc).1)
  · have := fin ('.' :: fp' ++ expText X) (by simp)
    simpa using this

end Delynoi
