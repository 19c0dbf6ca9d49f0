import Verif.Proofs.Text
/-!
# Lemmas about reading and writing numbers
-/
namespace Delynoi

/-! ### Digits -/

/-- All characters are digits. -/
def Digits (s : List Char) : Prop := ∀ c ∈ s, c.isDigit = true

theorem natText_digits (n : Nat) : Digits (natText n) := fun _ hc =>
  Nat.isDigit_of_mem_toDigits (by decide) (by decide) hc

theorem natText_ne (n : Nat) : natText n ≠ [] := Nat.toDigits_ne_nil

theorem replicate_digits (k : Nat) : Digits (List.replicate k '0') := by
  intro c hc
  rw [List.eq_of_mem_replicate hc]; decide

theorem Digits.append {a b : List Char} (ha : Digits a) (hb : Digits b) : Digits (a ++ b) := by
  intro c hc
  rcases List.mem_append.1 hc with h | h
  · exact ha c h
  · exact hb c h

theorem padText_digits (w n : Nat) : Digits (padText w n) :=
  (replicate_digits _).append (natText_digits _)

theorem digitsVal_natText (n : Nat) : digitsVal (natText n) = n := Nat.ofDigitChars_ten_toDigits

theorem digitsVal_append (a b : List Char) :
    digitsVal (a ++ b) = digitsVal a * 10 ^ b.length + digitsVal b := by
  unfold digitsVal
  rw [Nat.ofDigitChars_append, Nat.ofDigitChars_eq_ofDigitChars_zero, Nat.mul_comm]

theorem digitsVal_replicate (k : Nat) : digitsVal (List.replicate k '0') = 0 := by
  unfold digitsVal; simp

theorem digitsVal_padText (w n : Nat) : digitsVal (padText w n) = n := by
  unfold padText
  rw [digitsVal_append, digitsVal_replicate, digitsVal_natText]; simp

theorem padText_length (w n : Nat) (hw : 0 < w) (h : n < 10 ^ w) : (padText w n).length = w := by
  unfold padText
  have := (Nat.length_toDigits_le_iff (b := 10) (n := n) (by decide) hw).2 h
  have e : (natText n).length = (Nat.toDigits 10 n).length := rfl
  simp; omega

theorem digit_le (c : Char) (h : c.isDigit = true) : digitsVal [c] ≤ 9 := by
  unfold digitsVal
  rw [Nat.ofDigitChars_cons, Nat.ofDigitChars_nil]
  unfold Char.isDigit at h
  simp at h
  have h2 : c.toNat ≤ 57 := by
    have := h.2
    rw [UInt32.le_iff_toNat_le] at this
    exact this
  have : '0'.toNat = 48 := rfl
  omega

/-! ### Signs -/

/-- Text of a sign. -/
def sgn (neg : Bool) : List Char := if neg then ['-'] else []

theorem read_signed (neg : Bool) (s : List Char)
    (h : ∀ c, s.head? = some c → c.isDigit = true) (hne : s ≠ []) :
    readSign ((sgn neg ++ s).dropWhile isSpace) = (neg, s) := by
  cases s with
  | nil => exact absurd rfl hne
  | cons c s =>
    have hc := h c rfl
    cases neg with
    | true =>
      have : isSpace '-' = false := by decide
      simp only [sgn, if_true, List.cons_append, List.nil_append, List.dropWhile_cons, this]
      rfl
    | false =>
      have h1 := isDigit_not_space hc
      simp only [sgn, Bool.false_eq_true, if_false, List.nil_append, List.dropWhile_cons, h1]
      have h2 : c ≠ '-' := by rintro rfl; exact absurd hc (by decide)
      have h3 : c ≠ '+' := by rintro rfl; exact absurd hc (by decide)
      unfold readSign
      split
      · rename_i heq; exact absurd (List.cons.inj heq).1 h2
      · rename_i heq; exact absurd (List.cons.inj heq).1 h3
      · rfl

/-! ### `atoi` -/

theorem atoi_digits (neg : Bool) (ds r : List Char) (hne : ds ≠ []) (hd : Digits ds)
    (hr : ∀ c, r.head? = some c → c.isDigit = false)
    (hb : digitsVal ds ≤ 2147483647) :
    atoi (sgn neg ++ (ds ++ r)) = .ok (if neg then -(digitsVal ds : Int) else (digitsVal ds : Int)) := by
  unfold atoi
  have h1 : ∀ c, (ds ++ r).head? = some c → c.isDigit = true := by
    intro c hc
    cases ds with
    | nil => exact absurd rfl hne
    | cons a ds => simp at hc; subst hc; exact hd _ (by simp)
  rw [read_signed neg (ds ++ r) h1 (by simp [hne])]
  have h2 := takeWhile_split Char.isDigit ds r hd hr
  simp only [h2.1]
  rw [if_pos]
  cases neg <;> simp <;> omega

theorem atoi_nat (n : Nat) (h : n ≤ 2147483647) : atoi (natText n) = .ok (n : Int) := by
  have := atoi_digits false (natText n) [] (natText_ne n) (natText_digits n) (by simp)
    (by rw [digitsVal_natText]; exact h)
  simpa [sgn, digitsVal_natText] using this

/-! ### `atof` -/

theorem readExp_nil : readExp [] = 0 := rfl

theorem atof_nofrac (neg : Bool) (ip r : List Char) (hne : ip ≠ []) (hi : Digits ip)
    (hr : ∀ c, r.head? = some c → c.isDigit = false ∧ c ≠ '.') :
    atof (sgn neg ++ (ip ++ r)) =
      (if neg then -(digitsVal ip : ℚ) else (digitsVal ip : ℚ)) * (10 : ℚ) ^ readExp r := by
  unfold atof
  have h1 : ∀ c, (ip ++ r).head? = some c → c.isDigit = true := by
    intro c hc
    cases ip with
    | nil => exact absurd rfl hne
    | cons a ip => simp at hc; subst hc; exact hi _ (by simp)
  rw [read_signed neg (ip ++ r) h1 (by simp [hne])]
  have h2 := takeWhile_split Char.isDigit ip r hi (fun c hc => (hr c hc).1)
  simp only [h2.1, h2.2]
  have h3 : readFrac r = ([], r) := by
    unfold readFrac
    split
    · exact absurd rfl (hr '.' rfl).2
    · rfl
  rw [h3]
  simp [hne]

theorem atof_frac (neg : Bool) (ip fp r : List Char) (hne : ip ≠ []) (hi : Digits ip)
    (hf : Digits fp) (hr : ∀ c, r.head? = some c → c.isDigit = false) :
    atof (sgn neg ++ (ip ++ '.' :: (fp ++ r))) =
      (if neg then -(digitsVal (ip ++ fp) : ℚ) else (digitsVal (ip ++ fp) : ℚ)) *
        (10 : ℚ) ^ (readExp r - (fp.length : Int)) := by
  unfold atof
  have h1 : ∀ c, (ip ++ '.' :: (fp ++ r)).head? = some c → c.isDigit = true := by
    intro c hc
    cases ip with
    | nil => exact absurd rfl hne
    | cons a ip => simp at hc; subst hc; exact hi _ (by simp)
  rw [read_signed neg _ h1 (by simp)]
  have h2 := takeWhile_split Char.isDigit ip ('.' :: (fp ++ r)) hi (by simp)
  simp only [h2.1, h2.2]
  have h3 : readFrac ('.' :: (fp ++ r)) = (fp, r) := by
    have := takeWhile_split Char.isDigit fp r hf hr
    simp only [readFrac, this.1, this.2]
  rw [h3]
  simp [hne]

/-! ### Stripping zeros -/

theorem split_zeros (fp : List Char) : ∃ (fp' : List Char) (k : Nat),
    fp = fp' ++ List.replicate k '0' ∧ fp'.getLast? ≠ some '0' := by
  induction fp using List.reverseRecOn with
  | nil => exact ⟨[], 0, rfl, by simp⟩
  | append_singleton fp c ih =>
    by_cases hc : c = '0'
    · obtain ⟨fp', k, h1, h2⟩ := ih
      refine ⟨fp', k + 1, ?_, h2⟩
      rw [hc, h1, List.replicate_succ', List.append_assoc]
    · exact ⟨fp ++ [c], 0, by simp, by simpa using hc⟩

theorem stripZeros_spec (ip fp' : List Char) (k : Nat) (hd : Digits fp')
    (h : fp'.getLast? ≠ some '0') :
    stripZeros (ip ++ '.' :: (fp' ++ List.replicate k '0')) =
      if fp' = [] then ip else ip ++ '.' :: fp' := by
  unfold stripZeros
  have hrev : (ip ++ '.' :: (fp' ++ List.replicate k '0')).reverse =
      List.replicate k '0' ++ (fp'.reverse ++ '.' :: ip.reverse) := by
    simp
  have h1 := takeWhile_split (fun c : Char => c == '0') (List.replicate k '0')
    (fp'.reverse ++ '.' :: ip.reverse) (by
      intro c hc; rw [List.eq_of_mem_replicate hc]; rfl) (by
      intro c hc
      cases hf : fp'.reverse with
      | nil => rw [hf] at hc; simp at hc; subst hc; decide
      | cons a l =>
        rw [hf] at hc
        simp at hc; subst hc
        have : fp'.getLast? = some a := by
          rw [← List.head?_reverse, hf]; rfl
        rw [this] at h
        simpa using h)
  rw [hrev, h1.2]
  cases hf : fp'.reverse with
  | nil =>
    have : fp' = [] := by simpa using hf
    simp [this]
  | cons a l =>
    have hne : fp' ≠ [] := by rintro rfl; simp at hf
    rw [if_neg hne]
    have hr : (a :: l).reverse = fp' := by rw [← hf, List.reverse_reverse]
    simp only [List.cons_append]
    split
    · rename_i r heq
      have ha : a ∈ fp' := by rw [← hr]; simp
      have := hd a ha
      rw [(List.cons.inj heq).1] at this
      exact absurd this (by decide)
    · rw [← hr]; simp

theorem atof_strip (neg : Bool) (ip fp r : List Char) (hne : ip ≠ []) (hi : Digits ip)
    (hf : Digits fp) (hr : ∀ c, r.head? = some c → c.isDigit = false ∧ c ≠ '.') :
    atof (sgn neg ++ (stripZeros (ip ++ '.' :: fp) ++ r)) =
      (if neg then -(digitsVal (ip ++ fp) : ℚ) else (digitsVal (ip ++ fp) : ℚ)) *
        (10 : ℚ) ^ (readExp r - (fp.length : Int)) := by
  obtain ⟨fp', k, h1, h2⟩ := split_zeros fp
  have hd : Digits fp' := fun c hc => hf c (by rw [h1]; simp [hc])
  have hval : (digitsVal (ip ++ fp) : ℚ) = (digitsVal (ip ++ fp') : ℚ) * 10 ^ k := by
    rw [h1, ← List.append_assoc, digitsVal_append, digitsVal_replicate]; simp
  have hlen : (fp.length : Int) = fp'.length + k := by rw [h1]; simp
  have hp : (10 : ℚ) ^ k * (10 : ℚ) ^ (readExp r - (fp.length : Int)) =
      (10 : ℚ) ^ (readExp r - (fp'.length : Int)) := by
    rw [← zpow_natCast, ← zpow_add₀ (by norm_num)]
    congr 1; omega
  have hgoal : (if neg then -(digitsVal (ip ++ fp) : ℚ) else (digitsVal (ip ++ fp) : ℚ)) *
        (10 : ℚ) ^ (readExp r - (fp.length : Int)) =
      (if neg then -(digitsVal (ip ++ fp') : ℚ) else (digitsVal (ip ++ fp') : ℚ)) *
        (10 : ℚ) ^ (readExp r - (fp'.length : Int)) := by
    rw [hval, ← hp]
    cases neg <;> simp <;> ring
  rw [hgoal, h1, stripZeros_spec ip fp' k hd h2]
  by_cases h3 : fp' = []
  · rw [if_pos h3, h3]
    rw [atof_nofrac neg ip r hne hi hr]
    simp
  · rw [if_neg h3]
    have := atof_frac neg ip fp' r hne hi hd (fun c hc => (hr c hc).1)
    rw [← this]
    simp

/-! ### Rounding -/

theorem roundHE_close (q : ℚ) : |(roundHE q : ℚ) - q| ≤ 1 / 2 := by
  unfold roundHE
  have h1 := Int.floor_le q
  have h2 := Int.lt_floor_add_one q
  simp only
  split
  · rw [abs_le]; constructor <;> linarith
  · split
    · push_cast; rw [abs_le]; constructor <;> linarith
    · split
      · rw [abs_le]; constructor <;> linarith
      · push_cast; rw [abs_le]; constructor <;> linarith

theorem roundHE_unique (q : ℚ) (k : Int) (h : |(k : ℚ) - q| < 1 / 2) : roundHE q = k := by
  have h1 := roundHE_close q
  rw [abs_le] at h1
  rw [abs_lt] at h
  have h2 : ((roundHE q - k : Int) : ℚ) < 1 := by push_cast; linarith
  have h3 : (-1 : ℚ) < ((roundHE q - k : Int) : ℚ) := by push_cast; linarith
  have h4 : roundHE q - k < 1 := by exact_mod_cast h2
  have h5 : -1 < roundHE q - k := by exact_mod_cast h3
  omega

theorem roundHE_int (k : Int) : roundHE (k : ℚ) = k := roundHE_unique _ _ (by simp)

/-! ### `%g` -/

/-- What `sciParts` computes. -/
theorem sciParts_spec (x : ℚ) (hx : 0 < x) :
    ∃ (m : Nat) (X : Int), sciParts 6 x = (m, X) ∧ 10 ^ 5 ≤ m ∧ m < 10 ^ 6 ∧
      roundHE (x / (10 : ℚ) ^ (X - 5)) = (m : Int) ∧
      ∃ e : Int, (10 : ℚ) ^ e ≤ x ∧ x < (10 : ℚ) ^ (e + 1) ∧ (X = e ∨ X = e + 1) ∧
        (∃ k : Int, (m : ℚ) * (10 : ℚ) ^ (X - 5) = k * (10 : ℚ) ^ (e - 5)) ∧
        |(m : ℚ) * (10 : ℚ) ^ (X - 5) - x| ≤ 1 / 2 * (10 : ℚ) ^ (e - 5) := by
  have h1 : (10 : ℚ) ^ Int.log 10 x ≤ x := by
    have := Int.zpow_log_le_self (b := 10) (by decide) hx
    exact_mod_cast this
  have h2 : x < (10 : ℚ) ^ (Int.log 10 x + 1) := by
    have := Int.lt_zpow_succ_log_self (b := 10) (by decide) x
    exact_mod_cast this
  have hs : sciParts 6 x = (if (roundHE (x / (10 : ℚ) ^ (Int.log 10 x - 5))).toNat = 10 ^ 6
      then (10 ^ 5, Int.log 10 x + 1)
      else ((roundHE (x / (10 : ℚ) ^ (Int.log 10 x - 5))).toNat, Int.log 10 x)) := by
    unfold sciParts
    have : Int.log 10 x - ((6 : Nat) : Int) + 1 = Int.log 10 x - 5 := by push_cast; ring
    simp only [this]
  generalize Int.log 10 x = e at *
  have hu : (0 : ℚ) < (10 : ℚ) ^ (e - 5) := zpow_pos (by norm_num) _
  have e1 : (10 : ℚ) ^ e = 10 ^ 5 * (10 : ℚ) ^ (e - 5) := by
    rw [← zpow_natCast, ← zpow_add₀ (by norm_num)]; congr 1; push_cast; ring
  have e2 : (10 : ℚ) ^ (e + 1) = 10 ^ 6 * (10 : ℚ) ^ (e - 5) := by
    rw [← zpow_natCast, ← zpow_add₀ (by norm_num)]; congr 1; push_cast; ring
  have e3 : (10 : ℚ) ^ (e + 1 - 5) = 10 * (10 : ℚ) ^ (e - 5) := by
    have : (10 : ℚ) * (10 : ℚ) ^ (e - 5) = (10 : ℚ) ^ (1 : Int) * (10 : ℚ) ^ (e - 5) := by simp
    rw [this, ← zpow_add₀ (by norm_num)]; congr 1; ring
  have hq1 : (10 : ℚ) ^ 5 ≤ x / (10 : ℚ) ^ (e - 5) := by
    rw [le_div_iff₀ hu, ← e1]; exact h1
  have hq2 : x / (10 : ℚ) ^ (e - 5) < 10 ^ 6 := by
    rw [div_lt_iff₀ hu, ← e2]; exact h2
  have hxq : x = x / (10 : ℚ) ^ (e - 5) * (10 : ℚ) ^ (e - 5) := by
    field_simp
  generalize hq : x / (10 : ℚ) ^ (e - 5) = q at *
  have hc := roundHE_close q
  have hc' := abs_le.1 hc
  have hm1 : (10 : Int) ^ 5 ≤ roundHE q := by
    have : ((10 : Int) ^ 5 : ℚ) - 1 < roundHE q := by push_cast; linarith
    have : (10 : Int) ^ 5 - 1 < roundHE q := by exact_mod_cast this
    omega
  have hm2 : roundHE q ≤ (10 : Int) ^ 6 := by
    have : (roundHE q : ℚ) < ((10 : Int) ^ 6 : ℚ) + 1 := by push_cast; linarith
    have : roundHE q < (10 : Int) ^ 6 + 1 := by exact_mod_cast this
    omega
  have habs : ∀ y : ℚ, y = roundHE q * (10 : ℚ) ^ (e - 5) → |y - x| ≤ 1 / 2 * (10 : ℚ) ^ (e - 5) := by
    intro y hy
    have : y - x = (roundHE q - q) * (10 : ℚ) ^ (e - 5) := by rw [hy, sub_mul, ← hxq]
    rw [this, abs_mul, abs_of_pos hu]
    exact mul_le_mul_of_nonneg_right hc hu.le
  by_cases hcar : (roundHE q).toNat = 10 ^ 6
  · rw [if_pos hcar] at hs
    have hr : roundHE q = (10 : Int) ^ 6 := by omega
    refine ⟨10 ^ 5, e + 1, hs, le_refl _, by norm_num, ?_, e, h1, h2, Or.inr rfl, ⟨roundHE q, ?_⟩, ?_⟩
    · rw [e3]
      apply roundHE_unique
      have : x / (10 * (10 : ℚ) ^ (e - 5)) = q / 10 := by
        rw [mul_comm, ← div_div, hq]
      rw [this]
      rw [hr] at hc'
      push_cast at hc' ⊢
      rw [abs_lt]; constructor <;> linarith [hc'.1, hc'.2]
    · rw [e3, hr]; push_cast; ring
    · apply habs
      rw [e3, hr]; push_cast; ring
  · rw [if_neg hcar] at hs
    have hn : (((roundHE q).toNat : Nat) : Int) = roundHE q := Int.toNat_of_nonneg (by
      have : (0 : Int) ≤ 10 ^ 5 := by norm_num
      omega)
    have hnq : (((roundHE q).toNat : Nat) : ℚ) = (roundHE q : ℚ) := by exact_mod_cast hn
    refine ⟨(roundHE q).toNat, e, hs, by omega, by omega, ?_, e, h1, h2, Or.inl rfl, ⟨roundHE q, ?_⟩, ?_⟩
    · rw [hq, hn]
    · rw [hnq]
    · apply habs; rw [hnq]

theorem expText_head (X : Int) : ∀ c, (expText X).head? = some c → c.isDigit = false ∧ c ≠ '.' := by
  intro c hc
  unfold expText at hc
  simp at hc
  subst hc
  decide

theorem readExp_expText (X : Int) : readExp (expText X) = X := by
  unfold expText
  have hd := padText_digits 2 X.natAbs
  have hv := digitsVal_padText 2 X.natAbs
  have hw := takeWhile_all Char.isDigit _ hd
  by_cases hX : X < 0
  · rw [if_pos hX]
    simp only [readExp, readSign, true_or, if_true, hw.1, hv]
    omega
  · rw [if_neg hX]
    simp only [readExp, readSign, true_or, if_true, hw.1, hv]
    simp; omega

theorem fixedAbs_of_round (prec m : Nat) (x : ℚ) (h : roundHE (x * 10 ^ prec) = (m : Int)) :
    fixedAbs prec x = if prec = 0 then natText m
      else natText (m / 10 ^ prec) ++ '.' :: padText prec (m % 10 ^ prec) := by
  unfold fixedAbs
  rw [h]; rfl

/-- Reading back what `%g` writes. -/
theorem atof_fmtG (neg : Bool) (x : ℚ) (hx : 0 < x) :
    ∃ (m : Nat) (X : Int), sciParts 6 x = (m, X) ∧
      atof (sgn neg ++ fmtGAbs 6 x) =
        (if neg then -(m : ℚ) else (m : ℚ)) * (10 : ℚ) ^ (X - 5) := by
  obtain ⟨m, X, hs, hm1, hm2, hr, _⟩ := sciParts_spec x hx
  refine ⟨m, X, hs, ?_⟩
  unfold fmtGAbs
  rw [hs]
  simp only
  by_cases hX : -4 ≤ X ∧ X < ((6 : Nat) : Int)
  · rw [if_pos hX]
    have hp : (((((6 : Nat) : Int) - 1 - X).toNat : Nat) : Int) = 5 - X := by push_cast; omega
    generalize hprec : (((6 : Nat) : Int) - 1 - X).toNat = prec at hp ⊢
    have hz : (10 : ℚ) ^ (X - 5) = ((10 : ℚ) ^ prec)⁻¹ := by
      rw [← zpow_natCast, ← zpow_neg]; congr 1; omega
    have hround : roundHE (x * 10 ^ prec) = (m : Int) := by
      rw [hz, div_inv_eq_mul] at hr; exact hr
    by_cases h0 : prec = 0
    · rw [if_pos h0]
      subst h0
      rw [fixedAbs_of_round 0 m x hround, if_pos rfl]
      have := atof_nofrac neg (natText m) [] (natText_ne m) (natText_digits m) (by simp)
      rw [List.append_nil] at this
      rw [this, digitsVal_natText, hz]; simp [readExp_nil]
    · rw [if_neg h0, fixedAbs_of_round prec m x hround, if_neg h0]
      have hlt : m % 10 ^ prec < 10 ^ prec := Nat.mod_lt _ (by positivity)
      have := atof_strip neg (natText (m / 10 ^ prec)) (padText prec (m % 10 ^ prec)) []
        (natText_ne _) (natText_digits _) (padText_digits _ _) (by simp)
      rw [List.append_nil] at this
      rw [this, digitsVal_append, digitsVal_natText, digitsVal_padText,
        padText_length prec _ (by omega) hlt, readExp_nil, Nat.div_add_mod']
      congr 2; omega
  · rw [if_neg hX, if_neg (by decide)]
    have hlen : (natText m).length = 6 := by
      have a := (Nat.length_toDigits_le_iff (b := 10) (n := m) (k := 6) (by decide) (by decide)).2 hm2
      have b := mt (Nat.length_toDigits_le_iff (b := 10) (n := m) (k := 5) (by decide) (by decide)).1
        (by omega)
      have e : (natText m).length = (Nat.toDigits 10 m).length := rfl
      omega
    have hd := natText_digits m
    have := atof_strip neg ((natText m).take 1) ((natText m).drop 1) (expText X)
      (by intro h; have := congrArg List.length h; simp [hlen] at this)
      (fun c hc => hd c (List.mem_of_mem_take hc)) (fun c hc => hd c (List.mem_of_mem_drop hc))
      (expText_head X)
    rw [this, readExp_expText, List.take_append_drop, digitsVal_natText]
    simp [hlen]

theorem sgn_signText (x : ℚ) : signText x = sgn (decide (x < 0)) := by
  unfold signText sgn
  by_cases h : x < 0 <;> simp [h]

theorem toStringD_zero : toStringD 0 = ['0'] := by
  unfold toStringD OStream.putD OStream.new
  simp [OStream.putS]

theorem toStringD_eq (x : ℚ) (hx : x ≠ 0) :
    toStringD x = sgn (decide (x < 0)) ++ fmtGAbs 6 |x| := by
  unfold toStringD OStream.putD OStream.new
  simp [OStream.putS, hx, sgn_signText]

theorem sixDigits_neg {x y : ℚ} (h : SixDigits x y) : SixDigits (-x) (-y) := by
  rcases h with ⟨h1, h2⟩ | ⟨e, h1, h2, ⟨k, h3⟩, h4⟩
  · left; simp [h1, h2]
  · right
    refine ⟨e, by rwa [abs_neg], by rwa [abs_neg], ⟨-k, ?_⟩, ?_⟩
    · rw [h3]; push_cast; ring
    · have : -y - -x = -(y - x) := by ring
      rw [this, abs_neg]; exact h4

/-- What is printed is the number rounded to six digits. -/
theorem atof_toStringD (x : ℚ) : SixDigits x (atof (toStringD x)) := by
  by_cases h0 : x = 0
  · subst h0
    left
    refine ⟨rfl, ?_⟩
    rw [toStringD_zero]; decide +kernel
  have key : ∀ (neg : Bool) (z : ℚ), 0 < z → SixDigits (if neg then -z else z)
      (atof (sgn neg ++ fmtGAbs 6 z)) := by
    intro neg z hz
    obtain ⟨m, X, hs, hv⟩ := atof_fmtG neg z hz
    obtain ⟨m', X', hs', _, _, _, e, h1, h2, _, h3, h4⟩ := sciParts_spec z hz
    rw [hs] at hs'
    obtain ⟨rfl, rfl⟩ := Prod.mk.inj hs'
    have hbase : SixDigits z ((m : ℚ) * (10 : ℚ) ^ (X - 5)) :=
      Or.inr ⟨e, by rwa [abs_of_pos hz], by rwa [abs_of_pos hz], h3, h4⟩
    rw [hv]
    cases neg with
    | false => simpa using hbase
    | true => simpa using sixDigits_neg hbase
  rw [toStringD_eq x h0]
  rcases lt_or_gt_of_ne h0 with h | h
  · have := key true (-x) (by linarith)
    simp only [if_true, neg_neg] at this
    rw [abs_of_neg h]
    simpa [h] using this
  · have := key false x h
    rw [abs_of_pos h]
    have hn : ¬ x < 0 := not_lt.2 h.le
    simpa [hn] using this

end Delynoi
