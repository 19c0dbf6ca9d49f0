import Verif.Proofs.MeshText
import Verif.Spec.Files
/-!
# What the library prints are numerals
-/
namespace Delynoi

theorem digits_dec : ∀ s : List Char, Digits s → ∃ ds : List (Fin 10), ds.map Dec.digit = s := by
  intro s
  induction s with
  | nil => intro _; exact ⟨[], rfl⟩
  | cons c s ih =>
    intro h
    obtain ⟨ds, hds⟩ := ih (fun c hc => h c (by simp [hc]))
    have hc := h c (by simp)
    unfold Char.isDigit at hc
    simp at hc
    have h1 : 48 ≤ c.toNat := UInt32.le_iff_toNat_le.1 hc.1
    have h2 : c.toNat ≤ 57 := UInt32.le_iff_toNat_le.1 hc.2
    refine ⟨⟨c.toNat - 48, by omega⟩ :: ds, ?_⟩
    rw [List.map_cons, hds]
    congr 1
    unfold Dec.digit
    have : 48 + (c.toNat - 48) = c.toNat := by omega
    simp only [this, Char.ofNat_toNat]

theorem dec_digits (ds : List (Fin 10)) : Digits (ds.map Dec.digit) := by
  intro c hc
  obtain ⟨a, _, rfl⟩ := List.mem_map.1 hc
  have : ∀ a : Fin 10, (Dec.digit a).isDigit = true := by decide
  exact this a

theorem digitsVal_dec (ds : List (Fin 10)) : digitsVal (ds.map Dec.digit) = Dec.nat ds := by
  induction ds using List.reverseRecOn with
  | nil => rfl
  | append_singleton ds a ih =>
    rw [List.map_append, digitsVal_append, ih]
    unfold Dec.nat
    rw [List.foldl_append]
    have : digitsVal (List.map Dec.digit [a]) = a.val := by revert a; decide
    rw [this]; simp; ring

theorem expPart_head (e : Option (Bool × List (Fin 10))) :
    ∀ c, (expPart e).head? = some c → c.isDigit = false ∧ c ≠ '.' := by
  intro c hc
  cases e with
  | none => simp [expPart] at hc
  | some e => simp [expPart] at hc; subst hc; decide

theorem readExp_expPart (e : Option (Bool × List (Fin 10))) : readExp (expPart e) = expVal e := by
  cases e with
  | none => rfl
  | some e =>
    obtain ⟨n, ds⟩ := e
    have hw := takeWhile_all Char.isDigit _ (dec_digits ds)
    have hv := digitsVal_dec ds
    cases n with
    | true =>
      simp only [expPart, expVal, if_true, readExp, readSign, true_or, hw.1, hv]
    | false =>
      simp only [expPart, expVal, if_true, readExp, readSign, true_or, hw.1, hv,
        Bool.false_eq_true, if_false]

/-- The reader understands numerals. -/
theorem atof_numeral {t : List Char} {q : ℚ} (h : Numeral t q) : atof t = q := by
  obtain ⟨d, e, hd, _, rfl, rfl⟩ := h
  have hne : d.ip.map Dec.digit ≠ [] := by
    intro h; exact hd (by simpa using h)
  have hx := readExp_expPart e
  have hh := expPart_head e
  generalize expPart e = r at hx hh ⊢
  generalize expVal e = X at hx ⊢
  unfold Dec.text Dec.val
  have hs : (if d.neg = true then ['-'] else []) = sgn d.neg := rfl
  rw [hs]
  by_cases hf : d.fp = []
  · rw [if_pos hf, hf]
    have := atof_nofrac d.neg (d.ip.map Dec.digit) r hne (dec_digits _) hh
    rw [List.append_nil, List.append_assoc, this, digitsVal_dec, hx]
    have : Dec.nat [] = 0 := rfl
    rw [this]
    cases d.neg <;> simp
  · rw [if_neg hf]
    have := atof_frac d.neg (d.ip.map Dec.digit) (d.fp.map Dec.digit) r hne (dec_digits _)
      (dec_digits _) (fun c hc => (hh c hc).1)
    have e2 : sgn d.neg ++ d.ip.map Dec.digit ++ '.' :: d.fp.map Dec.digit ++ r =
        sgn d.neg ++ (d.ip.map Dec.digit ++ '.' :: (d.fp.map Dec.digit ++ r)) := by simp
    rw [e2, this, digitsVal_append, digitsVal_dec, digitsVal_dec, hx]
    simp only [List.length_map]
    have hp : (10 : ℚ) ^ (X - (d.fp.length : Int)) = (10 : ℚ) ^ X * ((10 : ℚ) ^ d.fp.length)⁻¹ := by
      rw [zpow_sub₀ (by norm_num), zpow_natCast, div_eq_mul_inv]
    rw [hp]
    have hpos : (10 : ℚ) ^ d.fp.length ≠ 0 := by positivity
    cases d.neg <;> simp <;> field_simp

/-- Sign, digits, an optional fraction and an optional exponent make a numeral. -/
theorem numeral_of_parts (neg : Bool) (ip fp r : List Char) (hne : ip ≠ []) (hi : Digits ip)
    (hf : Digits fp)
    (hr : r = [] ∨ ∃ (b : Bool) (ds : List Char), ds ≠ [] ∧ Digits ds ∧
      r = 'e' :: (if b then '-' else '+') :: ds) :
    ∃ q, Numeral (sgn neg ++ (ip ++ ((if fp = [] then [] else '.' :: fp) ++ r))) q := by
  obtain ⟨ip', rfl⟩ := digits_dec ip hi
  obtain ⟨fp', rfl⟩ := digits_dec fp hf
  have hok : ip' ≠ [] := by rintro rfl; exact hne rfl
  have hz : (if fp'.map Dec.digit = [] then [] else '.' :: fp'.map Dec.digit) =
      (if fp' = [] then [] else '.' :: fp'.map Dec.digit) := by
    cases fp' <;> simp
  rw [hz]
  rcases hr with rfl | ⟨b, ds, hds, hdd, rfl⟩
  · refine ⟨_, ⟨neg, ip', fp'⟩, none, hok, by simp, ?_, rfl⟩
    unfold Dec.text expPart sgn
    simp
  · obtain ⟨ds', rfl⟩ := digits_dec ds hdd
    refine ⟨_, ⟨neg, ip', fp'⟩, some (b, ds'), hok, ?_, ?_, rfl⟩
    · intro x hx
      cases hx
      rintro h
      exact hds (by simp only at h; rw [h]; rfl)
    · unfold Dec.text expPart sgn
      simp

theorem strip_parts (ip fp : List Char) (hf : Digits fp) :
    ∃ fp', Digits fp' ∧ stripZeros (ip ++ '.' :: fp) = ip ++ (if fp' = [] then [] else '.' :: fp') := by
  obtain ⟨fp', k, h1, h2⟩ := split_zeros fp
  have hd : Digits fp' := fun c hc => hf c (by rw [h1]; simp [hc])
  refine ⟨fp', hd, ?_⟩
  rw [h1, stripZeros_spec ip fp' k hd h2]
  split <;> simp

theorem padText_ne (w n : Nat) : padText w n ≠ [] := by
  unfold padText
  intro h
  exact natText_ne n (List.append_eq_nil_iff.1 h).2

theorem fmtG_parts (x : ℚ) (hx : 0 < x) : ∃ ip fp r : List Char, ip ≠ [] ∧ Digits ip ∧ Digits fp ∧
    (r = [] ∨ ∃ (b : Bool) (ds : List Char), ds ≠ [] ∧ Digits ds ∧
      r = 'e' :: (if b then '-' else '+') :: ds) ∧
    fmtGAbs 6 x = ip ++ ((if fp = [] then [] else '.' :: fp) ++ r) := by
  obtain ⟨m, X, hs, hm1, hm2, _⟩ := sciParts_spec x hx
  unfold fmtGAbs
  rw [hs]
  simp only
  split
  · split
    · refine ⟨natText (roundHE (x * 10 ^ 0)).toNat, [], [], natText_ne _, natText_digits _,
        (by intro c hc; cases hc), Or.inl rfl, ?_⟩
      unfold fixedAbs
      simp
    · next hp =>
      unfold fixedAbs
      simp only [hp, if_false]
      obtain ⟨fp', h1, h2⟩ := strip_parts
        (natText ((roundHE (x * 10 ^ (((6 : Nat) : Int) - 1 - X).toNat)).toNat /
          10 ^ (((6 : Nat) : Int) - 1 - X).toNat))
        (padText (((6 : Nat) : Int) - 1 - X).toNat
          ((roundHE (x * 10 ^ (((6 : Nat) : Int) - 1 - X).toNat)).toNat %
            10 ^ (((6 : Nat) : Int) - 1 - X).toNat)) (padText_digits _ _)
      exact ⟨_, fp', [], natText_ne _, natText_digits _, h1, Or.inl rfl, by rw [List.append_nil]; exact h2⟩
  · rw [if_neg (by decide)]
    have hd := natText_digits m
    obtain ⟨fp', h1, h2⟩ := strip_parts ((natText m).take 1) ((natText m).drop 1)
      (fun c hc => hd c (List.mem_of_mem_drop hc))
    refine ⟨(natText m).take 1, fp', expText X, ?_, fun c hc => hd c (List.mem_of_mem_take hc), h1,
      Or.inr ⟨decide (X < 0), padText 2 X.natAbs, padText_ne _ _, padText_digits _ _, ?_⟩, ?_⟩
    · intro h
      have := natText_ne m
      cases hn : natText m with
      | nil => exact this hn
      | cons a l => rw [hn] at h; simp at h
    · unfold expText
      by_cases hX : X < 0 <;> simp [hX]
    · rw [h2]; simp

/-- What the library prints for a number is a numeral of the number rounded to six significant
digits. -/
theorem toStringD_numeral (x : ℚ) : ∃ q, Numeral (toStringD x) q ∧ SixDigits x q := by
  have key : ∃ q, Numeral (toStringD x) q := by
    by_cases h0 : x = 0
    · rw [h0, toStringD_zero]
      exact ⟨_, ⟨false, [0], []⟩, none, by simp [Dec.Ok], by simp, by decide, rfl⟩
    · rw [toStringD_eq x h0]
      obtain ⟨ip, fp, r, h1, h2, h3, h4, h5⟩ := fmtG_parts |x| (abs_pos.2 h0)
      rw [h5]
      exact numeral_of_parts _ ip fp r h1 h2 h3 h4
  obtain ⟨q, hq⟩ := key
  refine ⟨q, hq, ?_⟩
  have := atof_toStringD x
  rwa [atof_numeral hq] at this

end Delynoi
