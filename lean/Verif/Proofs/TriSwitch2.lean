import Verif.Proofs.TriSwitch
import Mathlib.Data.List.Infix
import Mathlib.Data.List.TakeWhile
import Mathlib.Tactic.Linarith
import Mathlib.Tactic.Ring
/-! # Reading Triangle's switches: numbers, safety -/
namespace Delynoi.Tri

theorem next_cons {x d c : Char} {s : List Char} :
    Next x d (c :: s) ↔ (c = x ∧ s.head? = some d) ∨ Next x d s := by
  constructor
  · rintro ⟨s1, s2, e⟩
    cases s1 with
    | nil => simp at e; exact Or.inl ⟨e.1, by rw [e.2]; rfl⟩
    | cons a s1 => simp at e; exact Or.inr ⟨s1, s2, e.2⟩
  · rintro (⟨rfl, h⟩ | ⟨s1, s2, e⟩)
    · cases s with
      | nil => simp at h
      | cons y s => simp at h; exact ⟨[], s, by simp [h]⟩
    · exact ⟨c :: s1, s2, by simp [e]⟩

theorem next_nil {x d : Char} : ¬ Next x d [] := by
  rintro ⟨s1, s2, e⟩
  simp at e

theorem next_drop {x d : Char} (p : Char → Bool) (hp : p x = false) :
    ∀ s : List Char, Next x d s ↔ Next x d (s.dropWhile p)
  | [] => by simp
  | c :: s => by
    by_cases hc : p c = true
    · rw [List.dropWhile_cons_of_pos hc, ← next_drop p hp s, next_cons]
      constructor
      · rintro (⟨rfl, _⟩ | h)
        · rw [hp] at hc; cases hc
        · exact h
      · exact Or.inr
    · rw [List.dropWhile_cons_of_neg hc]

theorem next_tail {x d : Char} {s : List Char} (h : ∀ c, s.head? = some c → c ≠ x) :
    Next x d s ↔ Next x d s.tail := by
  cases s with
  | nil => rfl
  | cons c s =>
    rw [next_cons, List.tail_cons]
    exact ⟨fun h' => h'.elim (fun e => absurd e.1 (h c rfl)) id, Or.inr⟩

open Classical in
theorem read_order (s : List Char) (b b' : Behavior) (h : readSwitches s b = .ok b') :
    b'.order = if Next 'o' '2' s then 2 else b.order := by
  revert b'
  fun_induction readSwitches s b <;> intro b' h
  case case1 => cases h; rw [if_neg next_nil]
  case case2 s b h1 x hx ih =>
    rw [ih b' h]; congr 1; rw [next_cons, next_drop isNum (by decide) s]; simp
  case case5 s b h1 ih => rw [ih b' h]; congr 1; rw [next_cons]; simp
  case case7 s b h0 x hx h2 h1 ih =>
    rw [ih b' h]; congr 1; rw [next_cons, next_drop isNum (by decide) s]; simp
  case case10 s b h0 h1 ih => rw [ih b' h]; congr 1; rw [next_cons]; simp
  case case11 s b h1 hne hne2 ih =>
    rw [ih b' h, if_pos (next_cons.2 (Or.inl ⟨rfl, h1⟩))]
    simp
  case case12 s b h1 hne hne2 ih =>
    rw [ih b' h]; congr 1; rw [next_cons]; simp [h1]
  case case13 s b v hv hne hne2 hne3 ih =>
    rw [ih b' h]; congr 1; rw [next_cons, next_drop Char.isDigit (by decide) s]; simp
  case case16 c s b h1 h2 h3 h4 ih =>
    rw [ih b' h, (letter_numbers c b).2.2.2.1]; congr 1; rw [next_cons]; simp [h3]
  all_goals cases h

theorem takeWhile_ne_nil {p : Char → Bool} {s : List Char} :
    s.takeWhile p ≠ [] ↔ ∃ d, p d = true ∧ s.head? = some d := by
  cases s with
  | nil => simp
  | cons c s =>
    by_cases hc : p c = true
    · simp [List.takeWhile_cons_of_pos hc, hc]
    · simp [List.takeWhile_cons_of_neg hc, hc]

theorem areaNumber_cons {c : Char} {s : List Char} :
    AreaNumber (c :: s) ↔ (c = 'a' ∧ s.takeWhile isNum ≠ []) ∨ AreaNumber s := by
  unfold AreaNumber
  rw [isNum_eq]
  simp only [next_cons, takeWhile_ne_nil]
  constructor
  · rintro ⟨d, hd, ⟨hc, he⟩ | he⟩
    · exact Or.inl ⟨hc, d, hd, he⟩
    · exact Or.inr ⟨d, hd, he⟩
  · rintro (⟨hc, d, hd, he⟩ | ⟨d, hd, he⟩)
    · exact ⟨d, hd, Or.inl ⟨hc, he⟩⟩
    · exact ⟨d, hd, Or.inr he⟩

theorem areaNumber_drop (p : Char → Bool) (hp : p 'a' = false) (s : List Char) :
    AreaNumber s ↔ AreaNumber (s.dropWhile p) := by
  unfold AreaNumber
  rw [isNum_eq]
  simp only [next_drop p hp s]

theorem areaNumber_tail {s : List Char} (h : s.head? ≠ some 'a') : AreaNumber s ↔ AreaNumber s.tail := by
  unfold AreaNumber
  rw [isNum_eq]
  simp only [next_tail (s := s) (x := 'a') (by rintro c hc rfl; exact h hc)]

open Classical in
theorem read_fixedarea (s : List Char) (b b' : Behavior) (h : readSwitches s b = .ok b') :
    b'.fixedarea = if AreaNumber s then true else b.fixedarea := by
  revert b'
  fun_induction readSwitches s b <;> intro b' h
  case case1 => cases h; rw [if_neg]; rintro ⟨d, _, hd⟩; exact next_nil hd
  case case2 s b h1 x hx ih =>
    rw [ih b' h]; congr 1; rw [areaNumber_cons, areaNumber_drop isNum (by decide) s]; simp
  case case5 s b h1 ih => rw [ih b' h]; congr 1; rw [areaNumber_cons]; simp
  case case7 s b h0 x hx h2 h1 ih =>
    rw [ih b' h, if_pos (areaNumber_cons.2 (Or.inl ⟨rfl, h0⟩))]; simp
  case case10 s b h0 h1 ih => rw [ih b' h]; congr 1; rw [areaNumber_cons]; simp_all
  case case11 s b h1 hne hne2 ih =>
    rw [ih b' h]; congr 1; rw [areaNumber_cons, areaNumber_tail (s := s) (by rw [h1]; decide)]; simp
  case case12 s b h1 hne hne2 ih => rw [ih b' h]; congr 1; rw [areaNumber_cons]; simp
  case case13 s b v hv hne hne2 hne3 ih =>
    rw [ih b' h]; congr 1; rw [areaNumber_cons, areaNumber_drop Char.isDigit (by decide) s]; simp
  case case16 c s b h1 h2 h3 h4 ih =>
    rw [ih b' h, (letter_numbers c b).2.2.2.2.1]; congr 1; rw [areaNumber_cons]; simp [h2]
  all_goals cases h

theorem bareArea_cons {c : Char} {s : List Char} :
    BareArea (c :: s) ↔ (c = 'a' ∧ s.takeWhile isNum = []) ∨ BareArea s := by
  unfold BareArea
  rw [isNum_eq]
  have hk : s.takeWhile isNum = [] ↔ ∀ d, s.head? = some d → isNum d = false := by
    rw [← not_iff_not, ← ne_eq, takeWhile_ne_nil]
    push Not
    simp [and_comm]
  rw [hk]
  constructor
  · rintro ⟨s1, s2, e, h⟩
    cases s1 with
    | nil => simp at e; exact Or.inl ⟨e.1, by rw [e.2]; exact h⟩
    | cons a s1 => simp at e; exact Or.inr ⟨s1, s2, e.2, h⟩
  · rintro (⟨rfl, h⟩ | ⟨s1, s2, e, h⟩)
    · exact ⟨[], s, rfl, h⟩
    · exact ⟨c :: s1, s2, by simp [e], h⟩

theorem bareArea_drop (p : Char → Bool) (hp : p 'a' = false) : ∀ s : List Char,
    BareArea s ↔ BareArea (s.dropWhile p)
  | [] => by simp
  | c :: s => by
    by_cases hc : p c = true
    · rw [List.dropWhile_cons_of_pos hc, ← bareArea_drop p hp s, bareArea_cons]
      constructor
      · rintro (⟨rfl, _⟩ | h)
        · rw [hp] at hc; cases hc
        · exact h
      · exact Or.inr
    · rw [List.dropWhile_cons_of_neg hc]

open Classical in
theorem read_vararea (s : List Char) (b b' : Behavior) (h : readSwitches s b = .ok b') :
    b'.vararea = if BareArea s then true else b.vararea := by
  revert b'
  fun_induction readSwitches s b <;> intro b' h
  case case1 => cases h; rw [if_neg]; rintro ⟨s1, s2, e, _⟩; simp at e
  case case2 s b h1 x hx ih =>
    rw [ih b' h]; congr 1; rw [bareArea_cons, bareArea_drop isNum (by decide) s]; simp
  case case5 s b h1 ih => rw [ih b' h]; congr 1; rw [bareArea_cons]; simp
  case case7 s b h0 x hx h2 h1 ih =>
    rw [ih b' h]; congr 1; rw [bareArea_cons, bareArea_drop isNum (by decide) s]; simp [h0]
  case case10 s b h0 h1 ih =>
    rw [ih b' h, if_pos (bareArea_cons.2 (Or.inl ⟨rfl, by simpa using h0⟩))]; simp
  case case11 s b h1 hne hne2 ih =>
    rw [ih b' h]; congr 1
    obtain ⟨u, rfl⟩ : ∃ u, s = '2' :: u := by
      cases s with
      | nil => simp at h1
      | cons x u => simp at h1; exact ⟨u, by rw [h1]⟩
    rw [bareArea_cons, bareArea_cons]; simp
  case case12 s b h1 hne hne2 ih => rw [ih b' h]; congr 1; rw [bareArea_cons]; simp
  case case13 s b v hv hne hne2 hne3 ih =>
    rw [ih b' h]; congr 1; rw [bareArea_cons, bareArea_drop Char.isDigit (by decide) s]; simp
  case case16 c s b h1 h2 h3 h4 ih =>
    rw [ih b' h, (letter_numbers c b).2.2.2.2.2]; congr 1; rw [bareArea_cons]; simp [h2]
  all_goals cases h

/-- Splitting at the last number. -/
theorem takeWhile_number (p : Char → Bool) (w t : List Char) (hw : ∀ c ∈ w, p c = true)
    (ht : ∀ c, t.head? = some c → p c = false) :
    (w ++ t).takeWhile p = w ∧ (w ++ t).dropWhile p = t := by
  obtain ⟨e1, e2⟩ := takeWhile_append_stop p t ht w
  rw [e1, e2]
  exact ⟨List.takeWhile_eq_self_iff.2 hw, by rw [List.dropWhile_eq_nil_iff.2 hw]; rfl⟩

theorem steinerNumber_ok : ∀ (w : List Char) (v x : Int), steinerNumber w v = .ok x →
    x = (w.foldl (fun v c => v * 10 + ((c.toNat : Int) - 48)) v)
  | [], v, x, h => by cases h; rfl
  | c :: w, v, x, h => by
    simp only [steinerNumber] at h
    split at h
    · exact steinerNumber_ok w _ x h
    · cases h

theorem steinerNumber_ne_ub : ∀ (w : List Char) (v : Int), 0 ≤ v → (∀ c ∈ w, c.isDigit = true) →
    (v + 1) * 10 ^ w.length ≤ 2147483648 → steinerNumber w v ≠ .ub ∧ steinerNumber w v ≠ .exn
  | [], v, _, _, _ => by constructor <;> (intro h; cases h)
  | c :: w, v, hv, hw, h => by
    have hc := hw c List.mem_cons_self
    have hc' : 48 ≤ c.toNat ∧ c.toNat ≤ 57 := by
      simp only [Char.isDigit, Bool.and_eq_true, decide_eq_true_eq] at hc
      exact ⟨by have := hc.1; exact UInt32.le_iff_toNat_le.1 this, by
        have := hc.2; exact UInt32.le_iff_toNat_le.1 this⟩
    have hp : (1 : Int) ≤ 10 ^ w.length := one_le_pow₀ (by norm_num)
    have hb : (v * 10 + ((c.toNat : Int) - 48) + 1) * 10 ^ w.length ≤ 2147483648 := by
      refine le_trans ?_ h
      rw [List.length_cons, pow_succ]
      have h57 : (c.toNat : Int) ≤ 57 := by exact_mod_cast hc'.2
      nlinarith
    have h48 : (48 : Int) ≤ c.toNat := by exact_mod_cast hc'.1
    have hle : v * 10 + ((c.toNat : Int) - 48) ≤ 2147483647 := by nlinarith
    simp only [steinerNumber, if_pos hle]
    exact steinerNumber_ne_ub w _ (by linarith) (fun d hd => hw d (List.mem_cons_of_mem _ hd)) hb

theorem steinerNumber_nonexn : ∀ (w : List Char) (v : Int), steinerNumber w v ≠ .exn
  | [], v => by intro h; cases h
  | c :: w, v => by
    simp only [steinerNumber]
    split
    · exact steinerNumber_nonexn w _
    · intro h; cases h

theorem workNumber_nonexn (w : List Char) : workNumber w ≠ .exn := by
  unfold workNumber
  split <;> (intro h; cases h)

/-- No undefined behaviour if no run of digits and points has 2048 characters and no run of
digits more than 9. -/
theorem readSwitches_safe (s : List Char) (b : Behavior)
    (h1 : ∀ w, w <:+: s → (∀ c ∈ w, isNum c = true) → w.length < 2048)
    (h2 : ∀ w, 'S' :: w <:+: s → (∀ c ∈ w, c.isDigit = true) → w.length ≤ 9) : readSwitches s b ≠ .ub := by
  have key : ∀ (s : List Char), (∀ w, w <:+: s → (∀ c ∈ w, isNum c = true) → w.length < 2048) →
      ∀ c t, s = c :: t → workNumber (t.takeWhile isNum) ≠ .ub := by
    intro s hs c t e
    subst e
    unfold workNumber fileNameSize
    rw [if_pos]
    · intro h; cases h
    · exact hs _ ((List.takeWhile_prefix _).isInfix.trans (List.suffix_cons c t).isInfix)
        (fun d hd => mem_takeWhile_p hd)
  fun_induction readSwitches s b
  case case1 => intro h; cases h
  case case2 s b h0 x hx ih =>
    have hi : s.dropWhile isNum <:+: 'q' :: s := ((List.dropWhile_suffix _).trans (List.suffix_cons _ s)).isInfix
    exact ih (fun w hw => h1 w (hw.trans hi)) (fun w hw => h2 w (hw.trans hi))
  case case3 => intro h; cases h
  case case4 s b h0 hx => exact absurd hx (key _ h1 _ _ rfl)
  case case5 s b h0 ih =>
    have hi : s <:+: 'q' :: s := (List.suffix_cons _ s).isInfix
    exact ih (fun w hw => h1 w (hw.trans hi)) (fun w hw => h2 w (hw.trans hi))
  case case6 => intro h; cases h
  case case7 s b h0 x hx h3 h4 ih =>
    have hi : s.dropWhile isNum <:+: 'a' :: s := ((List.dropWhile_suffix _).trans (List.suffix_cons _ s)).isInfix
    exact ih (fun w hw => h1 w (hw.trans hi)) (fun w hw => h2 w (hw.trans hi))
  case case8 => intro h; cases h
  case case9 s b h0 hx h4 => exact absurd hx (key _ h1 _ _ rfl)
  case case10 s b h0 h4 ih =>
    have hi : s <:+: 'a' :: s := (List.suffix_cons _ s).isInfix
    exact ih (fun w hw => h1 w (hw.trans hi)) (fun w hw => h2 w (hw.trans hi))
  case case11 s b h0 hne hne2 ih =>
    have hi : s.tail <:+: 'o' :: s := ((List.tail_suffix s).trans (List.suffix_cons _ s)).isInfix
    exact ih (fun w hw => h1 w (hw.trans hi)) (fun w hw => h2 w (hw.trans hi))
  case case12 s b h0 hne hne2 ih =>
    have hi : s <:+: 'o' :: s := (List.suffix_cons _ s).isInfix
    exact ih (fun w hw => h1 w (hw.trans hi)) (fun w hw => h2 w (hw.trans hi))
  case case13 s b v hv hne hne2 hne3 ih =>
    have hi : s.dropWhile Char.isDigit <:+: 'S' :: s :=
      ((List.dropWhile_suffix _).trans (List.suffix_cons _ s)).isInfix
    exact ih (fun w hw => h1 w (hw.trans hi)) (fun w hw => h2 w (hw.trans hi))
  case case14 => intro h; cases h
  case case15 s b hv hne hne2 hne3 =>
    have hd : ∀ c ∈ s.takeWhile Char.isDigit, c.isDigit = true := fun c hc => mem_takeWhile_p hc
    have hl := h2 (s.takeWhile Char.isDigit)
      (List.cons_prefix_cons.2 ⟨rfl, List.takeWhile_prefix _⟩ : 'S' :: s.takeWhile Char.isDigit <+: 'S' :: s).isInfix hd
    have hp : (10 : Int) ^ (s.takeWhile Char.isDigit).length ≤ 10 ^ 9 := pow_le_pow_right₀ (by norm_num) hl
    exact absurd hv (steinerNumber_ne_ub _ 0 le_rfl hd (by linarith)).1
  case case16 c s b h3 h4 h5 h6 ih =>
    have hi : s <:+: c :: s := (List.suffix_cons _ s).isInfix
    exact ih (fun w hw => h1 w (hw.trans hi)) (fun w hw => h2 w (hw.trans hi))

/-- The process ends only for an area that is not positive. -/
theorem readSwitches_exn (s : List Char) (b : Behavior) (h : readSwitches s b = .exn) :
    ∃ s1 w s2, s = s1 ++ 'a' :: w ++ s2 ∧ w ≠ [] ∧ (∀ c ∈ w, isNum c = true) ∧
      (∀ c, s2.head? = some c → isNum c = false) ∧ atof w ≤ 0 := by
  have lift : ∀ {p s : List Char}, (∃ s1 w s2, s = s1 ++ 'a' :: w ++ s2 ∧ w ≠ [] ∧ (∀ c ∈ w, isNum c = true) ∧
      (∀ c, s2.head? = some c → isNum c = false) ∧ atof w ≤ 0) →
      ∃ s1 w s2, p ++ s = s1 ++ 'a' :: w ++ s2 ∧ w ≠ [] ∧ (∀ c ∈ w, isNum c = true) ∧
      (∀ c, s2.head? = some c → isNum c = false) ∧ atof w ≤ 0 := by
    rintro p s ⟨s1, w, s2, e, r⟩
    exact ⟨p ++ s1, w, s2, by rw [e]; simp, r⟩
  revert h
  fun_induction readSwitches s b <;> intro h
  case case1 => cases h
  case case2 s b h0 x hx ih =>
    have := lift (p := 'q' :: s.takeWhile isNum) (ih h)
    rwa [List.cons_append, List.takeWhile_append_dropWhile] at this
  case case3 s b h0 hx => exact absurd hx (workNumber_nonexn _)
  case case4 => cases h
  case case5 s b h0 ih => exact lift (p := ['q']) (ih h)
  case case6 s b h0 x hx h3 h4 =>
    refine ⟨[], s.takeWhile isNum, s.dropWhile isNum, ?_, h0, fun c hc => mem_takeWhile_p hc, ?_, ?_⟩
    · simp [List.takeWhile_append_dropWhile]
    · intro c hc
      have hne : s.dropWhile isNum ≠ [] := by intro he; rw [he] at hc; cases hc
      have := List.head_dropWhile_not isNum hne
      rw [List.head?_eq_some_head hne] at hc
      cases hc
      simpa using this
    · unfold workNumber at hx
      split at hx
      · cases hx; exact h3
      · cases hx
  case case7 s b h0 x hx h3 h4 ih =>
    have := lift (p := 'a' :: s.takeWhile isNum) (ih h)
    rwa [List.cons_append, List.takeWhile_append_dropWhile] at this
  case case8 s b h0 hx h4 => exact absurd hx (workNumber_nonexn _)
  case case9 => cases h
  case case10 s b h0 h4 ih => exact lift (p := ['a']) (ih h)
  case case11 s b h0 hne hne2 ih =>
    obtain ⟨u, rfl⟩ : ∃ u, s = '2' :: u := by
      cases s with
      | nil => simp at h0
      | cons x u => simp at h0; exact ⟨u, by rw [h0]⟩
    exact lift (p := ['o', '2']) (ih h)
  case case12 s b h0 hne hne2 ih => exact lift (p := ['o']) (ih h)
  case case13 s b v hv hne hne2 hne3 ih =>
    have := lift (p := 'S' :: s.takeWhile Char.isDigit) (ih h)
    rwa [List.cons_append, List.takeWhile_append_dropWhile] at this
  case case14 s b hv hne hne2 hne3 => exact absurd hv (steinerNumber_nonexn _ _)
  case case15 => cases h
  case case16 c s b h3 h4 h5 h6 ih => exact lift (p := [c]) (ih h)

/-- What is left when the string is accepted. -/
theorem parse_ok {s : List Char} {b : Behavior} (h : parsecommandline s = .ok b) :
    ∃ b0, readSwitches s Behavior.init = .ok b0 ∧ b = adjust b0 := by
  unfold parsecommandline at h
  cases hr : readSwitches s Behavior.init with
  | ok b0 =>
    rw [hr, Outcome.bind_ok] at h
    refine ⟨b0, rfl, ?_⟩
    split at h
    · cases h
    · cases h; rfl
  | exn => rw [hr] at h; cases h
  | ub => rw [hr] at h; cases h

theorem any_or (s : List Char) (p q : Char → Bool) : s.any (fun c => p c || q c) = (s.any p || s.any q) := by
  induction s with
  | nil => rfl
  | cons c s ih => simp only [List.any_cons, ih]; cases p c <;> cases q c <;> simp

theorem any_mem (s : List Char) (d : Char) : s.any (fun c => c == d) = true ↔ d ∈ s := by
  simp

theorem foldl_digits (w : List Char) (hw : ∀ c ∈ w, c.isDigit = true) (n : Nat) :
    w.foldl (fun v c => v * 10 + ((c.toNat : Int) - 48)) (n : Int) = (Nat.ofDigitChars 10 w n : Int) := by
  induction w generalizing n with
  | nil => rfl
  | cons c w ih =>
    have hc := hw c List.mem_cons_self
    have h48 : 48 ≤ c.toNat := by
      simp only [Char.isDigit, Bool.and_eq_true, decide_eq_true_eq] at hc
      exact UInt32.le_iff_toNat_le.1 hc.1
    rw [List.foldl_cons, Nat.ofDigitChars_cons, ← ih (fun d hd => hw d (List.mem_cons_of_mem _ hd))]
    congr 1
    have : '0'.toNat = 48 := rfl
    rw [this]
    push_cast [h48]
    ring

end Delynoi.Tri
