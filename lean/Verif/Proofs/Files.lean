import Verif.Model.Files
import Verif.Proofs.Numeral
/-!
# Lemmas about the files the library writes
-/
namespace Delynoi

theorem intText_numChars (n : Int) : ∀ c ∈ intText n, NumChar c := by
  rw [intText_eq]
  refine numChars_append ?_ (natText_numChars _)
  unfold sgn
  split
  · intro c hc; simp at hc; subst hc; right; left; rfl
  · intro c hc; cases hc

theorem intText_ne (n : Int) : intText n ≠ [] := by
  rw [intText_eq]
  intro h
  exact natText_ne _ (List.append_eq_nil_iff.1 h).2

theorem intText_nat (n : Nat) : intText (n : Int) = natText n := by
  rw [intText_eq]
  have : ¬ ((n : Int) < 0) := by omega
  simp [this, sgn]

theorem putI_buf (o : OStream) (n : Int) : o.putI n = o.putS (intText n) := by
  rw [intText_eq]
  unfold OStream.putI OStream.putN OStream.putS sgn
  by_cases h : n < 0 <;> simp [h]

/-- Words made of the characters of numbers, separated by single spaces. -/
theorem words_numChars (ts : List (List Char)) (h1 : ∀ t ∈ ts, t ≠ [])
    (h2 : ∀ t ∈ ts, ∀ c ∈ t, NumChar c) : Words (unwords ts) ts ∧ IsLine (unwords ts) := by
  refine ⟨words_unwords ts h1 (fun t ht c hc => (h2 t ht c hc).not_white), ?_⟩
  clear h1
  unfold IsLine
  induction ts with
  | nil => simp [unwords]
  | cons t ts ih =>
    have h := fun hc => (h2 t (by simp) '\n' hc).not_nl rfl
    cases ts with
    | nil => simpa [unwords] using h
    | cons u us =>
      have := ih (fun t ht => h2 t (by simp [ht]))
      simp only [unwords]
      intro hc
      rcases List.mem_append.1 hc with hc | hc
      · exact h hc
      · rcases List.mem_cons.1 hc with hc | hc
        · cases hc
        · exact this hc

theorem words_trailing {s : List Char} {ts : List (List Char)} (h : Words s ts) :
    Words (s ++ [' ']) ts := by
  induction h with
  | nil s h =>
    refine .nil _ ?_
    intro c hc
    rcases List.mem_append.1 hc with hc | hc
    · exact h c hc
    · simp at hc; subst hc; simp [White]
  | cons pre t rest ts hp ht hw hr _ ih =>
    rw [List.append_assoc]
    refine .cons pre t (rest ++ [' ']) ts hp ht hw ?_ ih
    intro c hc
    cases rest with
    | nil => simp at hc; subst hc; simp [White]
    | cons a r => simp at hc; subst hc; exact hr a rfl

theorem putS_putS (o : OStream) (a b : List Char) : (o.putS a).putS b = o.putS (a ++ b) := by
  simp [OStream.putS]

theorem line_eq (o : OStream) (s : List Char) : o.line s = o.putS (unlines [s]) := by
  unfold OStream.line OStream.endl
  rw [putS_putS]; simp [unlines]

/-- The numbered lines of points. -/
theorem numberedPoints_lines (ps : List (Pt ℚ)) : ∀ (o : OStream) (i : Nat),
    ∃ (ls : List (List Char)) (qs : List (ℚ × ℚ)), numberedPoints o i ps = o.putS (unlines ls) ∧
      NumberedLines PointToks i qs ls ∧ List.Forall₂ (fun p : Pt ℚ => SixPoint p.x p.y) ps qs := by
  induction ps with
  | nil => intro o i; exact ⟨[], [], by simp [numberedPoints, unlines, OStream.putS], .nil _, .nil⟩
  | cons p ps ih =>
    intro o i
    obtain ⟨qx, hx1, hx2⟩ := toStringD_numeral p.x
    obtain ⟨qy, hy1, hy2⟩ := toStringD_numeral p.y
    obtain ⟨ls, qs, h1, h2, h3⟩ := ih (((o.putN i).putS [' ']).line (ptString p)) (i + 1)
    have hw := words_numChars [intText i, toStringD p.x, toStringD p.y]
      (by intro t ht; simp at ht; rcases ht with rfl | rfl | rfl
          · exact intText_ne _
          · exact toStringD_ne _
          · exact toStringD_ne _)
      (by intro t ht; simp at ht; rcases ht with rfl | rfl | rfl
          · exact intText_numChars _
          · exact toStringD_numChars _
          · exact toStringD_numChars _)
    refine ⟨unwords [intText i, toStringD p.x, toStringD p.y] :: ls, (qx, qy) :: qs, ?_,
      .cons _ _ _ _ _ _ hw.2 hw.1 ⟨_, _, rfl, hx1, hy1⟩ (by exact_mod_cast h2),
      .cons ⟨hx2, hy2⟩ h3⟩
    simp only [numberedPoints]
    rw [h1, line_eq, intText_nat]
    unfold OStream.putN
    rw [putS_putS, putS_putS, putS_putS]
    simp [unlines, unwords, ptString]

/-- The numbered lines of segments. -/
theorem numberedSegments_lines (idx : List Int) (ss : List ISeg) : ∀ (o : OStream) (i : Nat)
    (es : List (Int × Int)),
    List.Forall₂ (fun (s : ISeg) (e : Int × Int) => vecGet idx s.p1 = .ok e.1 ∧ vecGet idx s.p2 = .ok e.2)
      ss es →
    ∃ ls : List (List Char), numberedSegments idx o i ss = .ok (o.putS (unlines ls)) ∧
      NumberedLines PairToks i es ls := by
  induction ss with
  | nil =>
    intro o i es h
    cases h
    exact ⟨[], by simp [numberedSegments, unlines, OStream.putS], .nil _⟩
  | cons s ss ih =>
    intro o i es h
    cases h with
    | @cons _ e _ es h1 h2 =>
    have hw := words_numChars [intText i, intText e.1, intText e.2]
      (by intro t ht; simp at ht; rcases ht with rfl | rfl | rfl <;> exact intText_ne _)
      (by intro t ht; simp at ht; rcases ht with rfl | rfl | rfl <;> exact intText_numChars _)
    obtain ⟨ls, g1, g2⟩ := ih ((((((o.putN i).putS [' ']).putI e.1).putS [' ']).putI e.2).endl) (i + 1) es h2
    refine ⟨unwords [intText i, intText e.1, intText e.2] :: ls, ?_,
      .cons _ _ _ _ _ _ hw.2 hw.1 rfl (by exact_mod_cast g2)⟩
    simp only [numberedSegments]
    rw [h1.1, Outcome.bind_ok, h1.2, Outcome.bind_ok, g1]
    unfold OStream.endl OStream.putN
    simp only [putI_buf, putS_putS, intText_nat]
    simp [unlines, unwords]

theorem numberedSegments_defined (idx : List Int) (ss : List ISeg) : ∀ (o : OStream) (i : Nat),
    (∃ o', numberedSegments idx o i ss = .ok o') ↔
      ∃ es : List (Int × Int), List.Forall₂
        (fun (s : ISeg) (e : Int × Int) => vecGet idx s.p1 = .ok e.1 ∧ vecGet idx s.p2 = .ok e.2) ss es := by
  induction ss with
  | nil => intro o i; exact ⟨fun _ => ⟨[], .nil⟩, fun _ => ⟨_, rfl⟩⟩
  | cons s ss ih =>
    intro o i
    constructor
    · rintro ⟨o', h⟩
      simp only [numberedSegments] at h
      cases h1 : vecGet idx s.p1 with
      | exn => rw [h1] at h; cases h
      | ub => rw [h1] at h; cases h
      | ok a =>
      rw [h1, Outcome.bind_ok] at h
      cases h2 : vecGet idx s.p2 with
      | exn => rw [h2] at h; cases h
      | ub => rw [h2] at h; cases h
      | ok b =>
      rw [h2, Outcome.bind_ok] at h
      obtain ⟨es, hes⟩ := (ih _ _).1 ⟨o', h⟩
      exact ⟨(a, b) :: es, .cons ⟨h1, h2⟩ hes⟩
    · rintro ⟨es, hes⟩
      obtain ⟨ls, h, _⟩ := numberedSegments_lines idx (s :: ss) o i es hes
      exact ⟨_, h⟩

/-! ### A text has one meaning -/

theorem intText_inj {a b : Int} (h : intText a = intText b) : a = b := by
  rw [intText_eq, intText_eq] at h
  have hd : ∀ n : Nat, ∀ c, (natText n).head? = some c → c ≠ '-' := by
    intro n c hc
    have : c.isDigit = true := natText_digits n c (List.mem_of_mem_head? (by simpa using hc))
    rintro rfl
    revert this; decide
  have hv : ∀ n m : Nat, natText n = natText m → n = m := by
    intro n m h
    have := congrArg digitsVal h
    rwa [digitsVal_natText, digitsVal_natText] at this
  by_cases ha : a < 0 <;> by_cases hb : b < 0 <;> simp only [ha, hb, decide_true, decide_false] at h
  · simp only [sgn, if_true] at h
    have := hv _ _ (List.append_cancel_left h)
    omega
  · exfalso
    simp [sgn] at h
    exact hd _ '-' (by rw [← h]; rfl) rfl
  · exfalso
    simp [sgn] at h
    exact hd _ '-' (by rw [h]; rfl) rfl
  · simp [sgn] at h
    have := hv _ _ h
    omega

theorem unlines_inj : ∀ {ls ks : List (List Char)}, (∀ l ∈ ls, IsLine l) → (∀ l ∈ ks, IsLine l) →
    unlines ls = unlines ks → ls = ks := by
  intro ls
  induction ls with
  | nil =>
    intro ks _ _ h
    cases ks with
    | nil => rfl
    | cons k ks => rw [unlines_cons] at h; simp [unlines] at h
  | cons l ls ih =>
    intro ks h1 h2 h
    cases ks with
    | nil => rw [unlines_cons] at h; simp [unlines] at h
    | cons k ks =>
      rw [unlines_cons, unlines_cons] at h
      have g : ∀ (l r : List Char), IsLine l → ((l ++ '\n' :: r).takeWhile (fun c => c != '\n') = l ∧
          (l ++ '\n' :: r).dropWhile (fun c => c != '\n') = '\n' :: r) := by
        intro l r hl
        refine takeWhile_split _ l ('\n' :: r) ?_ (by simp)
        intro c hc
        simp only [bne_iff_ne, ne_eq]
        rintro rfl
        exact hl hc
      have e1 := g l (unlines ls) (h1 l (by simp))
      have e2 := g k (unlines ks) (h2 k (by simp))
      have h' : l ++ '\n' :: unlines ls = k ++ '\n' :: unlines ks := by simpa using h
      rw [h'] at e1
      have a := e1.1.symm.trans e2.1
      have b := e1.2.symm.trans e2.2
      rw [a, ih (fun l hl => h1 l (by simp [hl])) (fun l hl => h2 l (by simp [hl])) (List.cons.inj b).2]

theorem NumberedLines.lines {α : Type} {W : α → List (List Char) → Prop} {i : Int} {as : List α}
    {ls : List (List Char)} (h : NumberedLines W i as ls) :
    ls.length = as.length ∧ ∀ l ∈ ls, IsLine l := by
  induction h with
  | nil => simp
  | cons i a as l ls ts hl hw hW h ih =>
    refine ⟨by simp [ih.1], ?_⟩
    intro l' hl'
    rcases List.mem_cons.1 hl' with rfl | h'
    · exact hl
    · exact ih.2 _ h'

theorem NumberedLines.unique {α : Type} {W : α → List (List Char) → Prop}
    (hW : ∀ a b ts, W a ts → W b ts → a = b) {i : Int} {as bs : List α}
    {ls : List (List Char)} (h : NumberedLines W i as ls) (h' : NumberedLines W i bs ls) : as = bs := by
  induction h generalizing bs with
  | nil => cases h'; rfl
  | cons i a as l ls ts hl hw hWa h ih =>
    cases h' with
    | cons _ b bs _ _ us _ hw' hWb h' =>
      have e := words_unique hw hw'
      have : ts = us := (List.cons.inj e).2
      subst this
      rw [hW a b ts hWa hWb, ih h']

theorem pointToks_unique (a b : ℚ × ℚ) (ts : List (List Char)) (h1 : PointToks a ts)
    (h2 : PointToks b ts) : a = b := by
  obtain ⟨s, t, rfl, e1, e2⟩ := h1
  obtain ⟨s', t', e, e3, e4⟩ := h2
  have hs : s = s' := by simp at e; exact e.1
  have ht : t = t' := by simp at e; exact e.2
  subst hs ht
  exact Prod.ext ((atof_numeral e1).symm.trans (atof_numeral e3)) ((atof_numeral e2).symm.trans (atof_numeral e4))

theorem pairToks_unique (a b : Int × Int) (ts : List (List Char)) (h1 : PairToks a ts)
    (h2 : PairToks b ts) : a = b := by
  unfold PairToks at h1 h2
  rw [h1] at h2
  simp at h2
  exact Prod.ext (intText_inj h2.1) (intText_inj h2.2)

end Delynoi
