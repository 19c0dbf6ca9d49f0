import Verif.Model.TriSwitch
import Verif.Spec.TriSwitch
/-! # Reading Triangle's switches -/
namespace Delynoi.Tri

theorem mem_takeWhile_p {p : Char → Bool} : ∀ {s : List Char} {c : Char}, c ∈ s.takeWhile p → p c = true
  | [], _, h => by simp at h
  | a :: s, c, h => by
    by_cases ha : p a = true
    · rw [List.takeWhile_cons_of_pos ha] at h
      rcases List.mem_cons.1 h with rfl | h
      · exact ha
      · exact mem_takeWhile_p h
    · rw [List.takeWhile_cons_of_neg (by simpa using ha)] at h
      simp at h

theorem foldl_takeWhile {β : Type} (p : Char → Bool) (g : β → Char → β) (h : ∀ x c, p c = true → g x c = x)
    (x : β) (s : List Char) : s.foldl g x = (s.dropWhile p).foldl g x := by
  induction s generalizing x with
  | nil => rfl
  | cons c s ih =>
    by_cases hc : p c = true
    · rw [List.dropWhile_cons_of_pos hc, List.foldl_cons, h x c hc, ih]
    · rw [List.dropWhile_cons_of_neg (by simpa using hc)]

theorem isNum_digit {c : Char} (h : c.isDigit = true) : isNum c = true := by
  unfold isNum
  simp only [Char.isDigit, Bool.and_eq_true, decide_eq_true_eq] at h
  simp only [Bool.or_eq_true, Bool.and_eq_true, decide_eq_true_eq]
  exact Or.inl ⟨h.1, h.2⟩

theorem isNum_eq : numeric = isNum := by
  funext c
  unfold numeric isNum
  congr 1

/-- A field that is a fold over the characters. -/
theorem readSwitches_fold {β : Type} (f : Behavior → β) (g : β → Char → β)
    (hnum : ∀ x c, isNum c = true → g x c = x)
    (hq : ∀ b x, f { b with quality := true, minangle := x } = g (f b) 'q')
    (ha : ∀ b x, f { b with quality := true, fixedarea := true, maxarea := x } = g (f b) 'a')
    (ha' : ∀ b, f { b with quality := true, vararea := true } = g (f b) 'a')
    (ho : ∀ b, f { b with order := 2 } = f b) (ho' : ∀ x, g x 'o' = x)
    (hS : ∀ b v, f { b with steiner := v } = g (f b) 'S')
    (hl : ∀ b c, c ≠ 'q' → c ≠ 'a' → c ≠ 'o' → c ≠ 'S' → f (letter c b) = g (f b) c) :
    ∀ (s : List Char) (b b' : Behavior), readSwitches s b = .ok b' → f b' = s.foldl g (f b) := by
  intro s b
  fun_induction readSwitches s b
  case case1 b => intro b' h; cases h; rfl
  case case2 s b h1 x hx ih =>
    intro b' h
    rw [ih b' h, List.foldl_cons, foldl_takeWhile isNum g hnum _ s, hq]
  case case3 => intro b' h; cases h
  case case4 => intro b' h; cases h
  case case5 s b h1 ih => intro b' h; rw [ih b' h, List.foldl_cons, hq]
  case case6 => intro b' h; cases h
  case case7 s b hne h1 x hx h2 ih =>
    intro b' h
    rw [ih b' h, List.foldl_cons, foldl_takeWhile isNum g hnum _ s, ha]
  case case8 => intro b' h; cases h
  case case9 => intro b' h; cases h
  case case10 s b hne h1 ih => intro b' h; rw [ih b' h, List.foldl_cons, ha']
  case case11 s b h1 hne hne2 ih =>
    intro b' h
    obtain ⟨t, rfl⟩ : ∃ t, s = '2' :: t := by
      cases s with
      | nil => simp at h1
      | cons x t => simp at h1; exact ⟨t, by rw [h1]⟩
    rw [ih b' h, List.foldl_cons, List.foldl_cons, ho, ho', hnum _ '2' (by decide), List.tail_cons]
  case case12 s b h1 hne hne2 ih => intro b' h; rw [ih b' h, List.foldl_cons, ho']
  case case13 s b hne hne2 hne3 v hv ih =>
    intro b' h
    rw [ih b' h, List.foldl_cons, foldl_takeWhile Char.isDigit g (fun x c hc => hnum x c (isNum_digit hc)) _ s, hS]
  case case14 => intro b' h; cases h
  case case15 => intro b' h; cases h
  case case16 c s b h1 h2 h3 h4 ih => intro b' h; rw [ih b' h, List.foldl_cons, hl b c h1 h2 h3 h4]

theorem foldl_or (S : Char → Bool) : ∀ (s : List Char) (x : Bool),
    s.foldl (fun x c => x || S c) x = (x || s.any S)
  | [], x => by simp
  | c :: s, x => by rw [List.foldl_cons, foldl_or S s, List.any_cons, Bool.or_assoc]

/-- A flag that the characters of a set switch on. -/
theorem readSwitches_flag (f : Behavior → Bool) (S : Char → Bool)
    (hnum : ∀ c, isNum c = true → S c = false)
    (hq : ∀ b x, f { b with quality := true, minangle := x } = (f b || S 'q'))
    (ha : ∀ b x, f { b with quality := true, fixedarea := true, maxarea := x } = (f b || S 'a'))
    (ha' : ∀ b, f { b with quality := true, vararea := true } = (f b || S 'a'))
    (ho : ∀ b, f { b with order := 2 } = f b) (ho' : S 'o' = false)
    (hS : ∀ b v, f { b with steiner := v } = (f b || S 'S'))
    (hl : ∀ b c, c ≠ 'q' → c ≠ 'a' → c ≠ 'o' → c ≠ 'S' → f (letter c b) = (f b || S c))
    (s : List Char) (b b' : Behavior) (h : readSwitches s b = .ok b') : f b' = (f b || s.any S) := by
  rw [readSwitches_fold f (fun x c => x || S c) (fun x c hc => by simp [hnum c hc]) hq ha ha' ho
    (fun x => by simp [ho']) hS hl s b b' h, foldl_or]

theorem not_num {c : Char} (h : isNum c = true) (d : Char) (hd : isNum d = false) : (c == d) = false := by
  rw [beq_eq_false_iff_ne]
  rintro rfl
  rw [h] at hd
  cases hd

theorem takeWhile_append_stop (p : Char → Bool) (t : List Char)
    (ht : ∀ c, t.head? = some c → p c = false) : ∀ s : List Char,
    (s ++ t).takeWhile p = s.takeWhile p ∧ (s ++ t).dropWhile p = s.dropWhile p ++ t
  | [] => by
    cases t with
    | nil => simp
    | cons c t =>
      have := ht c rfl
      constructor
      · simp [this]
      · simp [this]
  | a :: s => by
    by_cases ha : p a = true
    · simp only [List.cons_append, List.takeWhile_cons_of_pos ha, List.dropWhile_cons_of_pos ha]
      exact ⟨by rw [(takeWhile_append_stop p t ht s).1], (takeWhile_append_stop p t ht s).2⟩
    · have ha' : ¬ p a = true := ha
      simp only [List.cons_append, List.takeWhile_cons_of_neg ha', List.dropWhile_cons_of_neg ha']
      exact ⟨trivial, trivial⟩

/-- A string is read in two halves if the second does not start with a digit or a point. -/
theorem readSwitches_append (t : List Char) (ht : ∀ c, t.head? = some c → isNum c = false) :
    ∀ (s : List Char) (b : Behavior), readSwitches (s ++ t) b = readSwitches s b >>= readSwitches t := by
  have ht2 : ∀ c, t.head? = some c → c.isDigit = false := fun c hc => by
    have := ht c hc
    cases h : c.isDigit with
    | false => rfl
    | true => rw [isNum_digit h] at this; cases this
  intro s b
  have e1 := fun s => (takeWhile_append_stop isNum t ht s).1
  have e2 := fun s => (takeWhile_append_stop isNum t ht s).2
  have d1 := fun s => (takeWhile_append_stop Char.isDigit t ht2 s).1
  have d2 := fun s => (takeWhile_append_stop Char.isDigit t ht2 s).2
  fun_induction readSwitches s b
  case case1 b => simp
  case case2 s b h1 x hx ih => rw [List.cons_append, readSwitches]; simp [e1, e2, h1, hx, ih]
  case case3 s b h1 hx => rw [List.cons_append, readSwitches]; simp [e1, h1, hx]
  case case4 s b h1 hx => rw [List.cons_append, readSwitches]; simp [e1, h1, hx]
  case case5 s b h1 ih => rw [List.cons_append, readSwitches]; simp only [e1, h1, ih]; simp
  case case6 s b h0 x hx h2 h1 => rw [List.cons_append, readSwitches]; simp [e1, h0, hx, h2]
  case case7 s b h0 x hx h2 h1 ih =>
    rw [List.cons_append, readSwitches]; simp [e1, e2, h0, hx, h2, ih]
  case case8 s b h0 hx h1 => rw [List.cons_append, readSwitches]; simp [e1, h0, hx]
  case case9 s b h0 hx h1 => rw [List.cons_append, readSwitches]; simp [e1, h0, hx]
  case case10 s b h0 h1 ih => rw [List.cons_append, readSwitches]; simp only [e1, h0, ih]; simp
  case case11 s b h1 hne hne2 ih =>
    obtain ⟨u, rfl⟩ : ∃ u, s = '2' :: u := by
      cases s with
      | nil => simp at h1
      | cons x u => simp at h1; exact ⟨u, by rw [h1]⟩
    rw [List.cons_append, readSwitches]; simp at ih ⊢; exact ih
  case case12 s b h1 hne hne2 ih =>
    have : ¬ (s ++ t).head? = some '2' := by
      cases s with
      | nil =>
        intro h
        have := ht '2' (by simpa using h)
        revert this; decide
      | cons x u => simpa using h1
    rw [List.cons_append, readSwitches]; simp only [this, ih]; simp
  case case13 s b v hv hne hne2 hne3 ih => rw [List.cons_append, readSwitches]; simp [d1, d2, hv, ih]
  case case14 s b hv hne hne2 hne3 => rw [List.cons_append, readSwitches]; simp [d1, hv]
  case case15 s b hv hne hne2 hne3 => rw [List.cons_append, readSwitches]; simp [d1, hv]
  case case16 c s b h1 h2 h3 h4 ih => rw [List.cons_append, readSwitches]; simp [h1, h2, h3, h4, ih]

/-! ### Fields -/

theorem ite_step {α : Type} {P : Prop} [Decidable P] {x y z : α} (h1 : P → x = z) (h2 : ¬ P → y = z) :
    (if P then x else y) = z := by
  split
  · exact h1 ‹_›
  · exact h2 ‹_›

/-- Prove what a letter does to a field. -/
macro "letterField" f:term : tactic => `(tactic| (
  simp only [letter, apply_ite $f, ite_self]
  repeat refine ite_step (by
    intro h
    first | (subst h; simp; done) | (rcases h with h | h <;> subst h <;> simp)) (fun _ => ?_)
  simp_all))

theorem read_poly (s : List Char) (b b' : Behavior) (h : readSwitches s b = .ok b') :
    b'.poly = (b.poly || s.any (fun c => c == 'p')) := by
  refine readSwitches_flag Behavior.poly (fun c => c == 'p') ?_ ?_ ?_ ?_ ?_ ?_ ?_ ?_ s b b' h
  · intro c hc
    simp [not_num hc 'p' (by decide)]
  · intros; simp
  · intros; simp
  · intros; simp
  · intros; rfl
  · decide
  · intros; simp
  · intro b c h1 h2 h3 h4
    letterField Behavior.poly

theorem read_refine (s : List Char) (b b' : Behavior) (h : readSwitches s b = .ok b') :
    b'.refine = (b.refine || s.any (fun c => c == 'r')) := by
  refine readSwitches_flag Behavior.refine (fun c => c == 'r') ?_ ?_ ?_ ?_ ?_ ?_ ?_ ?_ s b b' h
  · intro c hc
    simp [not_num hc 'r' (by decide)]
  · intros; simp
  · intros; simp
  · intros; simp
  · intros; rfl
  · decide
  · intros; simp
  · intro b c h1 h2 h3 h4
    letterField Behavior.refine

theorem read_usertest (s : List Char) (b b' : Behavior) (h : readSwitches s b = .ok b') :
    b'.usertest = (b.usertest || s.any (fun c => c == 'u')) := by
  refine readSwitches_flag Behavior.usertest (fun c => c == 'u') ?_ ?_ ?_ ?_ ?_ ?_ ?_ ?_ s b b' h
  · intro c hc
    simp [not_num hc 'u' (by decide)]
  · intros; simp
  · intros; simp
  · intros; simp
  · intros; rfl
  · decide
  · intros; simp
  · intro b c h1 h2 h3 h4
    letterField Behavior.usertest

theorem read_convex (s : List Char) (b b' : Behavior) (h : readSwitches s b = .ok b') :
    b'.convex = (b.convex || s.any (fun c => c == 'c')) := by
  refine readSwitches_flag Behavior.convex (fun c => c == 'c') ?_ ?_ ?_ ?_ ?_ ?_ ?_ ?_ s b b' h
  · intro c hc
    simp [not_num hc 'c' (by decide)]
  · intros; simp
  · intros; simp
  · intros; simp
  · intros; rfl
  · decide
  · intros; simp
  · intro b c h1 h2 h3 h4
    letterField Behavior.convex

theorem read_jettison (s : List Char) (b b' : Behavior) (h : readSwitches s b = .ok b') :
    b'.jettison = (b.jettison || s.any (fun c => c == 'j')) := by
  refine readSwitches_flag Behavior.jettison (fun c => c == 'j') ?_ ?_ ?_ ?_ ?_ ?_ ?_ ?_ s b b' h
  · intro c hc
    simp [not_num hc 'j' (by decide)]
  · intros; simp
  · intros; simp
  · intros; simp
  · intros; rfl
  · decide
  · intros; simp
  · intro b c h1 h2 h3 h4
    letterField Behavior.jettison

theorem read_edgesout (s : List Char) (b b' : Behavior) (h : readSwitches s b = .ok b') :
    b'.edgesout = (b.edgesout || s.any (fun c => c == 'e')) := by
  refine readSwitches_flag Behavior.edgesout (fun c => c == 'e') ?_ ?_ ?_ ?_ ?_ ?_ ?_ ?_ s b b' h
  · intro c hc
    simp [not_num hc 'e' (by decide)]
  · intros; simp
  · intros; simp
  · intros; simp
  · intros; rfl
  · decide
  · intros; simp
  · intro b c h1 h2 h3 h4
    letterField Behavior.edgesout

theorem read_voronoi (s : List Char) (b b' : Behavior) (h : readSwitches s b = .ok b') :
    b'.voronoi = (b.voronoi || s.any (fun c => c == 'v')) := by
  refine readSwitches_flag Behavior.voronoi (fun c => c == 'v') ?_ ?_ ?_ ?_ ?_ ?_ ?_ ?_ s b b' h
  · intro c hc
    simp [not_num hc 'v' (by decide)]
  · intros; simp
  · intros; simp
  · intros; simp
  · intros; rfl
  · decide
  · intros; simp
  · intro b c h1 h2 h3 h4
    letterField Behavior.voronoi

theorem read_neighbors (s : List Char) (b b' : Behavior) (h : readSwitches s b = .ok b') :
    b'.neighbors = (b.neighbors || s.any (fun c => c == 'n')) := by
  refine readSwitches_flag Behavior.neighbors (fun c => c == 'n') ?_ ?_ ?_ ?_ ?_ ?_ ?_ ?_ s b b' h
  · intro c hc
    simp [not_num hc 'n' (by decide)]
  · intros; simp
  · intros; simp
  · intros; simp
  · intros; rfl
  · decide
  · intros; simp
  · intro b c h1 h2 h3 h4
    letterField Behavior.neighbors

theorem read_geomview (s : List Char) (b b' : Behavior) (h : readSwitches s b = .ok b') :
    b'.geomview = (b.geomview || s.any (fun c => c == 'g')) := by
  refine readSwitches_flag Behavior.geomview (fun c => c == 'g') ?_ ?_ ?_ ?_ ?_ ?_ ?_ ?_ s b b' h
  · intro c hc
    simp [not_num hc 'g' (by decide)]
  · intros; simp
  · intros; simp
  · intros; simp
  · intros; rfl
  · decide
  · intros; simp
  · intro b c h1 h2 h3 h4
    letterField Behavior.geomview

theorem read_nobound (s : List Char) (b b' : Behavior) (h : readSwitches s b = .ok b') :
    b'.nobound = (b.nobound || s.any (fun c => c == 'B')) := by
  refine readSwitches_flag Behavior.nobound (fun c => c == 'B') ?_ ?_ ?_ ?_ ?_ ?_ ?_ ?_ s b b' h
  · intro c hc
    simp [not_num hc 'B' (by decide)]
  · intros; simp
  · intros; simp
  · intros; simp
  · intros; rfl
  · decide
  · intros; simp
  · intro b c h1 h2 h3 h4
    letterField Behavior.nobound

theorem read_nopolywritten (s : List Char) (b b' : Behavior) (h : readSwitches s b = .ok b') :
    b'.nopolywritten = (b.nopolywritten || s.any (fun c => c == 'P')) := by
  refine readSwitches_flag Behavior.nopolywritten (fun c => c == 'P') ?_ ?_ ?_ ?_ ?_ ?_ ?_ ?_ s b b' h
  · intro c hc
    simp [not_num hc 'P' (by decide)]
  · intros; simp
  · intros; simp
  · intros; simp
  · intros; rfl
  · decide
  · intros; simp
  · intro b c h1 h2 h3 h4
    letterField Behavior.nopolywritten

theorem read_nonodewritten (s : List Char) (b b' : Behavior) (h : readSwitches s b = .ok b') :
    b'.nonodewritten = (b.nonodewritten || s.any (fun c => c == 'N')) := by
  refine readSwitches_flag Behavior.nonodewritten (fun c => c == 'N') ?_ ?_ ?_ ?_ ?_ ?_ ?_ ?_ s b b' h
  · intro c hc
    simp [not_num hc 'N' (by decide)]
  · intros; simp
  · intros; simp
  · intros; simp
  · intros; rfl
  · decide
  · intros; simp
  · intro b c h1 h2 h3 h4
    letterField Behavior.nonodewritten

theorem read_noelewritten (s : List Char) (b b' : Behavior) (h : readSwitches s b = .ok b') :
    b'.noelewritten = (b.noelewritten || s.any (fun c => c == 'E')) := by
  refine readSwitches_flag Behavior.noelewritten (fun c => c == 'E') ?_ ?_ ?_ ?_ ?_ ?_ ?_ ?_ s b b' h
  · intro c hc
    simp [not_num hc 'E' (by decide)]
  · intros; simp
  · intros; simp
  · intros; simp
  · intros; rfl
  · decide
  · intros; simp
  · intro b c h1 h2 h3 h4
    letterField Behavior.noelewritten

theorem read_noholes (s : List Char) (b b' : Behavior) (h : readSwitches s b = .ok b') :
    b'.noholes = (b.noholes || s.any (fun c => c == 'O')) := by
  refine readSwitches_flag Behavior.noholes (fun c => c == 'O') ?_ ?_ ?_ ?_ ?_ ?_ ?_ ?_ s b b' h
  · intro c hc
    simp [not_num hc 'O' (by decide)]
  · intros; simp
  · intros; simp
  · intros; simp
  · intros; rfl
  · decide
  · intros; simp
  · intro b c h1 h2 h3 h4
    letterField Behavior.noholes

theorem read_noexact (s : List Char) (b b' : Behavior) (h : readSwitches s b = .ok b') :
    b'.noexact = (b.noexact || s.any (fun c => c == 'X')) := by
  refine readSwitches_flag Behavior.noexact (fun c => c == 'X') ?_ ?_ ?_ ?_ ?_ ?_ ?_ ?_ s b b' h
  · intro c hc
    simp [not_num hc 'X' (by decide)]
  · intros; simp
  · intros; simp
  · intros; simp
  · intros; rfl
  · decide
  · intros; simp
  · intro b c h1 h2 h3 h4
    letterField Behavior.noexact

theorem read_incremental (s : List Char) (b b' : Behavior) (h : readSwitches s b = .ok b') :
    b'.incremental = (b.incremental || s.any (fun c => c == 'i')) := by
  refine readSwitches_flag Behavior.incremental (fun c => c == 'i') ?_ ?_ ?_ ?_ ?_ ?_ ?_ ?_ s b b' h
  · intro c hc
    simp [not_num hc 'i' (by decide)]
  · intros; simp
  · intros; simp
  · intros; simp
  · intros; rfl
  · decide
  · intros; simp
  · intro b c h1 h2 h3 h4
    letterField Behavior.incremental

theorem read_sweepline (s : List Char) (b b' : Behavior) (h : readSwitches s b = .ok b') :
    b'.sweepline = (b.sweepline || s.any (fun c => c == 'F')) := by
  refine readSwitches_flag Behavior.sweepline (fun c => c == 'F') ?_ ?_ ?_ ?_ ?_ ?_ ?_ ?_ s b b' h
  · intro c hc
    simp [not_num hc 'F' (by decide)]
  · intros; simp
  · intros; simp
  · intros; simp
  · intros; rfl
  · decide
  · intros; simp
  · intro b c h1 h2 h3 h4
    letterField Behavior.sweepline

theorem read_splitseg (s : List Char) (b b' : Behavior) (h : readSwitches s b = .ok b') :
    b'.splitseg = (b.splitseg || s.any (fun c => c == 's')) := by
  refine readSwitches_flag Behavior.splitseg (fun c => c == 's') ?_ ?_ ?_ ?_ ?_ ?_ ?_ ?_ s b b' h
  · intro c hc
    simp [not_num hc 's' (by decide)]
  · intros; simp
  · intros; simp
  · intros; simp
  · intros; rfl
  · decide
  · intros; simp
  · intro b c h1 h2 h3 h4
    letterField Behavior.splitseg

theorem read_docheck (s : List Char) (b b' : Behavior) (h : readSwitches s b = .ok b') :
    b'.docheck = (b.docheck || s.any (fun c => c == 'C')) := by
  refine readSwitches_flag Behavior.docheck (fun c => c == 'C') ?_ ?_ ?_ ?_ ?_ ?_ ?_ ?_ s b b' h
  · intro c hc
    simp [not_num hc 'C' (by decide)]
  · intros; simp
  · intros; simp
  · intros; simp
  · intros; rfl
  · decide
  · intros; simp
  · intro b c h1 h2 h3 h4
    letterField Behavior.docheck

theorem read_quiet (s : List Char) (b b' : Behavior) (h : readSwitches s b = .ok b') :
    b'.quiet = (b.quiet || s.any (fun c => c == 'Q')) := by
  refine readSwitches_flag Behavior.quiet (fun c => c == 'Q') ?_ ?_ ?_ ?_ ?_ ?_ ?_ ?_ s b b' h
  · intro c hc
    simp [not_num hc 'Q' (by decide)]
  · intros; simp
  · intros; simp
  · intros; simp
  · intros; rfl
  · decide
  · intros; simp
  · intro b c h1 h2 h3 h4
    letterField Behavior.quiet

theorem read_regionattrib (s : List Char) (b b' : Behavior) (h : readSwitches s b = .ok b') :
    b'.regionattrib = (b.regionattrib || s.any (fun c => c == 'A')) := by
  refine readSwitches_flag Behavior.regionattrib (fun c => c == 'A') ?_ ?_ ?_ ?_ ?_ ?_ ?_ ?_ s b b' h
  · intro c hc
    simp [not_num hc 'A' (by decide)]
  · intros; simp
  · intros; simp
  · intros; simp
  · intros; rfl
  · decide
  · intros; simp
  · intro b c h1 h2 h3 h4
    letterField Behavior.regionattrib

theorem read_quality (s : List Char) (b b' : Behavior) (h : readSwitches s b = .ok b') :
    b'.quality = (b.quality || s.any (fun c => c == 'q' || c == 'a' || c == 'u' || c == 'D' || c == 'L')) := by
  refine readSwitches_flag Behavior.quality (fun c => c == 'q' || c == 'a' || c == 'u' || c == 'D' || c == 'L') ?_ ?_ ?_ ?_ ?_ ?_ ?_ ?_ s b b' h
  · intro c hc
    simp [not_num hc 'q' (by decide), not_num hc 'a' (by decide), not_num hc 'u' (by decide), not_num hc 'D' (by decide), not_num hc 'L' (by decide)]
  · intros; simp
  · intros; simp
  · intros; simp
  · intros; rfl
  · decide
  · intros; simp
  · intro b c h1 h2 h3 h4
    letterField Behavior.quality

theorem read_conformdel (s : List Char) (b b' : Behavior) (h : readSwitches s b = .ok b') :
    b'.conformdel = (b.conformdel || s.any (fun c => c == 'D' || c == 'L')) := by
  refine readSwitches_flag Behavior.conformdel (fun c => c == 'D' || c == 'L') ?_ ?_ ?_ ?_ ?_ ?_ ?_ ?_ s b b' h
  · intro c hc
    simp [not_num hc 'D' (by decide), not_num hc 'L' (by decide)]
  · intros; simp
  · intros; simp
  · intros; simp
  · intros; rfl
  · decide
  · intros; simp
  · intro b c h1 h2 h3 h4
    letterField Behavior.conformdel

theorem read_noiterationnum (s : List Char) (b b' : Behavior) (h : readSwitches s b = .ok b') :
    b'.noiterationnum = b.noiterationnum := by
  have := readSwitches_flag Behavior.noiterationnum (fun _ => false) (by intros; rfl) (by intros; simp)
    (by intros; simp) (by intros; simp) (by intros; rfl) rfl (by intros; simp)
    (by intro b c h1 h2 h3 h4; letterField Behavior.noiterationnum) s b b' h
  rw [this]; simp

theorem foldl_set {α : Type} (d : Char) (v : α) : ∀ (s : List Char) (x : α),
    s.foldl (fun x c => if c = d then v else x) x = if d ∈ s then v else x
  | [], x => by simp
  | c :: s, x => by
    rw [List.foldl_cons, foldl_set d v s]
    by_cases h : d ∈ s
    · simp [h]
    · by_cases hc : c = d
      · simp [hc]
      · simp [h, hc, Ne.symm hc]

theorem read_firstnumber (s : List Char) (b b' : Behavior) (h : readSwitches s b = .ok b') :
    b'.firstnumber = if 'z' ∈ s then 0 else b.firstnumber := by
  rw [← foldl_set]
  refine readSwitches_fold Behavior.firstnumber (fun x c => if c = 'z' then 0 else x) ?_ ?_ ?_ ?_ ?_ ?_ ?_ ?_ s b b' h
  · intro x c hc
    have := not_num hc 'z' (by decide)
    simp at this
    simp [this]
  · intros; simp
  · intros; simp
  · intros; simp
  · intros; rfl
  · intros; simp
  · intros; simp
  · intro b c h1 h2 h3 h4
    letterField Behavior.firstnumber

theorem read_dwyer (s : List Char) (b b' : Behavior) (h : readSwitches s b = .ok b') :
    b'.dwyer = if 'l' ∈ s then false else b.dwyer := by
  rw [← foldl_set]
  refine readSwitches_fold Behavior.dwyer (fun x c => if c = 'l' then false else x) ?_ ?_ ?_ ?_ ?_ ?_ ?_ ?_ s b b' h
  · intro x c hc
    have := not_num hc 'l' (by decide)
    simp at this
    simp [this]
  · intros; simp
  · intros; simp
  · intros; simp
  · intros; rfl
  · intros; simp
  · intros; simp
  · intro b c h1 h2 h3 h4
    letterField Behavior.dwyer

theorem foldl_count (d : Char) : ∀ (s : List Char) (x : Nat),
    s.foldl (fun x c => if c = d then x + 1 else x) x = x + s.count d
  | [], x => by simp
  | c :: s, x => by
    rw [List.foldl_cons, foldl_count d s, List.count_cons]
    by_cases hc : c = d
    · simp [hc]; omega
    · simp [hc]

theorem read_nobisect (s : List Char) (b b' : Behavior) (h : readSwitches s b = .ok b') :
    b'.nobisect = b.nobisect + s.count 'Y' := by
  rw [← foldl_count]
  refine readSwitches_fold Behavior.nobisect (fun x c => if c = 'Y' then x + 1 else x) ?_ ?_ ?_ ?_ ?_ ?_ ?_ ?_ s b b' h
  · intro x c hc
    have := not_num hc 'Y' (by decide)
    simp at this
    simp [this]
  · intros; simp
  · intros; simp
  · intros; simp
  · intros; rfl
  · intros; simp
  · intros; simp
  · intro b c h1 h2 h3 h4
    letterField Behavior.nobisect

theorem read_verbose (s : List Char) (b b' : Behavior) (h : readSwitches s b = .ok b') :
    b'.verbose = b.verbose + s.count 'V' := by
  rw [← foldl_count]
  refine readSwitches_fold Behavior.verbose (fun x c => if c = 'V' then x + 1 else x) ?_ ?_ ?_ ?_ ?_ ?_ ?_ ?_ s b b' h
  · intro x c hc
    have := not_num hc 'V' (by decide)
    simp at this
    simp [this]
  · intros; simp
  · intros; simp
  · intros; simp
  · intros; rfl
  · intros; simp
  · intros; simp
  · intro b c h1 h2 h3 h4
    letterField Behavior.verbose

theorem lastWeight_eq (s : List Char) (x : Nat) :
    s.foldl (fun x c => if c = 'w' then 1 else if c = 'W' then 2 else x) x = lastWeight s x := by
  induction s generalizing x with
  | nil => rfl
  | cons c s ih => rw [List.foldl_cons, ih]; rfl

theorem read_weighted (s : List Char) (b b' : Behavior) (h : readSwitches s b = .ok b') :
    b'.weighted = lastWeight s b.weighted := by
  rw [← lastWeight_eq]
  refine readSwitches_fold Behavior.weighted (fun x c => if c = 'w' then 1 else if c = 'W' then 2 else x)
    ?_ ?_ ?_ ?_ ?_ ?_ ?_ ?_ s b b' h
  · intro x c hc
    have h1 := not_num hc 'w' (by decide)
    have h2 := not_num hc 'W' (by decide)
    simp at h1 h2
    simp [h1, h2]
  · intros; simp
  · intros; simp
  · intros; simp
  · intros; rfl
  · intros; simp
  · intros; simp
  · intro b c h1 h2 h3 h4
    letterField Behavior.weighted

/-- Letters leave the numbers alone. -/
theorem letter_numbers (c : Char) (b : Behavior) : (letter c b).minangle = b.minangle ∧
    (letter c b).maxarea = b.maxarea ∧ (letter c b).steiner = b.steiner ∧ (letter c b).order = b.order ∧
    (letter c b).fixedarea = b.fixedarea ∧ (letter c b).vararea = b.vararea := by
  refine ⟨?_, ?_, ?_, ?_, ?_, ?_⟩
  · simp only [letter, apply_ite Behavior.minangle, ite_self]
  · simp only [letter, apply_ite Behavior.maxarea, ite_self]
  · simp only [letter, apply_ite Behavior.steiner, ite_self]
  · simp only [letter, apply_ite Behavior.order, ite_self]
  · simp only [letter, apply_ite Behavior.fixedarea, ite_self]
  · simp only [letter, apply_ite Behavior.vararea, ite_self]

/-- Without `q` the angle stays. -/
theorem read_minangle_of_not_mem (s : List Char) (b b' : Behavior) (h : readSwitches s b = .ok b')
    (hs : 'q' ∉ s) : b'.minangle = b.minangle := by
  revert b'
  fun_induction readSwitches s b <;> intro b' h
  case case1 => cases h; rfl
  case case2 => exact absurd List.mem_cons_self hs
  case case5 => exact absurd List.mem_cons_self hs
  case case7 s b h0 x hx h2 h1 ih =>
    exact ih (fun hm => hs (List.mem_cons_of_mem _ ((List.dropWhile_suffix _).subset hm))) b' h
  case case10 s b h0 h1 ih => exact ih (fun hm => hs (List.mem_cons_of_mem _ hm)) b' h
  case case11 s b h1 hne hne2 ih =>
    exact ih (fun hm => hs (List.mem_cons_of_mem _ (List.mem_of_mem_tail hm))) b' h
  case case12 s b h1 hne hne2 ih => exact ih (fun hm => hs (List.mem_cons_of_mem _ hm)) b' h
  case case13 s b v hv hne hne2 hne3 ih =>
    exact ih (fun hm => hs (List.mem_cons_of_mem _ ((List.dropWhile_suffix _).subset hm))) b' h
  case case16 c s b h1 h2 h3 h4 ih =>
    rw [ih (fun hm => hs (List.mem_cons_of_mem _ hm)) b' h, (letter_numbers c b).1]
  all_goals cases h

/-- Without `a` the area stays. -/
theorem read_maxarea_of_not_mem (s : List Char) (b b' : Behavior) (h : readSwitches s b = .ok b')
    (hs : 'a' ∉ s) : b'.maxarea = b.maxarea ∧ b'.fixedarea = b.fixedarea ∧ b'.vararea = b.vararea := by
  revert b'
  fun_induction readSwitches s b <;> intro b' h
  case case1 => cases h; exact ⟨rfl, rfl, rfl⟩
  case case2 s b h1 x hx ih =>
    exact ih (fun hm => hs (List.mem_cons_of_mem _ ((List.dropWhile_suffix _).subset hm))) b' h
  case case5 s b h1 ih => exact ih (fun hm => hs (List.mem_cons_of_mem _ hm)) b' h
  case case7 => exact absurd List.mem_cons_self hs
  case case10 => exact absurd List.mem_cons_self hs
  case case11 s b h1 hne hne2 ih =>
    exact ih (fun hm => hs (List.mem_cons_of_mem _ (List.mem_of_mem_tail hm))) b' h
  case case12 s b h1 hne hne2 ih => exact ih (fun hm => hs (List.mem_cons_of_mem _ hm)) b' h
  case case13 s b v hv hne hne2 hne3 ih =>
    exact ih (fun hm => hs (List.mem_cons_of_mem _ ((List.dropWhile_suffix _).subset hm))) b' h
  case case16 c s b h1 h2 h3 h4 ih =>
    obtain ⟨e1, e2, e3⟩ := ih (fun hm => hs (List.mem_cons_of_mem _ hm)) b' h
    exact ⟨e1.trans (letter_numbers c b).2.1, e2.trans (letter_numbers c b).2.2.2.2.1,
      e3.trans (letter_numbers c b).2.2.2.2.2⟩
  all_goals cases h

/-- Without `S` the number of Steiner points stays. -/
theorem read_steiner_of_not_mem (s : List Char) (b b' : Behavior) (h : readSwitches s b = .ok b')
    (hs : 'S' ∉ s) : b'.steiner = b.steiner := by
  revert b'
  fun_induction readSwitches s b <;> intro b' h
  case case1 => cases h; rfl
  case case2 s b h1 x hx ih =>
    exact ih (fun hm => hs (List.mem_cons_of_mem _ ((List.dropWhile_suffix _).subset hm))) b' h
  case case5 s b h1 ih => exact ih (fun hm => hs (List.mem_cons_of_mem _ hm)) b' h
  case case7 s b h0 x hx h2 h1 ih =>
    exact ih (fun hm => hs (List.mem_cons_of_mem _ ((List.dropWhile_suffix _).subset hm))) b' h
  case case10 s b h0 h1 ih => exact ih (fun hm => hs (List.mem_cons_of_mem _ hm)) b' h
  case case11 s b h1 hne hne2 ih =>
    exact ih (fun hm => hs (List.mem_cons_of_mem _ (List.mem_of_mem_tail hm))) b' h
  case case12 s b h1 hne hne2 ih => exact ih (fun hm => hs (List.mem_cons_of_mem _ hm)) b' h
  case case13 => exact absurd List.mem_cons_self hs
  case case16 c s b h1 h2 h3 h4 ih =>
    rw [ih (fun hm => hs (List.mem_cons_of_mem _ hm)) b' h, (letter_numbers c b).2.2.1]
  all_goals cases h

end Delynoi.Tri
