import Verif.Proofs.TriSwitch2
/-!
# C133: Triangle's switches
-/
namespace Delynoi.Tri

/-- The last two corrections do not touch the other fields. -/
theorem adjust_fields (b : Behavior) :
    (adjust b).poly = b.poly ∧
    (adjust b).refine = b.refine ∧
    (adjust b).usertest = b.usertest ∧
    (adjust b).convex = b.convex ∧
    (adjust b).jettison = b.jettison ∧
    (adjust b).edgesout = b.edgesout ∧
    (adjust b).voronoi = b.voronoi ∧
    (adjust b).neighbors = b.neighbors ∧
    (adjust b).geomview = b.geomview ∧
    (adjust b).nobound = b.nobound ∧
    (adjust b).nopolywritten = b.nopolywritten ∧
    (adjust b).nonodewritten = b.nonodewritten ∧
    (adjust b).noelewritten = b.noelewritten ∧
    (adjust b).noholes = b.noholes ∧
    (adjust b).noexact = b.noexact ∧
    (adjust b).incremental = b.incremental ∧
    (adjust b).sweepline = b.sweepline ∧
    (adjust b).splitseg = b.splitseg ∧
    (adjust b).docheck = b.docheck ∧
    (adjust b).quiet = b.quiet ∧
    (adjust b).quality = b.quality ∧
    (adjust b).conformdel = b.conformdel ∧
    (adjust b).dwyer = b.dwyer ∧
    (adjust b).firstnumber = b.firstnumber ∧
    (adjust b).order = b.order ∧
    (adjust b).nobisect = b.nobisect ∧
    (adjust b).verbose = b.verbose ∧
    (adjust b).steiner = b.steiner ∧
    (adjust b).minangle = b.minangle ∧
    (adjust b).maxarea = b.maxarea ∧
    (adjust b).fixedarea = b.fixedarea := by
  unfold adjust
  simp only
  split_ifs <;> exact ⟨rfl, rfl, rfl, rfl, rfl, rfl, rfl, rfl, rfl, rfl, rfl, rfl, rfl, rfl, rfl, rfl, rfl, rfl, rfl, rfl, rfl, rfl, rfl, rfl, rfl, rfl, rfl, rfl, rfl, rfl, rfl⟩

/-- C133: for every string that is accepted, a switch is on exactly if its letter occurs in the
string, wherever it occurs and whatever numbers stand before it. -/
theorem C133_flags (s : List Char) (b : Behavior) (h : parsecommandline s = .ok b) :
    (b.poly = true ↔ 'p' ∈ s) ∧
    (b.refine = true ↔ 'r' ∈ s) ∧
    (b.usertest = true ↔ 'u' ∈ s) ∧
    (b.convex = true ↔ 'c' ∈ s) ∧
    (b.jettison = true ↔ 'j' ∈ s) ∧
    (b.edgesout = true ↔ 'e' ∈ s) ∧
    (b.voronoi = true ↔ 'v' ∈ s) ∧
    (b.neighbors = true ↔ 'n' ∈ s) ∧
    (b.geomview = true ↔ 'g' ∈ s) ∧
    (b.nobound = true ↔ 'B' ∈ s) ∧
    (b.nopolywritten = true ↔ 'P' ∈ s) ∧
    (b.nonodewritten = true ↔ 'N' ∈ s) ∧
    (b.noelewritten = true ↔ 'E' ∈ s) ∧
    (b.noholes = true ↔ 'O' ∈ s) ∧
    (b.noexact = true ↔ 'X' ∈ s) ∧
    (b.incremental = true ↔ 'i' ∈ s) ∧
    (b.sweepline = true ↔ 'F' ∈ s) ∧
    (b.splitseg = true ↔ 's' ∈ s) ∧
    (b.docheck = true ↔ 'C' ∈ s) ∧
    (b.quiet = true ↔ 'Q' ∈ s) ∧
    (b.quality = true ↔ 'q' ∈ s ∨ 'a' ∈ s ∨ 'u' ∈ s ∨ 'D' ∈ s ∨ 'L' ∈ s) ∧
    (b.conformdel = true ↔ 'D' ∈ s ∨ 'L' ∈ s) := by
  obtain ⟨b0, h0, rfl⟩ := parse_ok h
  obtain ⟨e0, e1, e2, e3, e4, e5, e6, e7, e8, e9, e10, e11, e12, e13, e14, e15, e16, e17, e18, e19, e20, e21, -⟩ := adjust_fields b0
  refine ⟨?_, ?_, ?_, ?_, ?_, ?_, ?_, ?_, ?_, ?_, ?_, ?_, ?_, ?_, ?_, ?_, ?_, ?_, ?_, ?_, ?_, ?_⟩
  · rw [e0, read_poly s _ b0 h0]; simp [Behavior.init]
  · rw [e1, read_refine s _ b0 h0]; simp [Behavior.init]
  · rw [e2, read_usertest s _ b0 h0]; simp [Behavior.init]
  · rw [e3, read_convex s _ b0 h0]; simp [Behavior.init]
  · rw [e4, read_jettison s _ b0 h0]; simp [Behavior.init]
  · rw [e5, read_edgesout s _ b0 h0]; simp [Behavior.init]
  · rw [e6, read_voronoi s _ b0 h0]; simp [Behavior.init]
  · rw [e7, read_neighbors s _ b0 h0]; simp [Behavior.init]
  · rw [e8, read_geomview s _ b0 h0]; simp [Behavior.init]
  · rw [e9, read_nobound s _ b0 h0]; simp [Behavior.init]
  · rw [e10, read_nopolywritten s _ b0 h0]; simp [Behavior.init]
  · rw [e11, read_nonodewritten s _ b0 h0]; simp [Behavior.init]
  · rw [e12, read_noelewritten s _ b0 h0]; simp [Behavior.init]
  · rw [e13, read_noholes s _ b0 h0]; simp [Behavior.init]
  · rw [e14, read_noexact s _ b0 h0]; simp [Behavior.init]
  · rw [e15, read_incremental s _ b0 h0]; simp [Behavior.init]
  · rw [e16, read_sweepline s _ b0 h0]; simp [Behavior.init]
  · rw [e17, read_splitseg s _ b0 h0]; simp [Behavior.init]
  · rw [e18, read_docheck s _ b0 h0]; simp [Behavior.init]
  · rw [e19, read_quiet s _ b0 h0]; simp [Behavior.init]
  · rw [e20, read_quality s _ b0 h0]; simp only [Behavior.init, Bool.false_or, any_or, Bool.or_eq_true, any_mem, or_assoc]
  · rw [e21, read_conformdel s _ b0 h0]; simp only [Behavior.init, Bool.false_or, any_or, Bool.or_eq_true, any_mem, or_assoc]

/-- C133: numbering starts at 0 exactly with `z`; alternating cuts are off exactly with `l`; `Y`
and `V` are counted; second-order elements need `o` directly followed by `2`. -/
theorem C133_counts (s : List Char) (b : Behavior) (h : parsecommandline s = .ok b) :
    b.firstnumber = (if 'z' ∈ s then 0 else 1) ∧ (b.dwyer = false ↔ 'l' ∈ s) ∧
    b.nobisect = s.count 'Y' ∧ b.verbose = s.count 'V' ∧
    (b.order = 2 ↔ Next 'o' '2' s) ∧ (b.order = 1 ↔ ¬ Next 'o' '2' s) := by
  obtain ⟨b0, h0, rfl⟩ := parse_ok h
  obtain ⟨-, -, -, -, -, -, -, -, -, -, -, -, -, -, -, -, -, -, -, -, -, -, e1, e2, e3, e4, e5, -⟩ := adjust_fields b0
  rw [e1, e2, e3, e4, e5, read_firstnumber s _ b0 h0, read_dwyer s _ b0 h0, read_nobisect s _ b0 h0,
    read_verbose s _ b0 h0, read_order s _ b0 h0]
  by_cases hp : Next 'o' '2' s <;> simp [Behavior.init, hp]

theorem adjust_dependent (b : Behavior) :
    (adjust b).usesegments = (b.poly || b.refine || b.quality || b.convex) ∧
    (adjust b).regionattrib = (b.regionattrib && b.poly && !b.refine) ∧
    (adjust b).vararea = (b.vararea && (b.poly || b.refine)) ∧
    (adjust b).fixedarea = b.fixedarea ∧ (adjust b).quality = b.quality ∧
    (adjust b).weighted = (if b.poly = true ∨ b.quality = true then 0 else b.weighted) := by
  refine ⟨?_, ?_, ?_, ?_, ?_, ?_⟩
  · unfold adjust; simp only; split_ifs <;> rfl
  · cases hr : b.refine <;> cases hp : b.poly <;> simp [adjust, hr, hp] <;> split_ifs <;> rfl
  · cases hr : b.refine <;> cases hp : b.poly <;> simp [adjust, hr, hp] <;> split_ifs <;> rfl
  · unfold adjust; simp only; split_ifs <;> rfl
  · unfold adjust; simp only; split_ifs <;> rfl
  · by_cases hw : b.weighted = 0
    · cases hr : b.refine <;> cases hp : b.poly <;> cases hq : b.quality <;> simp [adjust, hr, hp, hq, hw]
    · cases hr : b.refine <;> cases hp : b.poly <;> cases hq : b.quality <;> simp [adjust, hr, hp, hq, hw]

/-- C133: the fields that depend on each other.  Segments are used with any of `p`, `r`, `c` and the
quality switches; regional attributes only for a polygon that is not refined; weights only without
polygon and quality; a variable area bound needs an `a` without a number. -/
theorem C133_dependent (s : List Char) (b : Behavior) (h : parsecommandline s = .ok b) :
    (b.usesegments = true ↔ 'p' ∈ s ∨ 'r' ∈ s ∨ 'q' ∈ s ∨ 'a' ∈ s ∨ 'u' ∈ s ∨ 'D' ∈ s ∨ 'L' ∈ s ∨ 'c' ∈ s) ∧
    (b.regionattrib = true ↔ 'A' ∈ s ∧ 'p' ∈ s ∧ 'r' ∉ s) ∧
    (b.vararea = true ↔ BareArea s ∧ ('p' ∈ s ∨ 'r' ∈ s)) ∧
    (b.fixedarea = true ↔ AreaNumber s) ∧
    ('p' ∈ s ∨ b.quality = true → b.weighted = 0) ∧
    ('p' ∉ s → b.quality = false → b.weighted = lastWeight s 0) := by
  obtain ⟨b0, h0, rfl⟩ := parse_ok h
  have a1 : b0.poly = true ↔ 'p' ∈ s := by rw [read_poly s _ b0 h0]; simp [Behavior.init]
  have a2 : b0.refine = true ↔ 'r' ∈ s := by rw [read_refine s _ b0 h0]; simp [Behavior.init]
  have a3 : b0.convex = true ↔ 'c' ∈ s := by rw [read_convex s _ b0 h0]; simp [Behavior.init]
  have a4 : b0.quality = true ↔ 'q' ∈ s ∨ 'a' ∈ s ∨ 'u' ∈ s ∨ 'D' ∈ s ∨ 'L' ∈ s := by
    rw [read_quality s _ b0 h0]; simp only [Behavior.init, Bool.false_or, any_or, Bool.or_eq_true, any_mem, or_assoc]
  have a5 : b0.regionattrib = true ↔ 'A' ∈ s := by rw [read_regionattrib s _ b0 h0]; simp [Behavior.init]
  have a6 : b0.vararea = true ↔ BareArea s := by
    rw [read_vararea s _ b0 h0]; by_cases hb : BareArea s <;> simp [Behavior.init, hb]
  have a7 : b0.fixedarea = true ↔ AreaNumber s := by
    rw [read_fixedarea s _ b0 h0]; by_cases hb : AreaNumber s <;> simp [Behavior.init, hb]
  have a8 : b0.weighted = lastWeight s 0 := read_weighted s _ b0 h0
  obtain ⟨k1, k2, k3, k4, k5, k6⟩ := adjust_dependent b0
  rw [k1, k2, k3, k4, k5, k6, a7]
  refine ⟨?_, ?_, ?_, Iff.rfl, ?_, ?_⟩
  · simp only [Bool.or_eq_true, a1, a2, a3, a4, or_assoc]
  · rw [Bool.and_eq_true, Bool.and_eq_true, a5, a1, Bool.not_eq_true', ← Bool.not_eq_true, a2, and_assoc]
  · rw [Bool.and_eq_true, Bool.or_eq_true, a6, a1, a2]
  · intro hq; rw [if_pos (by rw [a1]; exact hq)]
  · intro hp hq; rw [if_neg (by rw [a1, hq]; simpa using hp), a8]

/-- C133: the last `q` decides about the angle: the number behind it, or 20 degrees. -/
theorem C133_angle (s1 w s2 : List Char) (b : Behavior)
    (h : parsecommandline (s1 ++ 'q' :: (w ++ s2)) = .ok b) (hw : ∀ c ∈ w, numeric c = true)
    (h2 : ∀ c, s2.head? = some c → numeric c = false) (hq : 'q' ∉ s2) :
    b.minangle = if w = [] then 20 else atof w := by
  rw [isNum_eq] at hw h2
  obtain ⟨b0, h0, rfl⟩ := parse_ok h
  have e : (adjust b0).minangle = b0.minangle := by
    unfold adjust; simp only; split_ifs <;> rfl
  rw [e]
  rw [readSwitches_append _ (by intro c hc; simp at hc; subst hc; decide)] at h0
  cases h1 : readSwitches s1 Behavior.init with
  | exn => rw [h1] at h0; cases h0
  | ub => rw [h1] at h0; cases h0
  | ok b1 =>
    rw [h1, Outcome.bind_ok, readSwitches] at h0
    obtain ⟨e1, e2⟩ := takeWhile_number isNum w s2 hw h2
    simp only [e1, e2, if_true] at h0
    by_cases hn : w = []
    · subst hn
      simp only [ne_eq, not_true_eq_false, if_false, List.nil_append] at h0
      rw [read_minangle_of_not_mem _ _ b0 h0 hq]; simp
    · simp only [ne_eq, hn, not_false_eq_true, if_true] at h0
      unfold workNumber at h0
      split at h0
      · rename_i x hx
        split at hx
        · cases hx
          rw [read_minangle_of_not_mem _ _ b0 h0 hq]; simp [hn]
        · cases hx
      · cases h0
      · cases h0

/-- C133: without `q` there is no bound on the angles. -/
theorem C133_no_angle (s : List Char) (b : Behavior) (h : parsecommandline s = .ok b) (hq : 'q' ∉ s) :
    b.minangle = 0 := by
  obtain ⟨b0, h0, rfl⟩ := parse_ok h
  have e : (adjust b0).minangle = b0.minangle := by
    unfold adjust; simp only; split_ifs <;> rfl
  rw [e, read_minangle_of_not_mem _ _ b0 h0 hq]; rfl

/-- C133: the last `a` that has a number decides about the area, which is positive. -/
theorem C133_area (s1 w s2 : List Char) (b : Behavior)
    (h : parsecommandline (s1 ++ 'a' :: (w ++ s2)) = .ok b) (hw : ∀ c ∈ w, numeric c = true) (hn : w ≠ [])
    (h2 : ∀ c, s2.head? = some c → numeric c = false) (hq : 'a' ∉ s2) :
    b.maxarea = atof w ∧ 0 < b.maxarea := by
  rw [isNum_eq] at hw h2
  obtain ⟨b0, h0, rfl⟩ := parse_ok h
  have e : (adjust b0).maxarea = b0.maxarea := by
    unfold adjust; simp only; split_ifs <;> rfl
  rw [e]
  rw [readSwitches_append _ (by intro c hc; simp at hc; subst hc; decide)] at h0
  cases h1 : readSwitches s1 Behavior.init with
  | exn => rw [h1] at h0; cases h0
  | ub => rw [h1] at h0; cases h0
  | ok b1 =>
    rw [h1, Outcome.bind_ok, readSwitches] at h0
    obtain ⟨e1, e2⟩ := takeWhile_number isNum w s2 hw h2
    simp only [e1, e2, if_true, show ¬ 'a' = 'q' by decide, if_false, ne_eq, hn, not_false_eq_true] at h0
    unfold workNumber at h0
    split at h0
    · rename_i x hx
      split at hx
      · cases hx
        split at h0
        · cases h0
        · rename_i hpos
          rw [(read_maxarea_of_not_mem _ _ b0 h0 hq).1]
          exact ⟨rfl, lt_of_not_ge hpos⟩
      · cases hx
    · cases h0
    · cases h0

/-- C133: without `a` there is no bound on the area. -/
theorem C133_no_area (s : List Char) (b : Behavior) (h : parsecommandline s = .ok b) (hq : 'a' ∉ s) :
    b.maxarea = -1 := by
  obtain ⟨b0, h0, rfl⟩ := parse_ok h
  have e : (adjust b0).maxarea = b0.maxarea := by
    unfold adjust; simp only; split_ifs <;> rfl
  rw [e, (read_maxarea_of_not_mem _ _ b0 h0 hq).1]; rfl

/-- C133: the last `S` limits the Steiner points to the number behind it (0 without digits); without
`S` there is no limit. -/
theorem C133_steiner (s1 w s2 : List Char) (b : Behavior)
    (h : parsecommandline (s1 ++ 'S' :: (w ++ s2)) = .ok b) (hw : ∀ c ∈ w, c.isDigit = true)
    (h2 : ∀ c, s2.head? = some c → c.isDigit = false) (hq : 'S' ∉ s2) :
    b.steiner = digitsVal w := by
  obtain ⟨b0, h0, rfl⟩ := parse_ok h
  have e : (adjust b0).steiner = b0.steiner := by
    unfold adjust; simp only; split_ifs <;> rfl
  rw [e]
  rw [readSwitches_append _ (by intro c hc; simp at hc; subst hc; decide)] at h0
  cases h1 : readSwitches s1 Behavior.init with
  | exn => rw [h1] at h0; cases h0
  | ub => rw [h1] at h0; cases h0
  | ok b1 =>
    rw [h1, Outcome.bind_ok, readSwitches] at h0
    obtain ⟨e1, e2⟩ := takeWhile_number Char.isDigit w s2 hw h2
    simp only [e1, e2, if_true, show ¬ 'S' = 'q' by decide, show ¬ 'S' = 'a' by decide,
      show ¬ 'S' = 'o' by decide, if_false] at h0
    split at h0
    · rename_i v hv
      rw [read_steiner_of_not_mem _ _ b0 h0 hq, steinerNumber_ok _ _ _ hv]
      exact foldl_digits w hw 0
    · cases h0
    · cases h0

/-- C133: without `S` there is no limit. -/
theorem C133_no_steiner (s : List Char) (b : Behavior) (h : parsecommandline s = .ok b) (hq : 'S' ∉ s) :
    b.steiner = -1 := by
  obtain ⟨b0, h0, rfl⟩ := parse_ok h
  have e : (adjust b0).steiner = b0.steiner := by
    unfold adjust; simp only; split_ifs <;> rfl
  rw [e, read_steiner_of_not_mem _ _ b0 h0 hq]; rfl

/-- C133: reading is safe if no number has 2048 characters and no number of Steiner points more
than nine digits; the only way to end the process is then an area that is not positive. -/
theorem C133_safe_partial (s : List Char)
    (h1 : ∀ w, w <:+: s → (∀ c ∈ w, numeric c = true) → w.length < 2048)
    (h2 : ∀ w, 'S' :: w <:+: s → (∀ c ∈ w, c.isDigit = true) → w.length ≤ 9) :
    (∃ b, parsecommandline s = .ok b) ∨
    (parsecommandline s = .exn ∧ ∃ s1 w s2, s = s1 ++ 'a' :: w ++ s2 ∧ w ≠ [] ∧ (∀ c ∈ w, numeric c = true) ∧
      (∀ c, s2.head? = some c → numeric c = false) ∧ atof w ≤ 0) := by
  rw [isNum_eq] at h1 ⊢
  unfold parsecommandline
  cases hr : readSwitches s Behavior.init with
  | ok b0 =>
    have hn : b0.noiterationnum = false := read_noiterationnum s _ b0 hr
    exact Or.inl ⟨adjust b0, by simp [hn]⟩
  | exn => exact Or.inr ⟨rfl, readSwitches_exn s _ hr⟩
  | ub => exact absurd hr (readSwitches_safe s _ h1 h2)

/-- C133: in general it is not: a long number is written behind `workstring`. -/
theorem C133_safe_refuted : ¬ ∀ s : List Char, parsecommandline s ≠ .ub := by
  intro h
  refine h ('q' :: List.replicate 2048 '1') ?_
  have e : (List.replicate 2048 '1').takeWhile isNum = List.replicate 2048 '1' :=
    List.takeWhile_eq_self_iff.2 (fun c hc => by rw [List.eq_of_mem_replicate hc]; decide)
  have hr : readSwitches ('q' :: List.replicate 2048 '1') Behavior.init = .ub := by
    rw [readSwitches]
    simp only [if_true, e]
    rw [if_pos (by
      intro hh
      have := congrArg List.length hh
      rw [List.length_replicate] at this
      cases this)]
    have : workNumber (List.replicate 2048 '1') = .ub := by
      unfold workNumber fileNameSize
      rw [List.length_replicate]; rfl
    rw [this]
  unfold parsecommandline
  rw [hr]; rfl

/-- TriangleDelaunayGenerator.cpp:146, 188: the switches of the conforming triangulation. -/
def conformingSwitches : List Char := ['p', 'z', 'e', 'j', 'D', 'Q']

/-- TriangleDelaunayGenerator.cpp:197, 207: the switches of the constrained triangulation. -/
def constrainedSwitches : List Char := ['p', 'z', 'e', 'j', 'Q']

/-- C133: the two strings the library uses. Both read a polygon, number from 0, write edges, markers,
nodes and elements of three corners, drop unused vertices, keep exact arithmetic and add no
attributes or weights; only the first one adds vertices for the Delaunay property, without limit and
without bounds on angle and area. -/
theorem C133_library :
    parsecommandline constrainedSwitches = .ok { Behavior.init with
      poly := true, firstnumber := 0, edgesout := true, jettison := true, quiet := true, usesegments := true } ∧
    parsecommandline conformingSwitches = .ok { Behavior.init with
      poly := true, firstnumber := 0, edgesout := true, jettison := true, quiet := true, usesegments := true,
      quality := true, conformdel := true } := by
  constructor <;> decide +kernel

/-- A string with numbers in it, `pq30.5a.25S12Qo2`. -/
example : ∃ b, parsecommandline ['p', 'q', '3', '0', '.', '5', 'a', '.', '2', '5', 'S', '1', '2', 'Q', 'o', '2'] = .ok b ∧
    b.minangle = 61 / 2 ∧ b.maxarea = 1 / 4 ∧ b.steiner = 12 ∧ b.order = 2 ∧ b.quiet = true := by
  refine ⟨{ Behavior.init with
    poly := true, quality := true, minangle := 61 / 2, maxarea := 1 / 4, fixedarea := true,
    steiner := 12, quiet := true, order := 2, usesegments := true }, ?_, rfl, rfl, rfl, rfl, rfl⟩
  decide +kernel

/-- The hypotheses of `C133_safe_partial` hold for the library's strings. -/
example : ∃ b, parsecommandline conformingSwitches = .ok b := by
  rcases C133_safe_partial conformingSwitches
    (fun w hw _ => lt_of_le_of_lt hw.length_le (by decide))
    (fun w hw _ => by have := hw.length_le; simp [conformingSwitches] at this; omega) with h | ⟨h, -⟩
  · exact h
  · rw [C133_library.2] at h; cases h

end Delynoi.Tri
