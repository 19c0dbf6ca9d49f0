import Verif.Proofs.Files
import Verif.Props.Text
/-!
# Properties C101-C103: the files written for Triangle, for regions and for maps
-/
set_option linter.unusedSectionVars false
namespace Delynoi

/-! ### C101 -/

/-- The ends of a segment, translated by `regionIndex`. -/
def Translates (idx : List Int) (s : ISeg) (e : Int × Int) : Prop :=
  (0 ≤ s.p1 ∧ idx[s.p1.toNat]? = some e.1) ∧ 0 ≤ s.p2 ∧ idx[s.p2.toNat]? = some e.2

theorem translates_iff (idx : List Int) (s : ISeg) (e : Int × Int) :
    Translates idx s e ↔ vecGet idx s.p1 = .ok e.1 ∧ vecGet idx s.p2 = .ok e.2 := by
  rw [vecGet_ok_iff, vecGet_ok_iff]; rfl

theorem write_of_segments (points : List (Pt ℚ)) (r : Region ℚ) (idx : List Int)
    (es : List (Int × Int)) (h : List.Forall₂ (Translates idx) r.getSegments es) :
    ∃ (s : List Char) (f : PolyFile), writeTriangleInputFile points r idx = .ok s ∧ f.Text s ∧
      List.Forall₂ (fun p : Pt ℚ => SixPoint p.x p.y) points f.vertices ∧ f.segments = es ∧
      List.Forall₂ (fun h : Hole ℚ => SixPoint h.center.x h.center.y) r.holes f.holes := by
  have h' : List.Forall₂ (fun (s : ISeg) (e : Int × Int) =>
      vecGet idx s.p1 = .ok e.1 ∧ vecGet idx s.p2 = .ok e.2) r.getSegments es :=
    h.imp (fun s e => (translates_iff idx s e).1)
  have hlen := h.length_eq
  unfold writeTriangleInputFile
  simp only
  obtain ⟨vs, qs, a1, a2, a3⟩ := numberedPoints_lines points
    (((OStream.new.putN points.length).putS " 2 0 0".toList).endl) 0
  rw [a1]
  obtain ⟨ss, b1, b2⟩ := numberedSegments_lines idx r.getSegments
    (((((((OStream.new.putN points.length).putS " 2 0 0".toList).endl).putS (unlines vs)).putN
      r.getSegments.length).putS " 0".toList).endl) 0 es h'
  rw [b1, Outcome.bind_ok]
  obtain ⟨hs, cs, c1, c2, c3⟩ := numberedPoints_lines (r.holes.map Hole.center)
    ((((((((((OStream.new.putN points.length).putS " 2 0 0".toList).endl).putS (unlines vs)).putN
      r.getSegments.length).putS " 0".toList).endl).putS (unlines ss)).putN r.holes.length).endl) 0
  rw [c1]
  rw [List.forall₂_map_left_iff] at c3
  have tok : ∀ c : Char, NumChar c → ∀ d ∈ [c], NumChar d := by
    intro c hc d hd; simp at hd; subst hd; exact hc
  have hdig : ∀ c : Char, c.isDigit = true → NumChar c := fun c h => Or.inl h
  have w1 := words_numChars [intText (points.length : Int), ['2'], ['0'], ['0']]
    (by intro t ht; simp at ht; rcases ht with rfl | rfl | rfl | rfl
        · exact intText_ne _
        all_goals simp)
    (by intro t ht; simp only [List.mem_cons, List.not_mem_nil, or_false] at ht
        rcases ht with rfl | rfl | rfl | rfl
        · exact intText_numChars _
        all_goals exact tok _ (hdig _ (by decide)))
  have w2 := words_numChars [intText (es.length : Int), ['0']]
    (by intro t ht; simp at ht; rcases ht with rfl | rfl
        · exact intText_ne _
        · simp)
    (by intro t ht; simp only [List.mem_cons, List.not_mem_nil, or_false] at ht
        rcases ht with rfl | rfl
        · exact intText_numChars _
        · exact tok _ (hdig _ (by decide)))
  have w3 := words_numChars [intText (r.holes.length : Int)]
    (by intro t ht; simp at ht; subst ht; exact intText_ne _)
    (by intro t ht; simp at ht; subst ht; exact intText_numChars _)
  refine ⟨_, ⟨qs, es, cs⟩, rfl, ?_, a3, rfl, c3⟩
  refine ⟨unwords [intText (points.length : Int), ['2'], ['0'], ['0']],
    unwords [intText (es.length : Int), ['0']], unwords [intText (r.holes.length : Int)], vs, ss, hs,
    ?_, ⟨w1.2, ?_⟩, by exact_mod_cast a2, ⟨w2.2, w2.1⟩, by exact_mod_cast b2, ⟨w3.2, ?_⟩,
    by exact_mod_cast c2⟩
  · unfold OStream.endl OStream.putN OStream.new
    simp only [putS_putS, intText_nat, hlen, unlines_append, unlines_cons]
    simp [OStream.putS, unwords]
  · simp only [← a3.length_eq]; exact w1.1
  · simp only [← c3.length_eq]; exact w3.1

/-- C101: the file written for Triangle is a `.poly` file whose vertices are the given points and
whose holes are the centers of the holes of the region, both rounded to six significant digits,
and whose segments are those of the region, translated by `regionIndex`. -/
theorem C101_file (points : List (Pt ℚ)) (r : Region ℚ) (hw : r.WF) (idx : List Int)
    (hi : r.getRegionPoints.length ≤ idx.length) :
    ∃ (s : List Char) (f : PolyFile), writeTriangleInputFile points r idx = .ok s ∧ f.Text s ∧
      List.Forall₂ (fun p : Pt ℚ => SixPoint p.x p.y) points f.vertices ∧
      List.Forall₂ (Translates idx) r.getSegments f.segments ∧
      List.Forall₂ (fun h : Hole ℚ => SixPoint h.center.x h.center.y) r.holes f.holes := by
  have key : ∀ ss : List ISeg, (∀ s ∈ ss, (0 ≤ s.p1 ∧ s.p1 < r.getRegionPoints.length) ∧
      0 ≤ s.p2 ∧ s.p2 < r.getRegionPoints.length) → ∃ es, List.Forall₂ (Translates idx) ss es := by
    intro ss
    induction ss with
    | nil => intro _; exact ⟨[], .nil⟩
    | cons s ss ih =>
      intro h
      obtain ⟨es, hes⟩ := ih (fun s hs => h s (by simp [hs]))
      obtain ⟨⟨h1, h2⟩, h3, h4⟩ := h s (by simp)
      exact ⟨(idx[s.p1.toNat]'(by omega), idx[s.p2.toNat]'(by omega)) :: es,
        .cons ⟨⟨h1, List.getElem?_eq_getElem _⟩, h3, List.getElem?_eq_getElem _⟩ hes⟩
  obtain ⟨es, hes⟩ := key r.getSegments (fun s hs => C48_indices_valid r hw s hs)
  obtain ⟨s, f, h1, h2, h3, h4, h5⟩ := write_of_segments points r idx es hes
  exact ⟨s, f, h1, h2, h3, by rw [h4]; exact hes, h5⟩

/-- C101: if `regionIndex` says where in the list of points the points of the region are, the
segments in the file join the same points as the segments of the region. -/
theorem C101_same_segments (points : List (Pt ℚ)) (r : Region ℚ) (idx : List Int)
    (hi : ∀ (k : Nat) (v : Int), idx[k]? = some v →
      0 ≤ v ∧ points[v.toNat]? = r.getRegionPoints[k]? ∧ k < r.getRegionPoints.length)
    (es : List (Int × Int)) (h : List.Forall₂ (Translates idx) r.getSegments es) :
    es.map (fun e => (points[e.1.toNat]?, points[e.2.toNat]?)) =
      r.getSegments.map (fun s => (r.getRegionPoints[s.p1.toNat]?, r.getRegionPoints[s.p2.toNat]?)) ∧
    ∀ e ∈ es, (0 ≤ e.1 ∧ e.1 < points.length) ∧ 0 ≤ e.2 ∧ e.2 < points.length := by
  have hb : ∀ (k : Nat) (v : Int), idx[k]? = some v → 0 ≤ v ∧ v < points.length := by
    intro k v hv
    obtain ⟨h1, h2, h3⟩ := hi k v hv
    rw [List.getElem?_eq_getElem h3] at h2
    have := (List.getElem?_eq_some_iff.1 h2).1
    exact ⟨h1, by omega⟩
  generalize r.getSegments = ss at h
  induction h with
  | nil => exact ⟨rfl, by simp⟩
  | @cons s e ss es h1 _ ih =>
    obtain ⟨⟨_, a⟩, _, b⟩ := h1
    refine ⟨?_, ?_⟩
    · rw [List.map_cons, List.map_cons, ih.1, (hi _ _ a).2.1, (hi _ _ b).2.1]
    · intro e' he'
      rcases List.mem_cons.1 he' with rfl | he'
      · exact ⟨hb _ _ a, hb _ _ b⟩
      · exact ih.2 e' he'

/-- C101: a `.poly` text has only one meaning. -/
theorem C101_unambiguous (f g : PolyFile) (s : List Char) (hf : f.Text s) (hg : g.Text s) : f = g := by
  obtain ⟨h1, h2, h3, vs, ss, hs, e, ⟨a1, a2⟩, a3, ⟨b1, b2⟩, b3, ⟨c1, c2⟩, c3⟩ := hf
  obtain ⟨h1', h2', h3', vs', ss', hs', e', ⟨a1', a2'⟩, a3', ⟨b1', b2'⟩, b3', ⟨c1', c2'⟩, c3'⟩ := hg
  have lines : ∀ {h1 h2 h3 : List Char} {vs ss hs : List (List Char)}, IsLine h1 → IsLine h2 → IsLine h3 →
      (∀ l ∈ vs, IsLine l) → (∀ l ∈ ss, IsLine l) → (∀ l ∈ hs, IsLine l) →
      ∀ l ∈ (h1 :: vs) ++ (h2 :: ss) ++ (h3 :: hs), IsLine l := by
    intro h1 h2 h3 vs ss hs x1 x2 x3 y1 y2 y3 l hl
    simp only [List.mem_append, List.mem_cons] at hl
    rcases hl with (((rfl | h) | rfl | h) | rfl | h)
    · exact x1
    · exact y1 l h
    · exact x2
    · exact y2 l h
    · exact x3
    · exact y3 l h
  have key := unlines_inj (lines a1 b1 c1 a3.lines.2 b3.lines.2 c3.lines.2)
    (lines a1' b1' c1' a3'.lines.2 b3'.lines.2 c3'.lines.2) (e.symm.trans e')
  rw [List.append_assoc, List.append_assoc] at key
  simp only [List.cons_append] at key
  obtain ⟨k1, key2⟩ := List.cons.inj key
  clear key
  subst k1
  have n1 := intText_inj (List.cons.inj (words_unique a2 a2')).1
  have l1 : vs.length = vs'.length := by rw [a3.lines.1, a3'.lines.1]; exact_mod_cast n1
  obtain ⟨k2, key3⟩ := List.append_inj key2 l1
  clear key2
  subst k2
  obtain ⟨k3, key4⟩ := List.cons.inj key3
  clear key3
  subst k3
  have n2 := intText_inj (List.cons.inj (words_unique b2 b2')).1
  have l2 : ss.length = ss'.length := by rw [b3.lines.1, b3'.lines.1]; exact_mod_cast n2
  obtain ⟨k4, key5⟩ := List.append_inj key4 l2
  clear key4
  subst k4
  obtain ⟨_, k6⟩ := List.cons.inj key5
  subst k6
  obtain ⟨v, sg, h⟩ := f
  obtain ⟨v', sg', h'⟩ := g
  rw [PolyFile.mk.injEq]
  exact ⟨a3.unique pointToks_unique a3', b3.unique pairToks_unique b3', c3.unique pointToks_unique c3'⟩

/-- C101: the function is defined exactly when every end of every segment is an index of
`regionIndex`, and it never throws. -/
theorem C101_defined_iff (points : List (Pt ℚ)) (r : Region ℚ) (idx : List Int) :
    ((∃ s, writeTriangleInputFile points r idx = .ok s) ↔
      ∀ s ∈ r.getSegments, (0 ≤ s.p1 ∧ s.p1 < idx.length) ∧ 0 ≤ s.p2 ∧ s.p2 < idx.length) ∧
    writeTriangleInputFile points r idx ≠ .exn := by
  have hv : ∀ i : Int, (∃ a, vecGet idx i = .ok a) ↔ 0 ≤ i ∧ i < idx.length := by
    intro i
    constructor
    · rintro ⟨a, ha⟩
      obtain ⟨h1, h2⟩ := vecGet_ok_iff.1 ha
      have := (List.getElem?_eq_some_iff.1 h2).1
      exact ⟨h1, by omega⟩
    · rintro ⟨h1, h2⟩
      exact ⟨_, vecGet_ok_iff.2 ⟨h1, List.getElem?_eq_getElem (by omega)⟩⟩
  have key : ∀ ss : List ISeg, (∃ es : List (Int × Int), List.Forall₂
        (fun (s : ISeg) (e : Int × Int) => vecGet idx s.p1 = .ok e.1 ∧ vecGet idx s.p2 = .ok e.2) ss es) ↔
      ∀ s ∈ ss, (0 ≤ s.p1 ∧ s.p1 < idx.length) ∧ 0 ≤ s.p2 ∧ s.p2 < idx.length := by
    intro ss
    induction ss with
    | nil => exact ⟨fun _ => by simp, fun _ => ⟨[], .nil⟩⟩
    | cons s ss ih =>
      constructor
      · rintro ⟨es, h⟩
        cases h with
        | @cons _ e _ es h1 h2 =>
        intro s' hs'
        rcases List.mem_cons.1 hs' with rfl | hs'
        · exact ⟨(hv _).1 ⟨_, h1.1⟩, (hv _).1 ⟨_, h1.2⟩⟩
        · exact ih.1 ⟨es, h2⟩ s' hs'
      · intro h
        obtain ⟨es, hes⟩ := ih.2 (fun s hs => h s (by simp [hs]))
        obtain ⟨a, ha⟩ := (hv s.p1).2 (h s (by simp)).1
        obtain ⟨b, hb⟩ := (hv s.p2).2 (h s (by simp)).2
        exact ⟨(a, b) :: es, .cons ⟨ha, hb⟩ hes⟩
  have hne : ∀ (ss : List ISeg) (o : OStream) (i : Nat), numberedSegments idx o i ss ≠ .exn := by
    have hvn : ∀ i : Int, vecGet idx i ≠ .exn := by
      intro i; unfold vecGet
      split
      · split <;> simp
      · simp
    intro ss
    induction ss with
    | nil => intro o i h; cases h
    | cons s ss ih =>
      intro o i h
      simp only [numberedSegments] at h
      cases h1 : vecGet idx s.p1 with
      | exn => exact hvn _ h1
      | ub => rw [h1] at h; cases h
      | ok a =>
      rw [h1, Outcome.bind_ok] at h
      cases h2 : vecGet idx s.p2 with
      | exn => exact hvn _ h2
      | ub => rw [h2] at h; cases h
      | ok b => rw [h2, Outcome.bind_ok] at h; exact ih _ _ h
  refine ⟨?_, ?_⟩
  · rw [← key]
    constructor
    · rintro ⟨s, hs⟩
      unfold writeTriangleInputFile at hs
      simp only at hs
      rw [← numberedSegments_defined idx r.getSegments _ 0]
      cases h : numberedSegments idx (((numberedPoints (((OStream.new.putN points.length).putS
          " 2 0 0".toList).endl) 0 points).putN r.getSegments.length).putS " 0".toList).endl 0 r.getSegments with
      | exn => rw [h] at hs; cases hs
      | ub => rw [h] at hs; cases hs
      | ok o => exact ⟨o, rfl⟩
    · rintro ⟨es, hes⟩
      obtain ⟨s, _, h, _⟩ := write_of_segments points r idx es
        (hes.imp (fun s e => (translates_iff idx s e).2))
      exact ⟨s, h⟩
  · unfold writeTriangleInputFile
    simp only
    intro h
    cases h1 : numberedSegments idx (((numberedPoints (((OStream.new.putN points.length).putS
        " 2 0 0".toList).endl) 0 points).putN r.getSegments.length).putS " 0".toList).endl 0 r.getSegments with
    | exn => exact hne _ _ _ h1
    | ub => rw [h1] at h; cases h
    | ok o => rw [h1] at h; cases h

/-- A square with a hole (its center is the one `PolygonalHole` computes). -/
def holedRegion : Region ℚ :=
  ⟨Poly.fresh [0, 1, 2, 3], [⟨-1, -1⟩, ⟨1, -1⟩, ⟨1, 1⟩, ⟨-1, 1⟩],
    [Hole.ofBoundary [⟨-1/3, -1/3⟩, ⟨1/3, -1/3⟩, ⟨0, 1/3⟩] ⟨0, 0⟩], [⟨1/2, 1/2⟩]⟩

theorem holedRegion_wf : holedRegion.WF := by
  refine ⟨by decide, ?_⟩
  intro h hh
  simp [holedRegion] at hh
  subst hh
  exact hole_wf_ofBoundary _ _

example : ∃ (s : List Char) (f : PolyFile), writeTriangleInputFile holedRegion.getRegionPoints holedRegion
      [0, 1, 2, 3, 4, 5, 6] = .ok s ∧ f.Text s := by
  obtain ⟨s, f, h1, h2, _⟩ := C101_file holedRegion.getRegionPoints holedRegion holedRegion_wf
    [0, 1, 2, 3, 4, 5, 6] (by decide)
  exact ⟨s, f, h1, h2⟩

example : writeTriangleInputFile holedRegion.getRegionPoints holedRegion [0, 1, 2, 3, 4, 5, 6] =
    .ok ("7 2 0 0\n0 -1 -1\n1 1 -1\n2 1 1\n3 -1 1\n4 -0.333333 -0.333333\n5 0.333333 -0.333333\n" ++
      "6 0 0.333333\n7 0\n0 0 1\n1 1 2\n2 2 3\n3 3 0\n4 4 5\n5 5 6\n6 6 4\n1\n0 0 0\n").toList := by
  decide +kernel

/-! ### C102 -/

/-- Point lines for the points `ps`, rounded. -/
def PointLines (ps : List (Pt ℚ)) (ls : List (List Char)) : Prop :=
  List.Forall₂ (fun (p : Pt ℚ) l => IsLine l ∧ ∃ (q : ℚ × ℚ) (ts : List (List Char)), Words l ts ∧
    PointToks q ts ∧ SixPoint p.x p.y q) ps ls

theorem pointLines_map (ps : List (Pt ℚ)) : PointLines ps (ps.map ptString) := by
  unfold PointLines
  rw [List.forall₂_map_right_iff, List.forall₂_same]
  intro p _
  obtain ⟨qx, hx1, hx2⟩ := toStringD_numeral p.x
  obtain ⟨qy, hy1, hy2⟩ := toStringD_numeral p.y
  have hw := words_numChars [toStringD p.x, toStringD p.y]
    (by intro t ht; simp at ht; rcases ht with rfl | rfl <;> exact toStringD_ne _)
    (by intro t ht; simp at ht; rcases ht with rfl | rfl <;> exact toStringD_numChars _)
  exact ⟨hw.2, (qx, qy), _, hw.1, ⟨_, _, rfl, hx1, hy1⟩, hx2, hy2⟩

theorem region_file_eq (r : Region ℚ) : r.printInFile =
    unlines (natText (r.getRegionPoints ++ r.seeds).length :: (r.getRegionPoints ++ r.seeds).map ptString ++
      natText r.getSegments.length :: r.getSegments.map isegString ++ [['0']]) := by
  unfold Region.printInFile
  simp only [foldl_lines]
  unfold OStream.endl OStream.putN OStream.new
  have : natText 0 = ['0'] := by decide
  simp only [putS_putS, this, unlines_append, unlines_cons, List.map_append, List.length_append]
  simp [OStream.putS, unlines]

/-- C102: the file of a region lists the corners of the region and its holes, then the seeds
(rounded to six significant digits), then the segments as index pairs, then a zero. -/
theorem C102_file (r : Region ℚ) (hi : ∀ s ∈ r.getSegments, |s.p1| < 10 ^ 6 ∧ |s.p2| < 10 ^ 6) :
    ∃ ps ss : List (List Char),
      r.printInFile = unlines (intText (r.getRegionPoints ++ r.seeds).length :: ps ++
        intText r.getSegments.length :: ss ++ [['0']]) ∧
      PointLines (r.getRegionPoints ++ r.seeds) ps ∧
      List.Forall₂ (fun (s : ISeg) l => IsLine l ∧ Words l [intText s.p1, intText s.p2]) r.getSegments ss := by
  refine ⟨_, r.getSegments.map isegString, ?_, pointLines_map _, ?_⟩
  rotate_left
  · rw [List.forall₂_map_right_iff, List.forall₂_same]
    intro s hs
    have hw := words_numChars [intText s.p1, intText s.p2]
      (by intro t ht; simp at ht; rcases ht with rfl | rfl <;> exact intText_ne _)
      (by intro t ht; simp at ht; rcases ht with rfl | rfl <;> exact intText_numChars _)
    have e : isegString s = unwords [intText s.p1, intText s.p2] := by
      unfold isegString
      rw [toStringD_int _ (hi s hs).1, toStringD_int _ (hi s hs).2]; rfl
    rw [e]
    exact ⟨hw.2, hw.1⟩
  · rw [region_file_eq, intText_nat, intText_nat]

/-- Numbers with at most six significant digits are not changed by rounding. -/
theorem sixDigits_exact {x y : ℚ} (hx : SixDigits x x) (hy : SixDigits x y) : y = x := by
  rcases hy with ⟨h1, h2⟩ | ⟨e, h1, h2, ⟨k, h3⟩, h4⟩
  · rw [h1, h2]
  rcases hx with ⟨g1, _⟩ | ⟨e', g1, g2, ⟨k', g3⟩, _⟩
  · rw [g1, abs_zero] at h1
    exact absurd h1 (not_le.2 (zpow_pos (by norm_num) _))
  have he : e = e' := by
    have a : (10 : ℚ) ^ e < (10 : ℚ) ^ (e' + 1) := lt_of_le_of_lt h1 g2
    have b : (10 : ℚ) ^ e' < (10 : ℚ) ^ (e + 1) := lt_of_le_of_lt g1 h2
    have a' := (zpow_lt_zpow_iff_right₀ (by norm_num : (1 : ℚ) < 10)).1 a
    have b' := (zpow_lt_zpow_iff_right₀ (by norm_num : (1 : ℚ) < 10)).1 b
    omega
  subst he
  have hp : (0 : ℚ) < (10 : ℚ) ^ (e - 5) := zpow_pos (by norm_num) _
  have hd : y - x = ((k - k' : Int) : ℚ) * (10 : ℚ) ^ (e - 5) := by rw [h3]; nth_rw 1 [g3]; push_cast; ring
  rw [hd, abs_mul, abs_of_pos hp] at h4
  have h5 : |((k - k' : Int) : ℚ)| ≤ 1 / 2 := le_of_mul_le_mul_right h4 hp
  have h6 : |k - k'| < 1 := by
    have : ((|k - k'| : Int) : ℚ) < 1 := by rw [Int.cast_abs]; linarith
    exact_mod_cast this
  have h7 : k = k' := by have := abs_lt.1 h6; omega
  rw [h3, h7, ← g3]

open Classical in
/-- C102: reading the file of a region with `addSeedsFromFile` appends the rounded corners and the
rounded seeds, as far as the reading region contains them. -/
theorem C102_read_back (tol : ℚ) (r r' : Region ℚ) (hw : r'.WF)
    (hn : (r.getRegionPoints ++ r.seeds).length ≤ 2147483647) :
    ∃ qs : List (Pt ℚ),
      List.Forall₂ (fun p q : Pt ℚ => SixDigits p.x q.x ∧ SixDigits p.y q.y) (r.getRegionPoints ++ r.seeds) qs ∧
      r'.addSeedsFromFile tol (some r.printInFile) =
        .ok { r' with seeds := (r'.seeds ++ qs).filter (fun q => decide (GoodSeed tol r' q)) } := by
  refine ⟨(r.getRegionPoints ++ r.seeds).map (fun p => ⟨atof (toStringD p.x), atof (toStringD p.y)⟩), ?_, ?_⟩
  · rw [List.forall₂_map_right_iff, List.forall₂_same]
    intro p _
    exact ⟨atof_toStringD _, atof_toStringD _⟩
  · have f1 : List.Forall₂ PointLine ((r.getRegionPoints ++ r.seeds).map ptString)
        ((r.getRegionPoints ++ r.seeds).map (fun p => ⟨atof (toStringD p.x), atof (toStringD p.y)⟩)) := by
      rw [List.forall₂_map_right_iff, List.forall₂_map_left_iff, List.forall₂_same]
      intro p _
      exact ptString_line p
    obtain ⟨line, hr⟩ := readPoints_lines f1
      (unlines (natText r.getSegments.length :: r.getSegments.map isegString ++ [['0']]))
      (natText (r.getRegionPoints ++ r.seeds).length)
    rw [List.length_map] at hr
    have he : r.printInFile = natText (r.getRegionPoints ++ r.seeds).length ++ '\n' ::
        (unlines ((r.getRegionPoints ++ r.seeds).map ptString) ++
          unlines (natText r.getSegments.length :: r.getSegments.map isegString ++ [['0']])) := by
      rw [region_file_eq]
      simp only [unlines_append, unlines_cons, List.cons_append, List.append_assoc]
    unfold Region.addSeedsFromFile IStream.ofText
    simp only
    rw [he, getline_line _ _ _ (natText_line _), atoi_nat _ hn, Outcome.bind_ok]
    simp only [Int.toNat_natCast]
    rw [hr, Outcome.bind_ok]
    exact C44_appendSeeds tol r' hw _

/-- C102, what holds: for a region whose coordinates have at most six significant digits, reading its own file
into a copy (which has no seeds) restores the seeds, but also turns the corners of the outline and
of the holes that pass the filter into seeds. -/
theorem C102_reload_partial (tol : ℚ) (r : Region ℚ) (hw : r.WF)
    (hn : (r.getRegionPoints ++ r.seeds).length ≤ 2147483647)
    (hx : ∀ p ∈ r.getRegionPoints ++ r.seeds, SixDigits p.x p.x ∧ SixDigits p.y p.y)
    (hs : ∀ q ∈ r.seeds, GoodSeed tol r q) :
    ∃ (r' : Region ℚ) (cs : List (Pt ℚ)), ({ r with seeds := [] } : Region ℚ).addSeedsFromFile tol
        (some r.printInFile) = .ok r' ∧ r'.seeds = cs ++ r.seeds ∧
      (∀ c, c ∈ cs ↔ c ∈ r.getRegionPoints ∧ GoodSeed tol r c) := by
  classical
  obtain ⟨qs, h1, h2⟩ := C102_read_back tol r { r with seeds := [] } hw hn
  have hq : qs = r.getRegionPoints ++ r.seeds := by
    have : ∀ (ps qs : List (Pt ℚ)), (∀ p ∈ ps, SixDigits p.x p.x ∧ SixDigits p.y p.y) →
        List.Forall₂ (fun p q : Pt ℚ => SixDigits p.x q.x ∧ SixDigits p.y q.y) ps qs → qs = ps := by
      intro ps qs hp h
      induction h with
      | nil => rfl
      | @cons p q ps qs h _ ih =>
        rw [ih (fun p hp' => hp p (by simp [hp']))]
        congr 1
        have := hp p (by simp)
        exact Pt.ext (sixDigits_exact this.1 h.1) (sixDigits_exact this.2 h.2)
    exact this _ _ hx h1
  have hg : ∀ q, GoodSeed tol ({ r with seeds := [] } : Region ℚ) q ↔ GoodSeed tol r q := fun q => Iff.rfl
  refine ⟨_, r.getRegionPoints.filter (fun q => decide (GoodSeed tol r q)), h2, ?_, ?_⟩
  · simp only [List.nil_append, hq, List.filter_append, hg]
    congr 1
    rw [List.filter_eq_self]
    intro q hq
    simpa using hs q hq
  · intro c; simp [List.mem_filter]

example : ∃ (r' : Region ℚ) (cs : List (Pt ℚ)),
    (⟨Poly.fresh [0, 1, 2], [⟨0, 0⟩, ⟨4, 0⟩, ⟨4, 4⟩], [], []⟩ : Region ℚ).addSeedsFromFile (1/100000)
      (some (⟨Poly.fresh [0, 1, 2], [⟨0, 0⟩, ⟨4, 0⟩, ⟨4, 4⟩], [], [⟨3, 5/2⟩]⟩ : Region ℚ).printInFile) =
      .ok r' ∧ r'.seeds = cs ++ [⟨3, 5/2⟩] := by
  have six : ∀ x ∈ [(0 : ℚ), 4, 3, 5/2], SixDigits x x := by
    intro x hx
    have h : atof (toStringD x) = x := by
      revert x; decide +kernel
    have := atof_toStringD x
    rwa [h] at this
  obtain ⟨r', cs, h1, h2, _⟩ := C102_reload_partial (1/100000)
    (⟨Poly.fresh [0, 1, 2], [⟨0, 0⟩, ⟨4, 0⟩, ⟨4, 4⟩], [], [⟨3, 5/2⟩]⟩ : Region ℚ)
    ⟨by decide, by intro h hh; cases hh⟩ (by decide)
    (by intro p hp
        simp [Region.getRegionPoints] at hp
        rcases hp with rfl | rfl | rfl | rfl <;> exact ⟨six _ (by simp), six _ (by simp)⟩)
    (by intro q hq
        simp at hq; subst hq
        exact ⟨by decide +kernel, by intro h hh; cases hh⟩)
  exact ⟨r', cs, h1, h2⟩

/-- C102 is false in the sense of a round trip: a square without seeds comes back with its four
corners as seeds. -/
theorem C102_corners_refuted : ∃ r : Region ℚ, r.WF ∧ r.seeds = [] ∧
    (match r.addSeedsFromFile (1/100000) (some r.printInFile) with
      | .ok r' => r'.seeds | _ => []) = [⟨0, 0⟩, ⟨4, 0⟩, ⟨4, 4⟩, ⟨0, 4⟩] :=
  ⟨⟨Poly.fresh [0, 1, 2, 3], [⟨0, 0⟩, ⟨4, 0⟩, ⟨4, 4⟩, ⟨0, 4⟩], [], []⟩, by
    exact ⟨by decide, by intro h hh; cases hh⟩, rfl, by decide +kernel⟩

/-! ### C103 -/

/-- C103: printing a segment map is undefined exactly when some entry was inserted by a look-up of
an unknown segment (C60), and never throws. -/
theorem C103_segments_defined_iff (order : List (ISeg × NbSeg)) :
    ((∃ s, SegMap.printInFile order = .ok s) ↔ ∀ e ∈ order, e.2.n1 ≠ none) ∧
    SegMap.printInFile order ≠ .exn := by
  have key : ∀ (order : List (ISeg × NbSeg)) (o : OStream),
      ((∃ s, segMapLines o order = .ok s) ↔ ∀ e ∈ order, e.2.n1 ≠ none) ∧ segMapLines o order ≠ .exn := by
    intro order
    induction order with
    | nil => intro o; exact ⟨⟨fun _ => by simp, fun _ => ⟨_, rfl⟩⟩, by simp [segMapLines]⟩
    | cons e es ih =>
      intro o
      simp only [segMapLines, NbSeg.getString, NbSeg.getFirst]
      cases h : e.2.n1 with
      | none =>
        simp only [Outcome.bind_ub]
        refine ⟨⟨fun ⟨s, hs⟩ => (by cases hs), fun hx => absurd h (hx e (by simp))⟩, by simp⟩
      | some a =>
        simp only [Outcome.bind_ok, Outcome.pure_eq]
        have := ih (o.line (isegString e.1 ++ ' ' :: (toStringD (a : ℚ) ++ ' ' :: toStringD (e.2.n2 : ℚ))))
        refine ⟨this.1.trans ?_, this.2⟩
        simp [h]
  unfold SegMap.printInFile
  have k := key order OStream.new
  cases h : segMapLines OStream.new order with
  | exn => exact absurd h k.2
  | ub =>
    refine ⟨⟨fun ⟨s, hs⟩ => (by cases hs), fun hx => ?_⟩, by simp⟩
    obtain ⟨s, hs⟩ := k.1.2 hx
    rw [h] at hs; cases hs
  | ok o => exact ⟨⟨fun _ => k.1.1 ⟨o, h⟩, fun _ => ⟨_, rfl⟩⟩, by simp⟩

/-- C103: a printed segment map has one line per entry with its four indices (below a million, see
C74). -/
theorem C103_segments (order : List (ISeg × NbSeg)) (hn : ∀ e ∈ order, ∃ a, e.2.n1 = some a ∧ |a| < 10 ^ 6)
    (hi : ∀ e ∈ order, |e.1.p1| < 10 ^ 6 ∧ |e.1.p2| < 10 ^ 6 ∧ |e.2.n2| < 10 ^ 6) :
    ∃ ls : List (List Char), SegMap.printInFile order = .ok (unlines ls) ∧
      List.Forall₂ (fun (e : ISeg × NbSeg) l => IsLine l ∧ ∃ a, e.2.n1 = some a ∧
        Words l [intText e.1.p1, intText e.1.p2, intText a, intText e.2.n2]) order ls := by
  have key : ∀ (order : List (ISeg × NbSeg)) (o : OStream),
      (∀ e ∈ order, ∃ a, e.2.n1 = some a ∧ |a| < 10 ^ 6) →
      (∀ e ∈ order, |e.1.p1| < 10 ^ 6 ∧ |e.1.p2| < 10 ^ 6 ∧ |e.2.n2| < 10 ^ 6) →
      ∃ ls : List (List Char), segMapLines o order = .ok (o.putS (unlines ls)) ∧
        List.Forall₂ (fun (e : ISeg × NbSeg) l => IsLine l ∧ ∃ a, e.2.n1 = some a ∧
          Words l [intText e.1.p1, intText e.1.p2, intText a, intText e.2.n2]) order ls := by
    intro order
    induction order with
    | nil => intro o _ _; exact ⟨[], by simp [segMapLines, unlines, OStream.putS], .nil⟩
    | cons e es ih =>
      intro o h1 h2
      obtain ⟨a, ha, hb⟩ := h1 e (by simp)
      obtain ⟨i1, i2, i3⟩ := h2 e (by simp)
      simp only [segMapLines, NbSeg.getString, NbSeg.getFirst, ha]
      simp only [Outcome.bind_ok, Outcome.pure_eq]
      have hw := words_numChars [intText e.1.p1, intText e.1.p2, intText a, intText e.2.n2]
        (by intro t ht; simp at ht; rcases ht with rfl | rfl | rfl | rfl <;> exact intText_ne _)
        (by intro t ht; simp at ht; rcases ht with rfl | rfl | rfl | rfl <;> exact intText_numChars _)
      obtain ⟨ls, g1, g2⟩ := ih (o.line (isegString e.1 ++ ' ' ::
        (toStringD (a : ℚ) ++ ' ' :: toStringD (e.2.n2 : ℚ))))
        (fun e he => h1 e (by simp [he])) (fun e he => h2 e (by simp [he]))
      refine ⟨unwords [intText e.1.p1, intText e.1.p2, intText a, intText e.2.n2] :: ls, ?_,
        .cons ⟨hw.2, a, ha, hw.1⟩ g2⟩
      rw [g1, line_eq, putS_putS]
      unfold isegString
      rw [toStringD_int _ i1, toStringD_int _ i2, toStringD_int _ i3, toStringD_int _ hb]
      simp [unlines, unwords]
  obtain ⟨ls, g1, g2⟩ := key order OStream.new hn hi
  refine ⟨ls, ?_, g2⟩
  unfold SegMap.printInFile
  rw [g1, Outcome.bind_ok]
  simp [OStream.putS, OStream.new]

example : SegMap.printInFile (SegMap.run [.insert (ISeg.mk' 3 7) 0, .insert (ISeg.mk' 7 3) 2,
    .insert (ISeg.mk' 1 2) 5]) = .ok "3 7 0 2\n1 2 5 -1\n".toList := by decide +kernel

/-- C103: a printed point map has one line per point: the point rounded to six significant digits and
the numbers of its neighbours, of any size. -/
theorem C103_points (m : PtMap ℚ) : ∃ ls : List (List Char), PtMap.printInFile m = unlines ls ∧
    List.Forall₂ (fun (e : Pt ℚ × List Int) l => IsLine l ∧ ∃ (q : ℚ × ℚ) (a b : List Char),
      Words l (a :: b :: e.2.map intText) ∧ Numeral a q.1 ∧ Numeral b q.2 ∧ SixPoint e.1.x e.1.y q) m ls := by
  have items : ∀ (is : List Int) (o : OStream),
      is.foldl (fun o i => (o.putI i).putS [' ']) o = o.putS (is.flatMap (fun i => intText i ++ [' '])) := by
    intro is
    induction is with
    | nil => intro o; simp [OStream.putS]
    | cons i is ih => intro o; rw [List.foldl_cons, ih, putI_buf, putS_putS, putS_putS]; simp
  have hun : ∀ (t : List Char) (is : List Int), unwords (t :: is.map intText) ++ [' '] =
      t ++ ' ' :: is.flatMap (fun i => intText i ++ [' ']) := by
    intro t is
    induction is generalizing t with
    | nil => simp [unwords]
    | cons i is ih =>
      rw [List.map_cons, List.flatMap_cons]
      have : unwords (t :: intText i :: is.map intText) = t ++ ' ' :: unwords (intText i :: is.map intText) := rfl
      rw [this, List.append_assoc, List.cons_append, ih (intText i)]
      simp
  have key : ∀ (m : List (Pt ℚ × List Int)) (o : OStream), ∃ ls : List (List Char),
      m.foldl ptMapLine o = o.putS (unlines ls) ∧
      List.Forall₂ (fun (e : Pt ℚ × List Int) l => IsLine l ∧ ∃ (q : ℚ × ℚ) (a b : List Char),
        Words l (a :: b :: e.2.map intText) ∧ Numeral a q.1 ∧ Numeral b q.2 ∧ SixPoint e.1.x e.1.y q) m ls := by
    intro m
    induction m with
    | nil => intro o; exact ⟨[], by simp [unlines, OStream.putS], .nil⟩
    | cons e m ih =>
      intro o
      obtain ⟨qx, hx1, hx2⟩ := toStringD_numeral e.1.x
      obtain ⟨qy, hy1, hy2⟩ := toStringD_numeral e.1.y
      have hw := words_numChars (toStringD e.1.x :: toStringD e.1.y :: e.2.map intText)
        (by intro t ht; simp only [List.mem_cons, List.mem_map] at ht
            rcases ht with rfl | rfl | ⟨i, _, rfl⟩
            · exact toStringD_ne _
            · exact toStringD_ne _
            · exact intText_ne _)
        (by intro t ht; simp only [List.mem_cons, List.mem_map] at ht
            rcases ht with rfl | rfl | ⟨i, _, rfl⟩
            · exact toStringD_numChars _
            · exact toStringD_numChars _
            · exact intText_numChars _)
      obtain ⟨ls, g1, g2⟩ := ih (ptMapLine o e)
      refine ⟨(unwords (toStringD e.1.x :: toStringD e.1.y :: e.2.map intText) ++ [' ']) :: ls, ?_,
        .cons ⟨?_, (qx, qy), _, _, words_trailing hw.1, hx1, hy1, hx2, hy2⟩ g2⟩
      · rw [List.foldl_cons, g1]
        unfold ptMapLine OStream.endl
        rw [items, putS_putS, putS_putS, putS_putS, unlines_cons]
        congr 1
        have : unwords (toStringD e.1.x :: toStringD e.1.y :: e.2.map intText) =
            toStringD e.1.x ++ ' ' :: unwords (toStringD e.1.y :: e.2.map intText) := rfl
        have h2 : unwords (toStringD e.1.x :: toStringD e.1.y :: e.2.map intText) ++ [' '] =
            toStringD e.1.x ++ ' ' :: (toStringD e.1.y ++ ' ' :: e.2.flatMap (fun i => intText i ++ [' '])) := by
          rw [this, List.append_assoc, List.cons_append, hun]
        rw [h2]
        unfold ptString
        simp
      · intro hc
        rcases List.mem_append.1 hc with hc | hc
        · exact hw.2 hc
        · simp at hc
  obtain ⟨ls, g1, g2⟩ := key m OStream.new
  refine ⟨ls, ?_, g2⟩
  unfold PtMap.printInFile
  rw [g1]
  simp [OStream.putS, OStream.new]

example : PtMap.printInFile (PtMap.run (1/100000) [.insert ⟨1, 1/2⟩ 4, .insert ⟨0, 0⟩ 1234567,
    .insert ⟨1, 1/2⟩ 7] : PtMap ℚ) = "0 0 1234567 \n1 0.5 4 7 \n".toList := by decide +kernel

/-- C103: the strings of edges and of segments given by points are those of their ends. -/
theorem C103_strings (p1 p2 : Int) (h1 : |p1| < 10 ^ 6) (h2 : |p2| < 10 ^ 6) (a b : Pt ℚ) :
    edgeDataString p1 p2 = unwords [intText p1, intText p2] ∧
    ∃ ts us, Words (psegString a b) (ts ++ us) ∧
      (∃ q, PointToks q ts ∧ SixPoint a.x a.y q) ∧ ∃ q, PointToks q us ∧ SixPoint b.x b.y q := by
  refine ⟨?_, [toStringD a.x, toStringD a.y], [toStringD b.x, toStringD b.y], ?_, ?_, ?_⟩
  · unfold edgeDataString
    rw [toStringD_int _ h1, toStringD_int _ h2]; rfl
  · have hw := words_numChars [toStringD a.x, toStringD a.y, toStringD b.x, toStringD b.y]
      (by intro t ht; simp at ht; rcases ht with rfl | rfl | rfl | rfl <;> exact toStringD_ne _)
      (by intro t ht; simp at ht; rcases ht with rfl | rfl | rfl | rfl <;> exact toStringD_numChars _)
    have e : psegString a b = unwords [toStringD a.x, toStringD a.y, toStringD b.x, toStringD b.y] := by
      unfold psegString ptString; simp [unwords]
    rw [e]; exact hw.1
  all_goals
    obtain ⟨qx, hx1, hx2⟩ := toStringD_numeral _
    obtain ⟨qy, hy1, hy2⟩ := toStringD_numeral _
    exact ⟨(qx, qy), ⟨_, _, rfl, hx1, hy1⟩, hx2, hy2⟩

end Delynoi
