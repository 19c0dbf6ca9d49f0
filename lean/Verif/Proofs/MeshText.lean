import Verif.Proofs.IndexText
import Verif.Props.Neighbours
/-!
# Lemmas about mesh and seed files
-/
namespace Delynoi

/-! ### Numbers at the start of a line -/

theorem sgn_head_not_space (neg : Bool) (s : List Char) (hs : ∀ c, s.head? = some c → isSpace c = false) :
    ∀ c, (sgn neg ++ s).head? = some c → isSpace c = false := by
  intro c hc
  cases neg with
  | true => simp [sgn] at hc; subst hc; decide
  | false => simp [sgn] at hc; exact hs c hc

/-- `atoi` of a line whose first word is an integer. -/
theorem atoi_words (s : List Char) (n : Int) (more : List (List Char)) (h : Words s (intText n :: more))
    (hn : |n| ≤ 2147483647) : atoi s = .ok n := by
  generalize hts : intText n :: more = ts at h
  cases h with
  | nil => cases hts
  | cons pre t rest us hp ht hw hr h =>
    obtain ⟨rfl, rfl⟩ := List.cons.inj hts
    rw [intText_eq]
    have hb : n.natAbs ≤ 2147483647 := by
      have := abs_le.1 hn; omega
    have hrest : ∀ c, rest.head? = some c → c.isDigit = false := by
      intro c hc
      rw [← Bool.not_eq_true]
      intro hd
      have := (isSpace_iff c).2 (hr c hc)
      rw [isDigit_not_space hd] at this; cases this
    have hds : ∀ c, (natText n.natAbs ++ rest).head? = some c → isSpace c = false := by
      intro c hc
      cases hnt : natText n.natAbs with
      | nil => exact absurd hnt (natText_ne _)
      | cons a l =>
        rw [hnt] at hc
        simp at hc; subst hc
        exact isDigit_not_space (natText_digits n.natAbs a (by rw [hnt]; simp))
    have hdrop : (pre ++ (sgn (decide (n < 0)) ++ natText n.natAbs) ++ rest).dropWhile isSpace =
        (sgn (decide (n < 0)) ++ (natText n.natAbs ++ rest)).dropWhile isSpace := by
      have h1 := takeWhile_split isSpace pre (sgn (decide (n < 0)) ++ (natText n.natAbs ++ rest))
        (fun c hc => (isSpace_iff c).2 (hp c hc)) (sgn_head_not_space _ _ hds)
      have h2 := takeWhile_split isSpace [] (sgn (decide (n < 0)) ++ (natText n.natAbs ++ rest))
        (by simp) (sgn_head_not_space _ _ hds)
      rw [List.nil_append] at h2
      rw [h2.2, ← h1.2]; simp
    have key := atoi_digits (decide (n < 0)) (natText n.natAbs) rest (natText_ne _) (natText_digits _)
      hrest (by rw [digitsVal_natText]; exact hb)
    have e : atoi (pre ++ (sgn (decide (n < 0)) ++ natText n.natAbs) ++ rest) =
        atoi (sgn (decide (n < 0)) ++ (natText n.natAbs ++ rest)) := by
      unfold atoi
      rw [hdrop]
    rw [e, key, digitsVal_natText]
    by_cases hn0 : n < 0
    · simp only [hn0, decide_true, if_true]; congr 1; omega
    · simp only [hn0, decide_false, Bool.false_eq_true, if_false]; congr 1; omega

/-- `atof` of a decimal number. -/
theorem atof_dec (d : Dec) (hd : d.Ok) : atof d.text = d.val := by
  have hdig : ∀ ds : List (Fin 10), Digits (ds.map Dec.digit) := by
    intro ds c hc
    obtain ⟨a, _, rfl⟩ := List.mem_map.1 hc
    have : ∀ a : Fin 10, (Dec.digit a).isDigit = true := by decide
    exact this a
  have hval : ∀ ds : List (Fin 10), digitsVal (ds.map Dec.digit) = Dec.nat ds := by
    intro ds
    induction ds using List.reverseRecOn with
    | nil => rfl
    | append_singleton ds a ih =>
      rw [List.map_append, digitsVal_append, ih]
      unfold Dec.nat
      rw [List.foldl_append]
      have : digitsVal (List.map Dec.digit [a]) = a.val := by revert a; decide
      rw [this]; simp; ring
  have hne : d.ip.map Dec.digit ≠ [] := by
    intro h; exact hd (by simpa using h)
  unfold Dec.text Dec.val
  have hs : (if d.neg = true then ['-'] else []) = sgn d.neg := rfl
  rw [hs]
  by_cases hf : d.fp = []
  · rw [if_pos hf, hf]
    have := atof_nofrac d.neg (d.ip.map Dec.digit) [] hne (hdig _) (by simp)
    rw [List.append_nil] at this ⊢
    rw [this, hval, readExp_nil]
    have : Dec.nat [] = 0 := rfl
    rw [this]
    cases d.neg <;> simp
  · rw [if_neg hf]
    have := atof_frac d.neg (d.ip.map Dec.digit) (d.fp.map Dec.digit) [] hne (hdig _) (hdig _) (by simp)
    rw [List.append_nil] at this
    rw [List.append_assoc, this, digitsVal_append, hval, hval, readExp_nil]
    simp only [List.length_map, zero_sub]
    have hp : (10 : ℚ) ^ (-(d.fp.length : Int)) = ((10 : ℚ) ^ d.fp.length)⁻¹ := by
      rw [zpow_neg, zpow_natCast]
    rw [hp]
    have hpos : (10 : ℚ) ^ d.fp.length ≠ 0 := by positivity
    cases d.neg <;> simp <;> field_simp

/-! ### Points -/

/-- The line `l` gives the point `q`. -/
def PointLine (l : List Char) (q : Pt ℚ) : Prop :=
  IsLine l ∧ ∃ a b more, Words l (a :: b :: more) ∧ q = ⟨atof a, atof b⟩

theorem readPoint_line (l r old : List Char) (q : Pt ℚ) (h : PointLine l q) :
    readPoint ⟨l ++ '\n' :: r, false⟩ old = .ok (⟨r, false⟩, l, q) := by
  obtain ⟨hl, a, b, more, hw, rfl⟩ := h
  unfold readPoint
  simp only [getline_line l r old hl, splitBySpaces_eq hw]

theorem readPoints_lines {ls : List (List Char)} {qs : List (Pt ℚ)}
    (h : List.Forall₂ PointLine ls qs) : ∀ (r old : List Char),
    ∃ line, readPoints ls.length ⟨unlines ls ++ r, false⟩ old = .ok (⟨r, false⟩, line, qs) := by
  induction h with
  | nil => intro r old; exact ⟨old, rfl⟩
  | @cons l q ls qs h1 _ ih =>
    intro r old
    obtain ⟨line, hl⟩ := ih r l
    refine ⟨line, ?_⟩
    have hm : readPoints (l :: ls).length ⟨unlines (l :: ls) ++ r, false⟩ old =
      (readPoint ⟨unlines (l :: ls) ++ r, false⟩ old >>= fun x =>
        readPoints ls.length x.1 x.2.1 >>= fun rs => pure (rs.1, rs.2.1, x.2.2 :: rs.2.2)) := rfl
    have he : unlines (l :: ls) ++ r = l ++ '\n' :: (unlines ls ++ r) := by
      rw [unlines_cons]; simp
    rw [hm, he, readPoint_line _ _ _ _ h1, Outcome.bind_ok]
    simp only [hl, Outcome.bind_ok, Outcome.pure_eq]

/-! ### Polygons -/

theorem ofIndices_ok (tol : ℚ) (idx : List Int) (p : List (Pt ℚ)) :
    Poly.ofIndices tol idx p = .ok (Poly.fresh idx) := by
  simp [Poly.ofIndices, isSelfIntersecting, cycPairs]

/-- The edge insertions for polygons numbered from `i`. -/
def sideInserts : Int → List (List Int) → List (Int × Int × Int)
  | _, [] => []
  | i, p :: ps => (cycPairs p).map (fun e => (e.1, e.2, i)) ++ sideInserts (i + 1) ps

/-- The edge map after insertions. -/
def insertSides (e : SegMap) (ins : List (Int × Int × Int)) : SegMap :=
  ins.foldl (fun e x => e.insert (ISeg.mk' x.1 x.2.1) x.2.2) e

/-- The line `l` gives the polygon `idx`. -/
def PolyLine (start : Int) (l : List Char) (idx : List Int) : Prop :=
  IsLine l ∧ ∃ toks, Words l toks ∧ readIndices start (toks.drop 1) = .ok idx

theorem addPolygon_ok (tol : ℚ) (m : Mesh ℚ (Poly ℚ)) (i : Int) (idx : List Int) :
    addPolygon tol m i idx = .ok { m with
      polygons := m.polygons ++ [Poly.fresh idx],
      edges := insertSides m.edges ((cycPairs idx).map (fun e => (e.1, e.2, i))) } := by
  unfold addPolygon
  rw [ofIndices_ok, Outcome.bind_ok, Outcome.pure_eq]
  have : (Poly.fresh idx : Poly ℚ).points = idx := rfl
  rw [this]
  unfold getSegments insertSides
  rw [List.foldl_map, List.foldl_map]

theorem readPolygons_lines (tol : ℚ) (start : Int) {ls : List (List Char)} {ps : List (List Int)}
    (h : List.Forall₂ (PolyLine start) ls ps) :
    ∀ (i : Int) (r old : List Char) (m : Mesh ℚ (Poly ℚ)),
    readPolygons tol start ls.length i ⟨unlines ls ++ r, false⟩ old m = .ok { m with
      polygons := m.polygons ++ ps.map Poly.fresh,
      edges := insertSides m.edges (sideInserts i ps) } := by
  induction h with
  | nil => intro i r old m; simp [readPolygons, sideInserts, insertSides]
  | @cons l p ls ps h1 _ ih =>
    intro i r old m
    obtain ⟨hl, toks, hw, hi⟩ := h1
    have he : unlines (l :: ls) ++ r = l ++ '\n' :: (unlines ls ++ r) := by
      rw [unlines_cons]; simp
    have hm : readPolygons tol start (l :: ls).length i ⟨unlines (l :: ls) ++ r, false⟩ old m =
      (readIndices start ((splitBySpaces
          (IStream.getline ⟨unlines (l :: ls) ++ r, false⟩ old).2).drop 1) >>= fun pts =>
        addPolygon tol m i pts >>= fun m =>
        readPolygons tol start ls.length (i + 1)
          (IStream.getline ⟨unlines (l :: ls) ++ r, false⟩ old).1
          (IStream.getline ⟨unlines (l :: ls) ++ r, false⟩ old).2 m) := rfl
    rw [hm, he, getline_line _ _ _ hl]
    simp only [splitBySpaces_eq hw, hi, Outcome.bind_ok, addPolygon_ok, ih]
    simp [sideInserts, insertSides]

/-! ### Whole files -/

/-- Reading a file with a point section and a polygon section. -/
theorem createFromStream_lines (tol : ℚ) (start : Int) (m : Mesh ℚ (Poly ℚ))
    (h1 h2 : List Char) (hl1 : IsLine h1) (hl2 : IsLine h2)
    {ls ks : List (List Char)} {qs : List (Pt ℚ)} {ps : List (List Int)}
    (hc1 : atoi h1 = .ok (ls.length : Int)) (hc2 : atoi h2 = .ok (ks.length : Int))
    (hp : List.Forall₂ PointLine ls qs) (hg : List.Forall₂ (PolyLine start) ks ps) (r : List Char) :
    createFromStream tol (IStream.ofText (unlines (h1 :: ls ++ h2 :: ks) ++ r)) start m = .ok { m with
      points := (m.points.pushList (fun a b => a.ltTol tol b) qs).1,
      polygons := m.polygons ++ ps.map Poly.fresh,
      edges := insertSides m.edges (sideInserts 0 ps) } := by
  have he : unlines (h1 :: ls ++ h2 :: ks) ++ r =
      h1 ++ '\n' :: (unlines ls ++ (h2 ++ '\n' :: (unlines ks ++ r))) := by
    rw [List.cons_append, unlines_cons, unlines_append, unlines_cons]; simp
  obtain ⟨line, hr⟩ := readPoints_lines hp (h2 ++ '\n' :: (unlines ks ++ r)) h1
  unfold createFromStream IStream.ofText
  rw [he, getline_line _ _ _ hl1]
  simp only [hc1, Outcome.bind_ok, Int.toNat_natCast, hr, getline_line _ _ _ hl2, hc2,
    readPolygons_lines tol start hg]

theorem run_insertSides (ins : List (Int × Int × Int)) :
    insertSides SegMap.empty ins =
      SegMap.run (ins.map (fun e => .insert (ISeg.mk' e.1 e.2.1) e.2.2)) := by
  unfold insertSides SegMap.run
  rw [List.foldl_map]
  rfl

theorem readIndices_ints (start : Int) (idx : List Int)
    (h : ∀ i ∈ idx, |i + start| ≤ 2147483647 ∧ |i| ≤ 2147483647) :
    readIndices start (idx.map (fun i => intText (i + start))) = .ok idx := by
  induction idx with
  | nil => rfl
  | cons i idx ih =>
    have h1 := h i (by simp)
    have hm : readIndices start ((i :: idx).map (fun i => intText (i + start))) =
      (atoi (intText (i + start)) >>= fun n => subInt n start >>= fun k =>
        readIndices start (idx.map (fun i => intText (i + start))) >>= fun ks => pure (k :: ks)) := rfl
    rw [hm, atoi_intText _ h1.1, Outcome.bind_ok, ih (fun i hi => h i (by simp [hi]))]
    have : subInt (i + start) start = .ok i := by
      unfold subInt
      have := abs_le.1 h1.2
      rw [if_pos (by omega)]; congr 1; ring
    rw [this]; rfl

/-! ### Printing -/

theorem foldl_lines {α : Type} (f : α → List Char) (l : List α) : ∀ o : OStream,
    (l.foldl (fun o p => o.line (f p)) o) = o.putS (unlines (l.map f)) := by
  induction l with
  | nil => intro o; simp [unlines, OStream.putS]
  | cons a l ih =>
    intro o
    rw [List.foldl_cons, ih, List.map_cons, unlines_cons]
    simp [OStream.line, OStream.putS, OStream.endl]

/-- The lines of a printed mesh. -/
theorem printInFile_eq (p : Int) (order : List ISeg) (m : Mesh ℚ (Poly ℚ)) :
    printInFile p order m =
      unlines (natText m.points.list.length :: m.points.list.map ptString ++
        natText m.edges.size :: order.map isegString) ++
      unlines (natText m.polygons.length :: m.polygons.map (fun g => polyString g.points)) := by
  unfold printInFile printInStream
  simp only [foldl_lines]
  simp [OStream.putS, OStream.putN, OStream.endl, OStream.new, OStream.setFixed, unlines]

theorem ptString_line (p : Pt ℚ) : PointLine (ptString p) ⟨atof (toStringD p.x), atof (toStringD p.y)⟩ := by
  refine ⟨?_, toStringD p.x, toStringD p.y, [], ?_, rfl⟩
  · unfold ptString IsLine
    intro h
    rcases List.mem_append.1 h with h | h
    · exact toStringD_line _ h
    · rcases List.mem_cons.1 h with h | h
      · exact absurd h (by decide)
      · exact toStringD_line _ h
  · have := words_unwords [toStringD p.x, toStringD p.y] (by
      intro t ht; simp at ht; rcases ht with rfl | rfl <;> exact toStringD_ne _) (by
      intro t ht; simp at ht; rcases ht with rfl | rfl <;> exact toStringD_word _)
    exact this

theorem isegString_line (s : ISeg) (h : |s.p2| < 10 ^ 6) : PolyLine 0 (isegString s) [s.p2] := by
  refine ⟨?_, [toStringD (s.p1 : ℚ), toStringD (s.p2 : ℚ)], ?_, ?_⟩
  · unfold isegString IsLine
    intro h
    rcases List.mem_append.1 h with h | h
    · exact toStringD_line _ h
    · rcases List.mem_cons.1 h with h | h
      · exact absurd h (by decide)
      · exact toStringD_line _ h
  · have := words_unwords [toStringD (s.p1 : ℚ), toStringD (s.p2 : ℚ)] (by
      intro t ht; simp at ht; rcases ht with rfl | rfl <;> exact toStringD_ne _) (by
      intro t ht; simp at ht; rcases ht with rfl | rfl <;> exact toStringD_word _)
    exact this
  · have := readIndices_ints 0 [s.p2] (by
      intro i hi; simp at hi; subst hi
      have := abs_lt.1 h
      constructor <;> rw [abs_le] <;> constructor <;> omega)
    simp only [List.map_cons, List.map_nil, add_zero] at this
    show readIndices 0 [toStringD (s.p2 : ℚ)] = _
    rw [toStringD_int _ h]; exact this

end Delynoi
