import Verif.Proofs.MeshText
import Verif.Props.Region
import Verif.Props.UniqueList
/-!
# Properties C72-C76, C79, C80: text files and tokens
-/
set_option linter.unusedSectionVars false
namespace Delynoi

/-! ### C76 -/

/-- C76: `splitBySpaces` returns the words of the text. -/
theorem C76_words (s : List Char) : Words s (splitBySpaces s) := splitBySpaces_words s

/-- C76: ... and there is only one way to split a text into words. -/
theorem C76_unique (s : List Char) (ts : List (List Char)) (h : Words s ts) :
    splitBySpaces s = ts := splitBySpaces_eq h

/-- C76: no word is empty, and none contains white space. -/
theorem C76_nonempty (s : List Char) (t : List Char) (ht : t ∈ splitBySpaces s) :
    t ≠ [] ∧ ∀ c ∈ t, ¬ White c := by
  have key : ∀ {s : List Char} {ts : List (List Char)}, Words s ts → ∀ t ∈ ts,
      t ≠ [] ∧ ∀ c ∈ t, ¬ White c := by
    intro s ts h
    induction h with
    | nil => intro t ht; cases ht
    | cons pre t rest ts hp hne hw hr _ ih =>
      intro u hu
      rcases List.mem_cons.1 hu with rfl | hu
      · exact ⟨hne, hw⟩
      · exact ih u hu
  exact key (splitBySpaces_words s) t ht

/-- C76: splitting words joined by spaces gives the words back. -/
theorem C76_join (ts : List (List Char)) (h1 : ∀ t ∈ ts, t ≠ [])
    (h2 : ∀ t ∈ ts, ∀ c ∈ t, ¬ White c) : splitBySpaces (unwords ts) = ts :=
  splitBySpaces_eq (words_unwords ts h1 h2)

example : (splitBySpaces "  3 0\t 12  \r".toList).map String.ofList = ["3", "0", "12"] := by
  decide +kernel

example : splitBySpaces (unwords ["ab".toList, "c".toList]) = ["ab".toList, "c".toList] :=
  C76_join _ (by decide) (by
    intro t ht c hc
    rw [← isSpace_iff]
    simp at ht
    rcases ht with rfl | rfl <;> simp at hc
    · rcases hc with rfl | rfl <;> decide
    · subst hc; decide)

/-! ### C74 -/

/-- C74, the part that holds: an index below a million in absolute value is written as a decimal
integer ... -/
theorem C74_written_partial (n : Int) (h : |n| < 10 ^ 6) : toStringD (n : ℚ) = intText n :=
  toStringD_int n h

/-- ... and read back as the same number.  Missing: larger indices, where it is false. -/
theorem C74_readback_partial (n : Int) (h : |n| < 10 ^ 6) : atoi (toStringD (n : ℚ)) = .ok n := by
  rw [toStringD_int n h]
  exact atoi_intText n (by omega)

/-- C74 fails for every larger index: what is read back is a single digit. -/
theorem C74_large_refuted (n : Int) (h : 10 ^ 6 ≤ |n|) :
    (∃ k : Int, atoi (toStringD (n : ℚ)) = .ok k ∧ |k| ≤ 9) ∧ atoi (toStringD (n : ℚ)) ≠ .ok n := by
  obtain ⟨k, h1, h2⟩ := atoi_large n h
  refine ⟨⟨k, h1, h2⟩, ?_⟩
  rw [h1]
  intro h3
  have := Outcome.ok.inj h3
  subst this
  have : (10 : Int) ^ 6 ≤ 9 := h.trans h2
  norm_num at this

/-- C74: the strings of segments and polygons with small indices are the indices in decimal,
separated by single spaces; polygons are preceded by their number of vertices. -/
theorem C74_getString_partial (s : ISeg) (h1 : |s.p1| < 10 ^ 6) (h2 : |s.p2| < 10 ^ 6)
    (pts : List Int) (hp : ∀ i ∈ pts, |i| < 10 ^ 6) (hl : pts.length < 10 ^ 6) :
    isegString s = unwords [intText s.p1, intText s.p2] ∧
    polyString pts = unwords (intText pts.length :: pts.map intText) := by
  refine ⟨?_, ?_⟩
  · unfold isegString
    rw [toStringD_int _ h1, toStringD_int _ h2]; rfl
  · have e : ∀ (t : List Char) (ts : List (List Char)),
        unwords (t :: ts) = t ++ ts.flatMap (fun t => ' ' :: t) := by
      intro t ts
      induction ts generalizing t with
      | nil => simp [unwords]
      | cons u us ih =>
        have hm : unwords (t :: u :: us) = t ++ ' ' :: unwords (u :: us) := rfl
        rw [hm, ih]; simp
    rw [e]
    unfold polyString
    have hlen : toStringD (pts.length : ℚ) = intText pts.length := by
      have := toStringD_int (pts.length : Int) (by rw [abs_of_nonneg (by omega)]; exact_mod_cast hl)
      simpa using this
    rw [hlen]
    congr 1
    · have ihx : ∀ (l : List Int), (∀ i ∈ l, |i| < 10 ^ 6) →
          l.flatMap (fun i : Int => ' ' :: toStringD (i : ℚ)) =
          (l.map intText).flatMap (fun t => ' ' :: t) := by
        intro l hl
        induction l with
        | nil => rfl
        | cons a l ih =>
          rw [List.flatMap_cons, List.map_cons, List.flatMap_cons, toStringD_int a (hl a (by simp)),
            ih (fun i hi => hl i (by simp [hi]))]
      exact ihx pts hp

example : polyString [10, 0, 7] = "3 10 0 7".toList := by decide +kernel

example : (String.ofList (toStringD (1000000 : ℚ)), atoi (toStringD (1000000 : ℚ)))
    = ("1e+06", .ok 1) := by decide +kernel

/-! ### C75 -/

/-- C75 fails: the precision of the configuration has no influence at all on the file. -/
theorem C75_precision_ignored_refuted (p q : Int) (order : List ISeg) (m : Mesh ℚ (Poly ℚ)) :
    printInFile p order m = printInFile q order m := by
  rw [printInFile_eq, printInFile_eq]

/-- C75, a concrete case: with ten decimals configured, 1/3 is written with six. -/
theorem C75_ten_decimals_refuted : ∃ m : Mesh ℚ (Poly ℚ), m.points.list = [⟨1 / 3, 1 / 7⟩] ∧
    (printInFile 10 [] m) = "1\n0.333333 0.142857\n0\n0\n".toList :=
  ⟨⟨⟨[⟨1 / 3, 1 / 7⟩], []⟩, [], SegMap.empty, PtMap.empty⟩, rfl, by decide +kernel⟩

/-- C75, what is written instead: every coordinate rounded to six significant digits. -/
theorem C75_six_digits_partial (p : Pt ℚ) : ∃ a b, ptString p = unwords [a, b] ∧
    SixDigits p.x (atof a) ∧ SixDigits p.y (atof b) :=
  ⟨toStringD p.x, toStringD p.y, rfl, atof_toStringD _, atof_toStringD _⟩

/-- C75: `toStringWithPrecision` does obey its precision: the text is a decimal number with
exactly `n` digits after the point (none and no point for `n = 0`), closest to the number. -/
theorem C75_toStringWithPrecision (x : ℚ) (n : Nat) : ∃ d : Dec, d.Ok ∧ d.fp.length = n ∧
    toStringWithPrecision x n = d.text ∧ |d.val - x| ≤ 1 / 2 * (1 / 10) ^ n := by
  have hconv : ∀ s : List Char, Digits s → ∃ ds : List (Fin 10), ds.map Dec.digit = s := by
    intro s
    induction s with
    | nil => intro _; exact ⟨[], rfl⟩
    | cons c s ih =>
      intro h
      obtain ⟨ds, hds⟩ := ih (fun c hc => h c (by simp [hc]))
      have hc := h c (by simp)
      unfold Char.isDigit at hc
      simp at hc
      have h1 : 48 ≤ c.toNat := UInt32.le_iff_toNat_le.1 hc.1
      have h2 : c.toNat ≤ 57 := UInt32.le_iff_toNat_le.1 hc.2
      refine ⟨⟨c.toNat - 48, by omega⟩ :: ds, ?_⟩
      rw [List.map_cons, hds]
      congr 1
      unfold Dec.digit
      have : 48 + (c.toNat - 48) = c.toNat := by omega
      simp only [this, Char.ofNat_toNat]
  have hclose := roundHE_close (|x| * 10 ^ n)
  have hnn : (0 : ℚ) ≤ |x| * 10 ^ n := by positivity
  have hr0 : 0 ≤ roundHE (|x| * 10 ^ n) := by
    have h1 := (abs_le.1 hclose).1
    have : (-1 : ℚ) < roundHE (|x| * 10 ^ n) := by linarith
    have : (-1 : Int) < roundHE (|x| * 10 ^ n) := by exact_mod_cast this
    omega
  obtain ⟨N, hN⟩ := Int.eq_ofNat_of_zero_le hr0
  have htext : toStringWithPrecision x n = sgn (decide (x < 0)) ++ fixedAbs n |x| := by
    unfold toStringWithPrecision OStream.putD OStream.setFixed OStream.new
    have : ¬ ((n : Int) < 0) := by omega
    simp [OStream.putS, sgn_signText, this]
  have hfix := fixedAbs_of_round n N |x| hN
  have hpow : (0 : ℚ) < 10 ^ n := by positivity
  have hval : |(N : ℚ) / 10 ^ n - abs x| ≤ 1 / 2 * (1 / 10) ^ n := by
    rw [hN] at hclose
    have e : (N : ℚ) / 10 ^ n - abs x = ((((N : Nat) : Int) : ℚ) - |x| * 10 ^ n) * (1 / 10) ^ n := by
      rw [one_div, inv_pow]; field_simp; simp
    rw [e, abs_mul, abs_of_pos (by positivity : (0 : ℚ) < (1 / 10) ^ n)]
    exact mul_le_mul_of_nonneg_right hclose (by positivity)
  have hfin : ∀ v : ℚ, v = (if decide (x < 0) then -((N : ℚ) / 10 ^ n) else (N : ℚ) / 10 ^ n) →
      |v - x| ≤ 1 / 2 * (1 / 10) ^ n := by
    intro v hv
    by_cases hx : x < 0
    · rw [abs_of_neg hx] at hval
      simp only [hx, decide_true, if_true] at hv
      have : v - x = -((N : ℚ) / 10 ^ n - -x) := by rw [hv]; ring
      rw [this, abs_neg]; exact hval
    · rw [abs_of_nonneg (not_lt.1 hx)] at hval
      simp only [hx, decide_false, Bool.false_eq_true, if_false] at hv
      rw [hv]; exact hval
  obtain ⟨ip, hip⟩ := hconv (natText (N / 10 ^ n)) (natText_digits _)
  have hok : ip ≠ [] := by
    rintro rfl; exact natText_ne _ hip.symm
  by_cases h0 : n = 0
  · refine ⟨⟨decide (x < 0), ip, []⟩, hok, h0.symm, ?_, ?_⟩
    · rw [htext, hfix, if_pos h0]
      unfold Dec.text
      simp only [hip, h0, pow_zero, Nat.div_one, if_true, List.append_nil]
      rfl
    · apply hfin
      rw [← atof_dec ⟨decide (x < 0), ip, []⟩ hok]
      have ht : Dec.text ⟨decide (x < 0), ip, []⟩ = sgn (decide (x < 0)) ++ (natText N ++ []) := by
        unfold Dec.text
        simp only [hip, h0, pow_zero, Nat.div_one, if_true, List.append_nil]
        rfl
      rw [ht, atof_nofrac _ _ [] (natText_ne _) (natText_digits _) (by simp), digitsVal_natText,
        readExp_nil, h0]
      simp
  · obtain ⟨fp, hfp⟩ := hconv (padText n (N % 10 ^ n)) (padText_digits _ _)
    have hlen : (padText n (N % 10 ^ n)).length = n :=
      padText_length n _ (by omega) (Nat.mod_lt _ (by positivity))
    have hfl : fp.length = n := by rw [← hlen, ← hfp, List.length_map]
    have hfne : fp ≠ [] := by rintro rfl; exact h0 (by simpa using hfl.symm)
    have ht : Dec.text ⟨decide (x < 0), ip, fp⟩ =
        sgn (decide (x < 0)) ++ (natText (N / 10 ^ n) ++ '.' :: (padText n (N % 10 ^ n) ++ [])) := by
      unfold Dec.text
      simp only [hip, hfp, hfne, if_false, List.append_nil]
      rw [List.append_assoc]; rfl
    refine ⟨⟨decide (x < 0), ip, fp⟩, hok, hfl, ?_, ?_⟩
    · rw [htext, hfix, if_neg h0, ht]; simp
    · apply hfin
      rw [← atof_dec ⟨decide (x < 0), ip, fp⟩ hok, ht, atof_frac _ _ _ [] (natText_ne _) (natText_digits _)
        (padText_digits _ _) (by simp), digitsVal_append, digitsVal_natText, digitsVal_padText, hlen,
        readExp_nil, Nat.div_add_mod']
      have hz : (10 : ℚ) ^ ((0 : Int) - (n : Int)) = ((10 : ℚ) ^ n)⁻¹ := by
        rw [zero_sub, zpow_neg, zpow_natCast]
      rw [hz]
      split <;> field_simp

example : toStringWithPrecision (-5 / 4) 1 = "-1.2".toList := by decide +kernel

/-- Pushing points that are pairwise different to within the tolerance. -/
theorem pushList_separated {tol : ℚ} (ht : 0 < tol) (qs : List (Pt ℚ))
    (hsep : TolSeparated tol {q | q ∈ qs}) (hpw : qs.Pairwise (fun a b => ¬ Close tol a b)) :
    (UList.pushList (fun a b : Pt ℚ => a.ltTol tol b) UList.empty qs).1.list = qs := by
  have hw := C09_swo_of_separated tol ht _ hsep
  rw [(UList.inv_pushList hw UList.inv_empty (fun x hx => hx)).2]
  have key : ∀ (xs acc : List (Pt ℚ)), (acc ++ xs).Pairwise (fun a b => ¬ Close tol a b) →
      xs.foldl (specPush (fun a b : Pt ℚ => a.ltTol tol b)) acc = acc ++ xs := by
    intro xs
    induction xs with
    | nil => intro acc _; simp
    | cons x xs ih =>
      intro acc h
      rw [List.foldl_cons]
      have : specPush (fun a b : Pt ℚ => a.ltTol tol b) acc x = acc ++ [x] := by
        unfold specPush
        rw [if_neg]
        rintro ⟨y, hy, he⟩
        have := (List.pairwise_append.1 h).2.2 y hy x (by simp)
        exact this ((equiv_iff_close tol ht y x).1 he)
      rw [this, ih (acc ++ [x]) (by simpa using h)]
      simp
  exact key qs [] (by simpa using hpw)

/-! ### C72 -/

/-- C72 fails for every mesh: the reader takes the edge section of a printed mesh for the polygon
section.  Reading a printed mesh back succeeds, but its polygons are one-vertex polygons, one for
each edge.  (`order` is the order in which the edge map happens to be traversed.) -/
theorem C72_edges_read_as_polygons_refuted (tol : ℚ) (p : Int) (order : List ISeg)
    (m : Mesh ℚ (Poly ℚ)) (ho : order.Perm (m.edges.map Prod.fst))
    (hi : ∀ s ∈ order, |s.p2| < 10 ^ 6) (hn : m.points.list.length ≤ 2147483647)
    (he : m.edges.size ≤ 2147483647) :
    ∃ m', createFromFile tol (some (printInFile p order m)) 0 Mesh.new = .ok m' ∧
      m'.polygons.map Poly.points = order.map (fun s => [s.p2]) := by
  have hlen : m.edges.size = order.length := by
    rw [ho.length_eq, List.length_map]; rfl
  have key := createFromStream_lines tol 0 Mesh.new (natText m.points.list.length)
    (natText m.edges.size) (natText_line _) (natText_line _)
    (ls := m.points.list.map ptString) (ks := order.map isegString)
    (qs := m.points.list.map (fun p => ⟨atof (toStringD p.x), atof (toStringD p.y)⟩))
    (ps := order.map (fun s => [s.p2]))
    (by rw [List.length_map]; exact atoi_nat _ hn)
    (by rw [List.length_map, ← hlen]; exact atoi_nat _ he)
    (by rw [List.forall₂_map_left_iff, List.forall₂_map_right_iff, List.forall₂_same]
        exact fun q _ => ptString_line q)
    (by rw [List.forall₂_map_left_iff, List.forall₂_map_right_iff, List.forall₂_same]
        exact fun s hs => isegString_line s (hi s hs))
    (unlines (natText m.polygons.length :: m.polygons.map (fun g => polyString g.points)))
  rw [← printInFile_eq] at key
  refine ⟨_, key, ?_⟩
  simp [Mesh.new, Poly.fresh, Function.comp_def]

/-- C72: hence no mesh that has edges and whose polygons have two or more vertices survives. -/
theorem C72_not_recovered_refuted (tol : ℚ) (p : Int) (order : List ISeg)
    (m : Mesh ℚ (Poly ℚ)) (ho : order.Perm (m.edges.map Prod.fst))
    (hi : ∀ s ∈ order, |s.p2| < 10 ^ 6) (hn : m.points.list.length ≤ 2147483647)
    (he : m.edges.size ≤ 2147483647) (hne : m.edges ≠ [])
    (hp : ∀ g ∈ m.polygons, 2 ≤ g.points.length) :
    ∃ m', createFromFile tol (some (printInFile p order m)) 0 Mesh.new = .ok m' ∧
      m'.polygons.map Poly.points ≠ m.polygons.map Poly.points := by
  obtain ⟨m', h1, h2⟩ := C72_edges_read_as_polygons_refuted tol p order m ho hi hn he
  refine ⟨m', h1, ?_⟩
  rw [h2]
  intro h3
  cases order with
  | nil =>
    have := ho.length_eq
    simp at this
    exact hne (List.length_eq_zero_iff.1 this.symm)
  | cons s ss =>
    cases hg : m.polygons with
    | nil => rw [hg] at h3; simp at h3
    | cons g gs =>
      rw [hg] at h3
      have h4 := (List.cons.inj h3).1
      have h5 := hp g (by rw [hg]; simp)
      rw [← h4] at h5
      simp at h5

/-- A triangle mesh. -/
def triMesh : Mesh ℚ (Poly ℚ) :=
  ⟨(UList.pushList (fun a b : Pt ℚ => a.ltTol (1 / 100000) b) UList.empty [⟨0, 0⟩, ⟨1, 0⟩, ⟨0, 1⟩]).1,
   [Poly.fresh [0, 1, 2]],
   ((SegMap.empty.insert (ISeg.mk' 0 1) 0).insert (ISeg.mk' 1 2) 0).insert (ISeg.mk' 2 0) 0,
   PtMap.empty⟩

example : (match createFromFile (1 / 100000) (some (printInFile 6 (triMesh.edges.map Prod.fst) triMesh))
    0 Mesh.new with | .ok m' => m'.polygons.map Poly.points | _ => []) = [[1], [2], [0]] := by
  decide +kernel

/-- C72, the part that holds: the points come back, rounded to six significant digits, if no two
of the rounded points are equal to within the tolerance.  Missing: the polygons (see above). -/
theorem C72_points_partial (tol : ℚ) (ht : 0 < tol) (p : Int) (order : List ISeg)
    (m : Mesh ℚ (Poly ℚ)) (ho : order.Perm (m.edges.map Prod.fst))
    (hi : ∀ s ∈ order, |s.p2| < 10 ^ 6) (hn : m.points.list.length ≤ 2147483647)
    (he : m.edges.size ≤ 2147483647) :
    ∃ qs : List (Pt ℚ),
      List.Forall₂ (fun a b => SixDigits a.x b.x ∧ SixDigits a.y b.y) m.points.list qs ∧
      (TolSeparated tol {q | q ∈ qs} → qs.Pairwise (fun a b => ¬ Close tol a b) →
        ∃ m', createFromFile tol (some (printInFile p order m)) 0 Mesh.new = .ok m' ∧
          m'.points.list = qs) := by
  have hlen : m.edges.size = order.length := by
    rw [ho.length_eq, List.length_map]; rfl
  refine ⟨m.points.list.map (fun p => ⟨atof (toStringD p.x), atof (toStringD p.y)⟩), ?_, ?_⟩
  · rw [List.forall₂_map_right_iff, List.forall₂_same]
    exact fun q _ => ⟨atof_toStringD _, atof_toStringD _⟩
  · intro hsep hpw
    have key := createFromStream_lines tol 0 Mesh.new (natText m.points.list.length)
      (natText m.edges.size) (natText_line _) (natText_line _)
      (ls := m.points.list.map ptString) (ks := order.map isegString)
      (qs := m.points.list.map (fun p => ⟨atof (toStringD p.x), atof (toStringD p.y)⟩))
      (ps := order.map (fun s => [s.p2]))
      (by rw [List.length_map]; exact atoi_nat _ hn)
      (by rw [List.length_map, ← hlen]; exact atoi_nat _ he)
      (by rw [List.forall₂_map_left_iff, List.forall₂_map_right_iff, List.forall₂_same]
          exact fun q _ => ptString_line q)
      (by rw [List.forall₂_map_left_iff, List.forall₂_map_right_iff, List.forall₂_same]
          exact fun s hs => isegString_line s (hi s hs))
      (unlines (natText m.polygons.length :: m.polygons.map (fun g => polyString g.points)))
    rw [← printInFile_eq] at key
    refine ⟨_, key, ?_⟩
    exact pushList_separated ht _ hsep hpw

/-! ### C73 -/

/-- The words of a polygon line: anything, then the indices (offset by `start`). -/
def PolygonWords (start : Int) (l : List Char) (idx : List Int) : Prop :=
  ∃ first, Words l (first :: idx.map (fun i => intText (i + start)))

/-- The words of a point line: two decimal numbers, then anything. -/
def PointWords (l : List Char) (q : Pt ℚ) : Prop :=
  ∃ (dx dy : Dec) (more : List (List Char)), dx.Ok ∧ dy.Ok ∧ Words l (dx.text :: dy.text :: more) ∧ q = ⟨dx.val, dy.val⟩

theorem pointLine_of_words {l : List Char} {q : Pt ℚ} (hl : IsLine l) (h : PointWords l q) :
    PointLine l q := by
  obtain ⟨dx, dy, more, h1, h2, hw, rfl⟩ := h
  exact ⟨hl, dx.text, dy.text, more, hw, by rw [atof_dec dx h1, atof_dec dy h2]⟩

theorem polyLine_of_words {start : Int} {l : List Char} {idx : List Int} (hl : IsLine l)
    (h : PolygonWords start l idx)
    (hb : ∀ i ∈ idx, |i + start| ≤ 2147483647 ∧ |i| ≤ 2147483647) : PolyLine start l idx := by
  obtain ⟨first, hw⟩ := h
  exact ⟨hl, _, hw, readIndices_ints start idx hb⟩

theorem forall₂_imp_mem {α β : Type} {R S : α → β → Prop} {l : List α} {k : List β}
    (h : List.Forall₂ R l k) (hi : ∀ a ∈ l, ∀ b ∈ k, R a b → S a b) : List.Forall₂ S l k := by
  induction h with
  | nil => exact .nil
  | cons h1 _ ih =>
    exact .cons (hi _ (by simp) _ (by simp) h1)
      (ih (fun a ha b hb => hi a (by simp [ha]) b (by simp [hb])))

/-- The sides of a polygon: each vertex with the next one, the last with the first. -/
def cycSides (p : List Int) : List (Int × Int) := p.zip (p.rotate 1)

theorem cycPairs_eq_sides (p : List Int) : cycPairs p = cycSides p := by
  unfold cycPairs cycSides
  cases p with
  | nil => rfl
  | cons a p => simp [List.rotate_cons_succ]

/-- Numbers of the polygons with the side `ab`, in order (once for each time it is a side). -/
def sideOwners (ps : List (List Int)) (a b : Int) : List Int :=
  ps.zipIdx.flatMap (fun x => ((cycSides x.1).filter
    (fun e => decide ((e.1 = a ∧ e.2 = b) ∨ (e.1 = b ∧ e.2 = a)))).map (fun _ => (x.2 : Int)))

theorem sideInserts_owners (a b : Int) (ps : List (List Int)) : ∀ i : Nat,
    ((sideInserts (i : Int) ps).filter
      (fun e => decide ((e.1 = a ∧ e.2.1 = b) ∨ (e.1 = b ∧ e.2.1 = a)))).map (fun e => e.2.2) =
    (ps.zipIdx i).flatMap (fun x => ((cycSides x.1).filter
      (fun e => decide ((e.1 = a ∧ e.2 = b) ∨ (e.1 = b ∧ e.2 = a)))).map (fun _ => (x.2 : Int))) := by
  induction ps with
  | nil => intro i; rfl
  | cons p ps ih =>
    intro i
    have e : ((i : Int) + 1) = ((i + 1 : Nat) : Int) := by push_cast; rfl
    rw [List.zipIdx_cons, List.flatMap_cons, ← ih (i + 1)]
    have hm : sideInserts (i : Int) (p :: ps) =
      (cycPairs p).map (fun e => (e.1, e.2, (i : Int))) ++ sideInserts ((i : Int) + 1) ps := rfl
    rw [hm, List.filter_append, List.map_append, e, cycPairs_eq_sides, List.filter_map, List.map_map]
    rfl

/-- C73: reading a file made of a number of points, the points, a number of polygons and the
polygons (indices counted from `start`, one per word, after the number of vertices) into a new
mesh gives exactly these polygons, and the neighbours recorded for a segment are the first and
the last of the polygons that have it as a side.  If different points of the file are not equal to
within the tolerance, the mesh has exactly these points.  Spacing, and anything after the two
coordinates, the counts or the end of the polygons, does not matter. -/
theorem C73_reader (tol : ℚ) (ht : 0 < tol) (start : Int) (h1 h2 : List Char)
    (ls ks : List (List Char)) (qs : List (Pt ℚ)) (ps : List (List Int)) (r : List Char)
    (hlines : ∀ l ∈ h1 :: ls ++ h2 :: ks, IsLine l)
    (hc1 : ∃ more, Words h1 (intText ls.length :: more))
    (hc2 : ∃ more, Words h2 (intText ks.length :: more))
    (hn1 : ls.length ≤ 2147483647) (hn2 : ks.length ≤ 2147483647)
    (hp : List.Forall₂ PointWords ls qs) (hg : List.Forall₂ (PolygonWords start) ks ps)
    (hb : ∀ p ∈ ps, ∀ i ∈ p, |i + start| ≤ 2147483647 ∧ |i| ≤ 2147483647) :
    ∃ m, createFromFile tol (some (unlines (h1 :: ls ++ h2 :: ks) ++ r)) start Mesh.new = .ok m ∧
      m.polygons.map Poly.points = ps ∧
      (∀ a b : Int, m.edges.find (ISeg.mk' a b) = remembered (sideOwners ps a b)) ∧
      (TolSeparated tol {q | q ∈ qs} → qs.Pairwise (fun a b => ¬ Close tol a b) →
        m.points.list = qs) := by
  obtain ⟨more1, hw1⟩ := hc1
  obtain ⟨more2, hw2⟩ := hc2
  have f1 : List.Forall₂ PointLine ls qs :=
    forall₂_imp_mem hp (fun l hl q _ h => pointLine_of_words (hlines l (by simp [hl])) h)
  have f2 : List.Forall₂ (PolyLine start) ks ps :=
    forall₂_imp_mem hg (fun l hl q hq h => polyLine_of_words (hlines l (by simp [hl])) h (hb q hq))
  have key := createFromStream_lines tol start Mesh.new h1 h2 (hlines h1 (by simp))
    (hlines h2 (by simp))
    (atoi_words h1 _ _ hw1 (by rw [abs_of_nonneg (by omega)]; exact_mod_cast hn1))
    (atoi_words h2 _ _ hw2 (by rw [abs_of_nonneg (by omega)]; exact_mod_cast hn2)) f1 f2 r
  refine ⟨_, key, ?_, ?_, ?_⟩
  · simp [Mesh.new, Poly.fresh, Function.comp_def]
  · intro a b
    show (insertSides SegMap.empty (sideInserts 0 ps)).find (ISeg.mk' a b) = _
    rw [run_insertSides, C59_neighbours]
    have := sideInserts_owners a b ps 0
    rw [Int.natCast_zero] at this
    rw [this]; rfl
  · intro hsep hpw
    exact pushList_separated ht qs hsep hpw

/-- A small mesh file, with one-based indices. -/
def sampleFile : List Char :=
  "4 points\n0 0\n1.0 0   a comment\n1 1\n 0.0 1\n2\n3 1 2 3\n3\t1 3 4\n".toList

example : (match createFromFile (1 / 100000) (some sampleFile) 1 Mesh.new with
    | .ok m => (m.points.list, m.polygons.map Poly.points, m.edges.find (ISeg.mk' 2 0),
        m.edges.find (ISeg.mk' 2 3))
    | _ => ([], [], none, none)) =
    ([⟨0, 0⟩, ⟨1, 0⟩, ⟨1, 1⟩, ⟨0, 1⟩], [[0, 1, 2], [0, 2, 3]], some ⟨some 0, 1⟩, some ⟨some 1, -1⟩) := by
  decide +kernel

/-- C73: a file that cannot be opened is reported by an exception, whatever the mesh contains. -/
theorem C73_missing_file (tol : ℚ) (start : Int) (m : Mesh ℚ (Poly ℚ)) : createFromFile tol none start m = .exn := rfl

/-- C73: repeated points in a file shift all later indices, so that polygons get other vertices
than the file says (here vertex 3 of the file becomes point 2, and index 3 does not exist). -/
theorem C73_repeated_points_refuted :
    (match createFromFile (1 / 100000)
        (some "4\n0 0\n0 0\n1 0\n1 1\n1\n3 1 2 3\n".toList) 0 Mesh.new with
    | .ok m => (m.points.list, m.polygons.map Poly.points)
    | _ => ([], [])) = ([⟨0, 0⟩, ⟨1, 0⟩, ⟨1, 1⟩], [[1, 2, 3]]) := by
  decide +kernel

/-! ### C79 -/

/-- C79: `indexOf` returns the first position whose element is equal to `x` ... -/
theorem C79_found {T : Type} (eq : T → T → Bool) (l : List T) (x : T) (i : Int) (hi : i ≠ -1) :
    UList.indexOf eq l x = i ↔ 0 ≤ i ∧ ∃ y, l[i.toNat]? = some y ∧ eq y x = true ∧
      ∀ j : Nat, j < i.toNat → ∀ z, l[j]? = some z → eq z x = false := by
  unfold UList.indexOf
  simp only
  by_cases h : l.findIdx (fun e => eq e x) < l.length
  · rw [if_pos h]
    have hf := List.findIdx_getElem (p := fun e => eq e x) (xs := l) (w := h)
    constructor
    · rintro rfl
      refine ⟨by omega, l[l.findIdx (fun e => eq e x)], ?_, hf, ?_⟩
      · simp [h]
      · intro j hj z hz
        rw [Int.toNat_natCast] at hj
        have := List.not_of_lt_findIdx hj
        have hz' : l[j]'(by omega) = z := by
          rw [List.getElem?_eq_getElem (by omega)] at hz
          exact Option.some.inj hz
        rw [hz'] at this
        simpa using this
    · rintro ⟨h0, y, hy, hxy, hmin⟩
      have hlt := (List.getElem?_eq_some_iff.1 hy).1
      rcases Nat.lt_trichotomy (l.findIdx (fun e => eq e x)) i.toNat with h1 | h1 | h1
      · have := hmin _ h1 _ (List.getElem?_eq_getElem h)
        rw [this] at hf; simp at hf
      · omega
      · have := List.not_of_lt_findIdx h1
        have hy' := (List.getElem?_eq_some_iff.1 hy).2
        rw [hy'] at this
        rw [hxy] at this; simp at this
  · rw [if_neg h]
    constructor
    · intro h1; exact absurd h1.symm hi
    · rintro ⟨h0, y, hy, hxy, _⟩
      exfalso
      apply h
      rw [List.findIdx_lt_length]
      exact ⟨y, List.mem_of_getElem? hy, hxy⟩

/-- ... and -1 exactly if there is none. -/
theorem C79_absent {T : Type} (eq : T → T → Bool) (l : List T) (x : T) :
    UList.indexOf eq l x = -1 ↔ ∀ y ∈ l, eq y x = false := by
  unfold UList.indexOf
  simp only
  by_cases h : l.findIdx (fun e => eq e x) < l.length
  · rw [if_pos h]
    constructor
    · intro h1; omega
    · intro h1
      rw [List.findIdx_lt_length] at h
      obtain ⟨y, hy, hxy⟩ := h
      rw [h1 y hy] at hxy; simp at hxy
  · rw [if_neg h]
    refine ⟨fun _ y hy => ?_, fun _ => rfl⟩
    rw [← Bool.not_eq_true]
    intro hxy
    exact h (List.findIdx_lt_length.2 ⟨y, hy, hxy⟩)

example : (UList.indexOf (fun a b : Int => a == b) [4, 7, 9, 7] 7,
    UList.indexOf (fun a b : Int => a == b) [4, 7, 9, 7] 5) = (1, -1) := by decide

/-! ### C80 -/

open Classical in
/-- C80: reading a file with a count and that many lines of coordinates appends exactly these
points to the seeds, in order, before the seeds are filtered (by `clean`, see C44).  Whatever
follows in the file is ignored. -/
theorem C80_reads_points (tol : ℚ) (r : Region ℚ) (hw : r.WF) (h : List Char)
    (ls : List (List Char)) (qs : List (Pt ℚ)) (rest : List Char)
    (hlines : ∀ l ∈ h :: ls, IsLine l) (hc : ∃ more, Words h (intText ls.length :: more))
    (hn : ls.length ≤ 2147483647) (hp : List.Forall₂ PointWords ls qs) :
    r.addSeedsFromFile tol (some (unlines (h :: ls) ++ rest)) =
      .ok { r with seeds := (r.seeds ++ qs).filter (fun q => decide (GoodSeed tol r q)) } := by
  obtain ⟨more, hwd⟩ := hc
  have f1 : List.Forall₂ PointLine ls qs :=
    forall₂_imp_mem hp (fun l hl q _ h => pointLine_of_words (hlines l (by simp [hl])) h)
  have he : unlines (h :: ls) ++ rest = h ++ '\n' :: (unlines ls ++ rest) := by
    rw [unlines_cons]; simp
  obtain ⟨line, hr⟩ := readPoints_lines f1 rest h
  have hat := atoi_words h _ _ hwd (by rw [abs_of_nonneg (by omega)]; exact_mod_cast hn)
  unfold Region.addSeedsFromFile IStream.ofText
  simp only
  rw [he, getline_line _ _ _ (hlines h (by simp)), hat, Outcome.bind_ok]
  simp only [Int.toNat_natCast]
  rw [hr, Outcome.bind_ok]
  exact C44_appendSeeds tol r hw qs

/-- C80: a file that cannot be opened throws and a count of zero or less reads nothing. -/
theorem C80_no_points (tol : ℚ) (r : Region ℚ) :
    r.addSeedsFromFile tol none = .exn ∧
    ∀ (h : List Char) (n : Int) (rest : List Char) (more : List (List Char)), IsLine h →
      n ≤ 0 → -2147483647 ≤ n → Words h (intText n :: more) →
      r.addSeedsFromFile tol (some (h ++ '\n' :: rest)) = r.appendSeeds tol [] := by
  refine ⟨rfl, ?_⟩
  intro h n rest more hl h0 h1 hw
  have hat := atoi_words h n more hw (by rw [abs_le]; omega)
  unfold Region.addSeedsFromFile IStream.ofText
  simp only
  rw [getline_line _ _ _ hl, hat, Outcome.bind_ok]
  have : n.toNat = 0 := by omega
  simp only [this]
  rfl

/-- C80: a file with fewer lines than its count says, the last one complete, makes the program
read past the end of an empty vector. -/
theorem C80_short_file_undefined (tol : ℚ) (r : Region ℚ) (h : List Char)
    (ls : List (List Char)) (qs : List (Pt ℚ)) (n : Nat)
    (hlines : ∀ l ∈ h :: ls, IsLine l) (hc : ∃ more, Words h (intText n :: more))
    (hn : n ≤ 2147483647) (hp : List.Forall₂ PointWords ls qs) (hlt : ls.length < n) :
    r.addSeedsFromFile tol (some (unlines (h :: ls))) = .ub := by
  obtain ⟨more, hwd⟩ := hc
  have hat := atoi_words h _ _ hwd (by rw [abs_of_nonneg (by omega)]; exact_mod_cast hn)
  have key : ∀ (ls : List (List Char)) (qs : List (Pt ℚ)) (n : Nat) (old : List Char),
      List.Forall₂ PointLine ls qs → ls.length < n →
      readPoints n ⟨unlines ls, false⟩ old = .ub := by
    intro ls
    induction ls with
    | nil =>
      intro qs n old _ hn
      obtain ⟨k, rfl⟩ : ∃ k, n = k + 1 := ⟨n - 1, by simp at hn; omega⟩
      rfl
    | cons l ls ih =>
      intro qs n old hf hn
      obtain ⟨k, rfl⟩ : ∃ k, n = k + 1 := ⟨n - 1, by simp at hn; omega⟩
      cases hf with
      | cons h1 h2 =>
        have hm : readPoints (k + 1) ⟨unlines (l :: ls), false⟩ old =
          (readPoint ⟨unlines (l :: ls), false⟩ old >>= fun x =>
            readPoints k x.1 x.2.1 >>= fun rs => pure (rs.1, rs.2.1, x.2.2 :: rs.2.2)) := rfl
        rw [hm, unlines_cons, readPoint_line _ _ _ _ h1, Outcome.bind_ok]
        simp only
        rw [ih _ k l h2 (by simp at hn; omega)]
        rfl
  have f1 : List.Forall₂ PointLine ls qs :=
    forall₂_imp_mem hp (fun l hl q _ h => pointLine_of_words (hlines l (by simp [hl])) h)
  unfold Region.addSeedsFromFile IStream.ofText
  simp only
  rw [unlines_cons, getline_line _ _ _ (hlines h (by simp)), hat, Outcome.bind_ok]
  simp only [Int.toNat_natCast]
  rw [key ls qs n h f1 hlt]
  rfl

/-- C80: without a newline at its end, the last point of a short file is read again and again. -/
theorem C80_short_file_repeats_refuted (r : Region ℚ) :
    ∃ text : List Char, text = "3\n1 2".toList ∧ ∀ tol,
      r.addSeedsFromFile tol (some text) = r.appendSeeds tol [⟨1, 2⟩, ⟨1, 2⟩, ⟨1, 2⟩] := by
  refine ⟨_, rfl, ?_⟩
  intro tol
  have e : (atoi ((IStream.ofText "3\n1 2".toList).getline []).2 >>= fun n =>
      readPoints n.toNat ((IStream.ofText "3\n1 2".toList).getline []).1
        ((IStream.ofText "3\n1 2".toList).getline []).2) =
      .ok (⟨[], true⟩, "1 2".toList, [⟨1, 2⟩, ⟨1, 2⟩, ⟨1, 2⟩]) := by decide +kernel
  unfold Region.addSeedsFromFile
  simp only
  cases h1 : atoi ((IStream.ofText "3\n1 2".toList).getline []).2 with
  | exn => rw [h1] at e; cases e
  | ub => rw [h1] at e; cases e
  | ok n =>
    rw [h1, Outcome.bind_ok] at e
    rw [Outcome.bind_ok, e]
    rfl

example : (match (⟨Poly.fresh [0, 1, 2, 3], [⟨0, 0⟩, ⟨4, 0⟩, ⟨4, 4⟩, ⟨0, 4⟩], [], []⟩ : Region ℚ).addSeedsFromFile
    (1 / 100000) (some "3\n1 1\n2.50 -3\n 1e0 20e-1\n".toList) with
    | .ok r => r.seeds | _ => []) = [⟨1, 1⟩, ⟨1, 2⟩] := by decide +kernel

end Delynoi
