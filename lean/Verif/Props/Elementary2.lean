import Verif.Model.IndexSegment
import Verif.Model.Neighbours
import Verif.Model.Generator
import Verif.Model.MeshObj
import Verif.Model.Trig
import Verif.Model.Text
import Verif.Model.Double
import Verif.Proofs.Numeral
import Verif.Proofs.Double
import Verif.Proofs.Exact
import Verif.Props.Generator
import Mathlib.Tactic.Linarith
import Mathlib.Tactic.NormNum
/-!
# Properties C155-C157, and more about C22, C52, C86 and C94: small functions
-/
set_option linter.unusedSectionVars false
namespace Delynoi

/-! ## C155: index segments and their neighbours -/

/-- C155: `isVertex` tells whether the index is one of the two ends. -/
theorem C155_isVertex (a : ISeg) (i : Int) : a.isVertex i = true ↔ i = a.p1 ∨ i = a.p2 := by
  unfold ISeg.isVertex
  rw [Bool.or_eq_true, beq_iff_eq, beq_iff_eq, eq_comm, @eq_comm _ a.p2]

/-- C155: `operator<` is the lexicographic order of the ends. -/
theorem C155_lt (a b : ISeg) : a.lt b = true ↔ a.p1 < b.p1 ∨ (a.p1 = b.p1 ∧ a.p2 < b.p2) := by
  unfold ISeg.lt
  split_ifs with h <;> simp [h]

/-- C155: so it is a strict total order of the pairs of ends, fit for `std::map`. -/
theorem C155_lt_order (a b c : ISeg) : a.lt a = false ∧ (a.lt b = true → b.lt c = true → a.lt c = true) ∧
    (a.lt b = true ∨ b.lt a = true ∨ (a.p1 = b.p1 ∧ a.p2 = b.p2)) := by
  refine ⟨?_, ?_, ?_⟩
  · rw [Bool.eq_false_iff]
    intro h
    rw [C155_lt] at h
    omega
  · simp only [C155_lt]; omega
  · simp only [C155_lt]; omega

/-- C155: but it is not compatible with `operator==`, which ignores the direction: equal segments are
ordered. -/
theorem C155_lt_eq_refuted : ∃ a b : ISeg, a.eq b = true ∧ a.lt b = true :=
  ⟨ISeg.mk' 1 2, ISeg.mk' 2 1, by decide, by decide⟩

/-- C155: `operator==` of neighbour pairs compares unordered pairs; an object whose first member was never
set must not be compared. -/
theorem C155_neighbours_eq (a b : NbSeg) :
    (∀ i j, a.n1 = some i → b.n1 = some j →
      ∃ r, a.eq b = .ok r ∧ (r = true ↔ ({i, a.n2} : Multiset Int) = {j, b.n2})) ∧
    ((a.n1 = none ∨ b.n1 = none) → a.eq b = .ub) := by
  constructor
  · intro i j hi hj
    refine ⟨_, by simp [NbSeg.eq, NbSeg.getFirst, hi, hj]; rfl, ?_⟩
    rw [Multiset.insert_eq_cons, Multiset.insert_eq_cons, Multiset.cons_eq_cons]
    simp only [Bool.or_eq_true, Bool.and_eq_true, beq_iff_eq]
    constructor
    · rintro (⟨h1, h2⟩ | ⟨h1, h2⟩)
      · left; exact ⟨h1, by rw [h2]⟩
      · by_cases e : i = j
        · left; exact ⟨e, by rw [h2, ← h1, e]⟩
        · right; exact ⟨e, 0, by rw [h2]; rfl, by rw [h1]; rfl⟩
    · rintro (⟨h1, h2⟩ | ⟨h1, cs, h2, h3⟩)
      · left; exact ⟨h1, by simpa using h2⟩
      · right
        have e1 : cs = 0 := by
          have := congrArg Multiset.card h2
          simp at this
          exact this
        subst e1
        simp at h2 h3
        exact ⟨h3.symm, h2⟩
  · rintro (h | h)
    · simp [NbSeg.eq, NbSeg.getFirst, h]
    · unfold NbSeg.eq NbSeg.getFirst
      cases a.n1 <;> simp [h]

example : (NbSeg.two 3 5).eq (NbSeg.two 5 3) = .ok true ∧ (NbSeg.two 3 5).eq (NbSeg.two 3 4) = .ok false ∧
    NbSeg.default'.eq (NbSeg.one 0) = .ub := by decide

section
variable {K : Type} [Field K] [LinearOrder K]

theorem vecGet_of {p : List (Pt K)} {i : Int} (h0 : 0 ≤ i) (h : i < p.length) :
    vecGet p i = .ok (p[i.toNat]'(by omega)) := by
  unfold vecGet
  rw [if_pos h0, List.getElem?_eq_getElem (by omega)]

theorem vecGet_bad {p : List (Pt K)} {i : Int} (h : i < 0 ∨ (p.length : Int) ≤ i) : vecGet p i = .ub := by
  unfold vecGet
  split_ifs with h0
  · rw [List.getElem?_eq_none (by omega)]
  · rfl

/-- C155: the geometric functions of index segments are those of the segments between the points that the
indices name. -/
theorem C155_geometry (tol : K) (p : List (Pt K)) (s o : ISeg) (q a b c d : Pt K) (ha : vecGet p s.p1 = .ok a)
    (hb : vecGet p s.p2 = .ok b) (hc : vecGet p o.p1 = .ok c) (hd : vecGet p o.p2 = .ok d) :
    ISeg.intersection tol p s o = .ok (Seg.intersects tol a b c d) ∧ ISeg.contains tol p q s = .ok (Seg.contains tol q a b) ∧
      ISeg.middlePoint p s = .ok (Seg.middle a b) := by
  unfold ISeg.intersection ISeg.contains ISeg.middlePoint
  simp [ha, hb, hc, hd]

/-- C155: an index outside the list is undefined behaviour. -/
theorem C155_wild (tol : K) (p : List (Pt K)) (s o : ISeg) (q : Pt K)
    (h : (s.p1 < 0 ∨ (p.length : Int) ≤ s.p1) ∨ (s.p2 < 0 ∨ (p.length : Int) ≤ s.p2)) :
    ISeg.intersection tol p s o = .ub ∧ ISeg.contains tol p q s = .ub ∧ ISeg.middlePoint p s = .ub := by
  unfold ISeg.intersection ISeg.contains ISeg.middlePoint
  rcases h with h | h
  · simp [vecGet_bad h]
  · by_cases g : s.p1 < 0 ∨ (p.length : Int) ≤ s.p1
    · simp [vecGet_bad g]
    · push Not at g
      simp [vecGet_bad h, vecGet_of g.1 g.2]
end

example : ISeg.intersection (1 / 100000) [⟨0, 0⟩, ⟨4, 4⟩, ⟨0, 4⟩, ⟨4, (0 : ℚ)⟩] (ISeg.mk' 0 1) (ISeg.mk' 2 3) = .ok (some ⟨2, 2⟩) ∧
    ISeg.intersection (1 / 100000) [⟨0, 0⟩, ⟨4, (4 : ℚ)⟩] (ISeg.mk' 0 1) (ISeg.mk' 0 2) = .ub := by decide +kernel

/-! ## C156: reading numbers -/

theorem readSign_sgn (neg : Bool) (ds r : List Char) (h0 : ds ≠ []) (hd : ∀ c ∈ ds, c.isDigit = true) :
    readSign ((sgn neg ++ (ds ++ r)).dropWhile isSpace) = (neg, ds ++ r) := by
  obtain ⟨c, ds', rfl⟩ := List.exists_cons_of_ne_nil h0
  have hc := hd c (by simp)
  cases neg with
  | true => rfl
  | false =>
    have hs := isDigit_not_space hc
    simp only [sgn, Bool.false_eq_true, if_false, List.nil_append, List.cons_append, List.dropWhile_cons, hs]
    unfold readSign
    split
    · rename_i h; cases h; simp at hc
    · rename_i h; cases h; simp at hc
    · rfl

/-- C156: `atoi` of spaces, an optional minus sign, a decimal numeral and anything that does not start with a
digit: the number, if it is an `int`; undefined behaviour otherwise. -/
theorem C156_atoi (sp : List Char) (hsp : ∀ c ∈ sp, isSpace c = true) (neg : Bool) (ds : List (Fin 10)) (h0 : ds ≠ [])
    (r : List Char) (hr : ∀ c, r.head? = some c → c.isDigit = false) (v : Int)
    (hv : v = if neg then -(Dec.nat ds : Int) else Dec.nat ds) :
    (-2147483648 ≤ v → v ≤ 2147483647 → atoi (sp ++ sgn neg ++ ds.map Dec.digit ++ r) = .ok v) ∧
    ((v < -2147483648 ∨ 2147483647 < v) → atoi (sp ++ sgn neg ++ ds.map Dec.digit ++ r) = .ub) := by
  have hd : ∀ c ∈ ds.map Dec.digit, c.isDigit = true := dec_digits ds
  have e1 : (sp ++ sgn neg ++ ds.map Dec.digit ++ r).dropWhile isSpace = (sgn neg ++ (ds.map Dec.digit ++ r)).dropWhile isSpace := by
    rw [List.append_assoc, List.append_assoc]
    induction sp with
    | nil => rfl
    | cons c sp ih =>
      rw [List.cons_append, List.dropWhile_cons, if_pos (hsp c (by simp))]
      exact ih fun x hx => hsp x (by simp [hx])
  have e2 := readSign_sgn neg (ds.map Dec.digit) r (by simpa using h0) hd
  have e3 := (takeWhile_split Char.isDigit (ds.map Dec.digit) r hd hr).1
  have e4 : atoi (sp ++ sgn neg ++ ds.map Dec.digit ++ r) =
      if -2147483648 ≤ v ∧ v ≤ 2147483647 then .ok v else .ub := by
    unfold atoi
    simp only [e1, e2, e3, digitsVal_dec, hv]
  rw [e4]
  constructor
  · intro h1 h2
    rw [if_pos ⟨h1, h2⟩]
  · intro h
    rw [if_neg (by omega)]

/-- C156: without a digit `atoi` and `atof` give 0, as for an empty line. -/
theorem C156_no_digit (s : List Char) (h : ∀ c ∈ s, c.isDigit = false) : atoi s = .ok 0 ∧ atof s = 0 := by
  have hsub : ∀ c ∈ (readSign (s.dropWhile isSpace)).2, c.isDigit = false := by
    intro c hc
    have h1 : ∀ t : List Char, ∀ c ∈ (readSign t).2, c ∈ t := by
      intro t c hc
      unfold readSign at hc
      split at hc
      · exact List.mem_cons_of_mem _ hc
      · exact List.mem_cons_of_mem _ hc
      · exact hc
    exact h c ((List.dropWhile_sublist _).subset (h1 _ c hc))
  have tk : ∀ t : List Char, (∀ c ∈ t, c.isDigit = false) → t.takeWhile Char.isDigit = [] := by
    intro t ht
    cases t with
    | nil => rfl
    | cons c t => rw [List.takeWhile_cons, ht c (by simp)]; rfl
  have e := tk _ hsub
  constructor
  · unfold atoi
    simp only [e]
    have : digitsVal [] = 0 := rfl
    rw [this]
    split_ifs <;> simp_all
  · unfold atof
    simp only [e]
    rw [if_pos]
    refine ⟨trivial, ?_⟩
    have hsub2 : ∀ c ∈ ((readSign (s.dropWhile isSpace)).2.dropWhile Char.isDigit), c.isDigit = false :=
      fun c hc => hsub c ((List.dropWhile_sublist _).subset hc)
    unfold readFrac
    split
    · rename_i t ht
      rw [ht] at hsub2
      exact tk t fun c hc => hsub2 c (by simp [hc])
    · rfl

example : atoi "  -2147483648 x".toList = .ok (-2147483648) ∧ atoi "2147483648".toList = .ub ∧ atoi "".toList = .ok 0 ∧
    atof "abc".toList = 0 ∧ atof ".5".toList = 1 / 2 := by decide +kernel

/-! ## C157: the order of angles -/

section
variable {K : Type} [Field K] [LinearOrder K] [IsStrictOrderedRing K]

/-- C157: `Angle::operator<` holds exactly if the first angle is smaller by at least the tolerance. -/
theorem C157_angleLt (tol a b : K) (ht : 0 < tol) : angleLt tol a b = true ↔ a + tol ≤ b := by
  unfold angleLt
  split_ifs with h
  · rw [abs_lt] at h
    simp only [Bool.false_eq_true, false_iff, not_le]
    linarith
  · rw [not_lt, le_abs] at h
    rw [decide_eq_true_iff]
    constructor
    · intro h1
      rcases h with h | h <;> linarith
    · intro h1
      linarith

/-- C157: it is irreflexive, asymmetric and transitive. -/
theorem C157_order (tol a b c : K) (ht : 0 < tol) : angleLt tol a a = false ∧
    (angleLt tol a b = true → angleLt tol b a = false) ∧
    (angleLt tol a b = true → angleLt tol b c = true → angleLt tol a c = true) := by
  refine ⟨?_, ?_, ?_⟩
  · rw [Bool.eq_false_iff, Ne, C157_angleLt tol _ _ ht]; linarith
  · rw [Bool.eq_false_iff, Ne, C157_angleLt tol _ _ ht, C157_angleLt tol _ _ ht]; intro h h'; linarith
  · simp only [C157_angleLt tol _ _ ht]; intro h h'; linarith

end

/-- C157: but being neither smaller nor larger is not transitive, so that it is no order for `std::map`. -/
theorem C157_weak_order_refuted : ∃ a b c : ℚ, angleLt (1 / 100000) a b = false ∧ angleLt (1 / 100000) b a = false ∧
    angleLt (1 / 100000) b c = false ∧ angleLt (1 / 100000) c b = false ∧ angleLt (1 / 100000) a c = true :=
  ⟨0, 6 / 1000000, 12 / 1000000, by decide +kernel, by decide +kernel, by decide +kernel, by decide +kernel, by decide +kernel⟩

/-! ## C52: the shift by a functor -/

section
variable {K : Type} [Field K] [LinearOrder K] [IsStrictOrderedRing K] {σ : Type}

/-- C52: if the functor over `x` returns numbers, each point of the grid is shifted upwards by its number. -/
theorem C52_free_x_numbers (xf : Bool) (f : Fn σ K) (box : BBox K) (nX nY : Int) (hX : nX ≠ 1) (hY : nY ≠ 1) (s s' : σ)
    (rs : List K)
    (h : Fn.run f s ((Gen.gridPairs nX nY).map (fun e => Gen.gridCoord box.xMin box.width nX e.2)) = .ok (rs.map some, s')) :
    ∃ g, Gen.ofOne f .x = .ok g ∧ g.generate xf s box nX nY =
      .ok (List.zipWith (fun e r => (⟨some (box.xMin + (e.2 : K) * (box.width / ((nX - 1 : Int) : K))),
        some (box.yMin + (e.1 : K) * (box.height / ((nY - 1 : Int) : K)) + r)⟩ : Pt (Option K))) (Gen.gridPairs nX nY) rs, s') := by
  obtain ⟨g, h1, h2⟩ := C52_free_x xf f box nX nY s s' (rs.map some) h
  refine ⟨g, h1, ?_⟩
  rw [h2, List.zipWith_map_right]
  simp only [Gen.gridCoord, if_neg hX, if_neg hY, Gen.addNum]
end

/-! ## C94: the width of a box -/

/-- C94: the width of a box is computed with one rounding. -/
theorem C94_width (b : BBox ℚ) (h1 : IsDouble b.p1.x) (h2 : IsDouble b.p2.x) :
    Rnd.width fl b = fl b.width ∧ |Rnd.width fl b - b.width| ≤ uRnd * b.width := by
  have e : Rnd.width fl b = fl b.width := by
    unfold Rnd.width BBox.width
    exact fl_abs _
  refine ⟨e, ?_⟩
  have h := fl_add_error h1 h2.neg
  rw [← sub_eq_add_neg] at h
  rw [e]
  unfold BBox.width
  rw [← fl_abs]
  exact (abs_abs_sub_abs_le _ _).trans h

/-! ## C86, C22 -/

/-- C86: an object whose maps are gone must not be used. -/
theorem C86_wild (h : Heap) (o : MeshObj) (hw : h.segs.length ≤ o.edges ∨ h.pms.length ≤ o.pointMap) : o.view h = .ub := by
  unfold MeshObj.view
  rcases hw with hw | hw
  · rw [List.getElem?_eq_none hw]
  · rw [List.getElem?_eq_none hw]
    cases h.segs[o.edges]? <;> rfl

/-- C22: the branch which no polygon reaches would compute the centroid anew at every call, as it leaves the
flag as it is. -/
theorem C22_other_branch {K : Type} [Field K] [LinearOrder K] (g : Poly K) (p l : List (Pt K)) (hg : g.centroidEmpty = false)
    (hl : resolve p g.points = .ok l) :
    ∃ g', g.getCentroid p = .ok (g', calculateCentroid l) ∧ g'.centroidEmpty = false := by
  unfold Poly.getCentroid
  rw [if_pos (by rw [hg]; rfl), hl]
  simp only [Outcome.bind_ok]
  cases calculateCentroid l with
  | some c => exact ⟨_, rfl, rfl⟩
  | none => exact ⟨_, rfl, hg ▸ rfl⟩

end Delynoi
