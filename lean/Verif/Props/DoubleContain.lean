import Verif.Proofs.RoundingDiv
import Verif.Props.DoublePoly
import Verif.Props.Contain
/-!
# C115: point-in-polygon test and convexity test in binary64 arithmetic
-/
set_option linter.unusedSectionVars false
namespace Delynoi

/-- A bound of the rounding error of the crossing coordinate on the edge from `a` to `b`. -/
def crossErr (a b : Pt ℚ) : ℚ :=
  (gRnd ^ 7 - 1) * (|a.x| + |b.x - a.x|) + gRnd * (gRnd * (etaRnd * (gRnd * |b.x - a.x|)) + etaRnd)

/-- Where the edge from `a` to `b` crosses the height of `q`, it is farther from `q` than the
rounding error. -/
def ClearOf (a b q : Pt ℚ) : Prop :=
  min a.y b.y ≤ q.y → q.y < max a.y b.y → ∀ t, (lineAt a b t).y = q.y → crossErr a b < |(lineAt a b t).x - q.x|

/-- The error of `Segment::contains` at the area test. -/
def containsErr (a b q : Pt ℚ) : ℚ :=
  (gRnd ^ 4 - 1) * (|a.x * (b.y - q.y)| + |b.x * (q.y - a.y)| + |q.x * (a.y - b.y)|) + gRnd ^ 2 * (3 * etaRnd)

private theorem line_cross (a b q : Pt ℚ) (h : b.y - a.y ≠ 0) :
    (lineAt a b ((q.y - a.y) / (b.y - a.y))).y = q.y ∧
    (lineAt a b ((q.y - a.y) / (b.y - a.y))).x = a.x + (q.y - a.y) / (b.y - a.y) * (b.x - a.x) := by
  simp only [lineAt]
  constructor
  · field_simp; ring
  · ring

/-- Being clear of an edge, with the crossing computed. -/
theorem clearOf_iff (a b q : Pt ℚ) : ClearOf a b q ↔ (min a.y b.y ≤ q.y → q.y < max a.y b.y →
    crossErr a b < |a.x + (q.y - a.y) / (b.y - a.y) * (b.x - a.x) - q.x|) := by
  unfold ClearOf
  refine imp_congr_right fun h1 => imp_congr_right fun h2 => ?_
  have hne : b.y - a.y ≠ 0 := by
    intro h
    have : b.y = a.y := by linarith
    rw [this, min_self] at h1
    rw [this, max_self] at h2
    linarith
  obtain ⟨l1, l2⟩ := line_cross a b q hne
  constructor
  · intro h
    have := h _ l1
    rwa [l2] at this
  · intro h t ht
    have : t = (q.y - a.y) / (b.y - a.y) := by
      rw [eq_div_iff hne]
      simp only [lineAt] at ht
      linarith
    rw [this, l2]; exact h

/-- C115: the crossing test of an edge is right if the point is clear of the edge. -/
theorem C115_crosses (a b q : Pt ℚ) (ha : DPt a) (hb : DPt b) (hq : DPt q) (h : ClearOf a b q) :
    Rnd.crosses fl a b q = true ↔ CrossesLeft b a q := by
  rw [← crosses_iff]
  unfold Rnd.crosses crosses
  by_cases hs : (a.y ≤ q.y ∧ b.y > q.y) ∨ (b.y ≤ q.y ∧ a.y > q.y)
  · have hne : b.y - a.y ≠ 0 := by
      rcases hs with ⟨h1, h2⟩ | ⟨h1, h2⟩
      · exact ne_of_gt (by linarith)
      · exact ne_of_lt (by linarith)
    have ht : |(q.y - a.y) / (b.y - a.y)| ≤ 1 := by
      rw [abs_div, div_le_one (abs_pos.2 hne)]
      rcases hs with ⟨h1, h2⟩ | ⟨h1, h2⟩
      · rw [abs_of_nonneg (by linarith), abs_of_nonneg (by linarith)]; linarith
      · rw [abs_of_nonpos (by linarith), abs_of_nonpos (by linarith)]; linarith
    have hmin : min a.y b.y ≤ q.y := by
      rcases hs with ⟨h1, _⟩ | ⟨h1, _⟩
      · exact (min_le_left _ _).trans h1
      · exact (min_le_right _ _).trans h1
    have hmax : q.y < max a.y b.y := by
      rcases hs with ⟨_, h1⟩ | ⟨_, h1⟩
      · exact lt_of_lt_of_le h1 (le_max_right _ _)
      · exact lt_of_lt_of_le h1 (le_max_left _ _)
    obtain ⟨l1, l2⟩ := line_cross a b q hne
    have hc := h hmin hmax _ l1
    rw [l2] at hc
    have he := (crossX_apx a b q ha hb hq hne ht).err
    have h3 := he.trans_lt hc
    simp only [Bool.and_eq_true, decide_eq_true_eq]
    apply and_congr_right
    intro _
    generalize fl (a.x + fl (fl (fl (q.y - a.y) / fl (b.y - a.y)) * fl (b.x - a.x))) = X' at *
    generalize a.x + (q.y - a.y) / (b.y - a.y) * (b.x - a.x) = X at *
    rw [abs_lt] at h3
    rcases le_total X q.x with h4 | h4
    · rw [abs_of_nonpos (by linarith)] at h3
      constructor
      · intro h5
        rcases h4.lt_or_eq with h6 | h6
        · exact h6
        · rw [h6] at h3; linarith
      · intro _; linarith
    · rw [abs_of_nonneg (by linarith)] at h3
      constructor
      · intro h5; linarith
      · intro h5; linarith
  · have : ((decide (a.y ≤ q.y) && decide (b.y > q.y)) || (decide (b.y ≤ q.y) && decide (a.y > q.y))) = false := by
      rw [← Bool.not_eq_true, Bool.or_eq_true, Bool.and_eq_true, Bool.and_eq_true]
      simpa only [decide_eq_true_eq] using hs
    rw [this]; simp

/-- The point is clear of all edges of the polygon. -/
def ClearOfEdges (l : List (Pt ℚ)) (q : Pt ℚ) : Prop :=
  ∀ i : Fin l.length, ClearOf (nextV l i) l[i] q

private theorem clear_iff {tol : ℚ} (htol : IsDouble tol) {l : List (Pt ℚ)} {q : Pt ℚ} (h : ClearOfEdges l q)
    (hn : NeighboursApart tol l) :
    ∀ e ∈ cycPairs l, ClearOf e.2 e.1 q ∧ (Rnd.eqTol fl tol e.2 e.1 = true → e.1 = e.2) := by
  intro e he
  rw [cycPairs_eq_finRange] at he
  obtain ⟨i, _, rfl⟩ := List.mem_map.1 he
  refine ⟨h i, fun h1 => hn i ?_⟩
  have := C89_eq_sound tol htol _ _ h1
  unfold Close at this ⊢
  rw [abs_sub_comm l[i].x, abs_sub_comm l[i].y]
  exact this

open Classical in
private theorem rnd_oddLoop_eq (tol : ℚ) (q : Pt ℚ) (hq : DPt q) : ∀ (l : List (Pt ℚ)) (z : Pt ℚ) (odd : Bool),
    DPt z → (∀ p ∈ l, DPt p) →
    (∀ e ∈ (z :: l).zip l, ClearOf e.2 e.1 q ∧ (Rnd.eqTol fl tol e.2 e.1 = true → e.1 = e.2)) →
    Rnd.oddLoop fl tol q z odd l = (odd ^^ decide (Odd (((z :: l).zip l).countP
      (fun e => decide (CrossesLeft e.1 e.2 q))))) := by
  intro l
  induction l with
  | nil => intro z odd _ _ _; simp [Rnd.oddLoop]
  | cons a l ih =>
    intro z odd hz hl h
    have ha : DPt a := hl a (by simp)
    have hl' : ∀ p ∈ l, DPt p := fun p hp => hl p (List.mem_cons_of_mem _ hp)
    have htail : ∀ e ∈ (a :: l).zip l, ClearOf e.2 e.1 q ∧ (Rnd.eqTol fl tol e.2 e.1 = true → e.1 = e.2) :=
      fun e he => h e (by simp only [List.zip_cons_cons, List.mem_cons]; exact Or.inr he)
    obtain ⟨h1, h2⟩ := h (z, a) (by simp)
    by_cases h0 : Rnd.eqTol fl tol a z = true
    · have hza : z = a := h2 h0
      subst hza
      simp only [Rnd.oddLoop, h0, if_true]
      rw [ih _ _ hz hl' htail]
      rw [show (z :: z :: l).zip (z :: l) = (z, z) :: (z :: l).zip l from rfl, List.countP_cons]
      have hx : ¬ CrossesLeft z z q := by
        rintro ⟨h1, h2, _⟩
        rw [min_self] at h1
        rw [max_self] at h2
        linarith
      simp [hx]
    · rw [Bool.not_eq_true] at h0
      have hc : Rnd.crosses fl a z q = decide (CrossesLeft z a q) := by
        rw [Bool.eq_iff_iff, C115_crosses a z q ha hz hq h1, decide_eq_true_eq]
      simp only [Rnd.oddLoop, h0, Bool.false_eq_true, if_false]
      rw [ih _ _ ha hl' htail]
      rw [show (z :: a :: l).zip (a :: l) = (z, a) :: (a :: l).zip l from rfl, List.countP_cons]
      rw [hc]
      by_cases hx : CrossesLeft z a q
      · simp only [hx, decide_true, if_true]
        generalize ((a :: l).zip l).countP (fun e => decide (CrossesLeft e.1 e.2 q)) = n
        rcases Nat.even_or_odd n with he | he
        · have h1 := Nat.not_odd_iff_even.2 he
          have h2 : Odd (n + 1) := he.add_one
          simp only [h1, h2, decide_true, decide_false]
          cases odd <;> rfl
        · have h2 : ¬ Odd (n + 1) := Nat.not_odd_iff_even.2 he.add_one
          simp only [he, h2, decide_true, decide_false]
          cases odd <;> rfl
      · simp [hx]

/-- C115: if the point is clear of the edges, the binary64 point-in-polygon test accepts it exactly if
the crossing parity is odd or some edge is computed to contain it. -/
theorem C115_containsPoint (tol : ℚ) (htol : IsDouble tol) (l : List (Pt ℚ)) (q : Pt ℚ) (hl : ∀ p ∈ l, DPt p)
    (hq : DPt q) (hn : NeighboursApart tol l) (h : ClearOfEdges l q) :
    Rnd.containsPoint fl tol l q = true ↔
      Odd (crossings l q) ∨ ∃ i : Fin l.length, Rnd.contains fl tol q l[i] (nextV l i) = true := by
  have hany : (cycPairs l).any (fun e => Rnd.contains fl tol q e.1 e.2) = true ↔
      ∃ i : Fin l.length, Rnd.contains fl tol q l[i] (nextV l i) = true := by
    rw [cycPairs_eq_finRange, List.any_map, List.any_eq_true]
    simp
  rw [← hany]
  cases l with
  | nil => simp [Rnd.containsPoint, cycPairs, crossings]
  | cons a l =>
    classical
    have hg : (a :: l).getLast? = some ((a :: l).getLast (by simp)) :=
      List.getLast?_eq_some_getLast (by simp)
    replace h := clear_iff htol h hn
    have hp : (((a :: l).getLast (by simp) :: a :: l).zip (a :: l)).Perm (cycPairs (a :: l)) := by
      rw [zip_closing, List.zip_cons_cons]
      exact (List.perm_append_singleton _ _).symm
    have hodd : Rnd.oddLoop fl tol q ((a :: l).getLast (by simp)) false (a :: l) = true ↔ Odd (crossings (a :: l) q) := by
      rw [rnd_oddLoop_eq tol q hq (a :: l) _ false (hl _ (List.getLast_mem _)) hl
        (fun e he => h e (hp.mem_iff.1 he)), hp.countP_eq, crossings_eq]
      simp only [Bool.false_xor, decide_eq_true_eq]
    unfold Rnd.containsPoint
    rw [hg]
    simp only
    rw [← hodd]
    split <;> simp_all

private theorem ge_near {tol v a : ℚ} (htol : IsDouble tol) (h0 : 0 < tol) (h : Rnd.geTol fl tol v a = true) :
    a - tol ≤ v := by
  simp only [Rnd.geTol, Bool.or_eq_true, decide_eq_true_eq] at h
  rcases h with h | h
  · linarith
  · have := abs_lt.1 (close_of_fl htol h); linarith

private theorem le_near {tol v a : ℚ} (htol : IsDouble tol) (h0 : 0 < tol) (h : Rnd.leTol fl tol v a = true) :
    v ≤ a + tol := by
  simp only [Rnd.leTol, Bool.or_eq_true, decide_eq_true_eq] at h
  rcases h with h | h
  · linarith
  · have := abs_lt.1 (close_of_fl htol h); linarith

private theorem contains_apx (a b q : Pt ℚ) (ha : DPt a) (hb : DPt b) (hq : DPt q) :
    Apx 4 (gRnd ^ 2 * (3 * etaRnd))
      (fl (fl (fl (a.x * fl (b.y - q.y)) + fl (b.x * fl (q.y - a.y))) + fl (q.x * fl (a.y - b.y))))
      (turn a b q) (|a.x * (b.y - q.y)| + |b.x * (q.y - a.y)| + |q.x * (a.y - b.y)|) := by
  have h1 := apx_mul (Apx.exact a.x) (apx_sub hb.2 hq.2)
  have h2 := apx_mul (Apx.exact b.x) (apx_sub hq.2 ha.2)
  have h3 := apx_mul (Apx.exact q.x) (apx_sub ha.2 hb.2)
  rw [← abs_mul] at h1 h2 h3
  have h4 := (h1.add h2).flRel (fl_add_error (fl_isDouble _) (fl_isDouble _))
  have h5 := (h4.add (h3.mono (Nat.le_succ _) le_rfl)).flRel (fl_add_error (fl_isDouble _) (fl_isDouble _))
  have e : a.x * (b.y - q.y) + b.x * (q.y - a.y) + q.x * (a.y - b.y) = turn a b q := by
    simp only [turn]; ring
  rw [e] at h5
  refine h5.mono le_rfl ?_
  have hg := gRnd_ge
  have he := etaRnd_pos
  nlinarith [mul_nonneg (mul_nonneg (show 0 ≤ gRnd by linarith) (sub_nonneg.2 hg)) he.le]

/-- The edge from `a` to `b` runs near `q`: `q` is in its bounding box up to the tolerance, and the
doubled area of the triangle `a b q` is below the tolerance, up to the rounding error. -/
def NearEdge (tol : ℚ) (a b q : Pt ℚ) : Prop :=
  (min a.x b.x - tol ≤ q.x ∧ q.x ≤ max a.x b.x + tol) ∧ (min a.y b.y - tol ≤ q.y ∧ q.y ≤ max a.y b.y + tol) ∧
    |turn a b q| < tol + containsErr a b q

/-- C115: an edge is computed to contain the point only if it is near it. -/
theorem C115_contains_near (tol : ℚ) (htol : IsDouble tol) (a b q : Pt ℚ) (ha : DPt a) (hb : DPt b) (hq : DPt q)
    (h : Rnd.contains fl tol q a b = true) : NearEdge tol a b q := by
  simp only [Rnd.contains, Bool.and_eq_true, Bool.or_eq_true, decide_eq_true_eq] at h
  obtain ⟨⟨hx, hy⟩, hz⟩ := h
  have h0 : 0 < tol := (abs_nonneg _).trans_lt hz
  refine ⟨?_, ?_, ?_⟩
  · rcases hx with ⟨h1, h2⟩ | ⟨h1, h2⟩
    · have := ge_near htol h0 h1; have := le_near htol h0 h2
      have := min_le_left a.x b.x; have := le_max_right a.x b.x
      constructor <;> linarith
    · have := ge_near htol h0 h1; have := le_near htol h0 h2
      have := min_le_right a.x b.x; have := le_max_left a.x b.x
      constructor <;> linarith
  · rcases hy with ⟨h1, h2⟩ | ⟨h1, h2⟩
    · have := ge_near htol h0 h1; have := le_near htol h0 h2
      have := min_le_left a.y b.y; have := le_max_right a.y b.y
      constructor <;> linarith
    · have := ge_near htol h0 h1; have := le_near htol h0 h2
      have := min_le_right a.y b.y; have := le_max_left a.y b.y
      constructor <;> linarith
  · have h1 := (contains_apx a b q ha hb hq).err
    have h2 := abs_sub_abs_le_abs_sub (turn a b q)
      (fl (fl (fl (a.x * fl (b.y - q.y)) + fl (b.x * fl (q.y - a.y))) + fl (q.x * fl (a.y - b.y))))
    rw [abs_sub_comm] at h2
    unfold containsErr
    linarith

/-- C115: an edge whose bounding box holds the point and whose doubled area with it is below the
tolerance by more than the rounding error is computed to contain it. -/
theorem C115_contains_sure (tol : ℚ) (a b q : Pt ℚ) (ha : DPt a) (hb : DPt b) (hq : DPt q)
    (hx : min a.x b.x ≤ q.x ∧ q.x ≤ max a.x b.x) (hy : min a.y b.y ≤ q.y ∧ q.y ≤ max a.y b.y)
    (hz : |turn a b q| + containsErr a b q < tol) : Rnd.contains fl tol q a b = true := by
  have box : ∀ u v w : ℚ, min u v ≤ w ∧ w ≤ max u v → (u ≤ w ∧ w ≤ v) ∨ (v ≤ w ∧ w ≤ u) := by
    intro u v w ⟨h1, h2⟩
    rcases le_total u v with h | h
    · rw [min_eq_left h] at h1; rw [max_eq_right h] at h2; exact Or.inl ⟨h1, h2⟩
    · rw [min_eq_right h] at h1; rw [max_eq_left h] at h2; exact Or.inr ⟨h1, h2⟩
  simp only [Rnd.contains, Rnd.geTol, Rnd.leTol, Bool.and_eq_true, Bool.or_eq_true, decide_eq_true_eq]
  refine ⟨⟨?_, ?_⟩, ?_⟩
  · rcases box _ _ _ hx with ⟨h1, h2⟩ | ⟨h1, h2⟩
    · exact Or.inl ⟨Or.inl h1, Or.inl h2⟩
    · exact Or.inr ⟨Or.inl h1, Or.inl h2⟩
  · rcases box _ _ _ hy with ⟨h1, h2⟩ | ⟨h1, h2⟩
    · exact Or.inl ⟨Or.inl h1, Or.inl h2⟩
    · exact Or.inr ⟨Or.inl h1, Or.inl h2⟩
  · have h1 := (contains_apx a b q ha hb hq).err
    have h2 := abs_sub_abs_le_abs_sub
      (fl (fl (fl (a.x * fl (b.y - q.y)) + fl (b.x * fl (q.y - a.y))) + fl (q.x * fl (a.y - b.y)))) (turn a b q)
    unfold containsErr at hz
    linarith

/-- C115: a strictly interior point of a strictly convex polygon that is clear of the edges is
accepted. -/
theorem C115_inside_partial (tol : ℚ) (htol : IsDouble tol) (l : List (Pt ℚ)) (q : Pt ℚ) (hl : ∀ p ∈ l, DPt p)
    (hq : DPt q) (hn : NeighboursApart tol l) (h : ClearOfEdges l q) (hc : StrictlyConvexCCW l) (hin : Inside l q) :
    Rnd.containsPoint fl tol l q = true :=
  (C115_containsPoint tol htol l q hl hq hn h).2 (Or.inl (convex_inside_odd hc hin))

/-- C115: a strictly exterior point of a strictly convex polygon that is clear of the edges is
accepted only if it is near one of them. -/
theorem C115_outside_partial (tol : ℚ) (htol : IsDouble tol) (l : List (Pt ℚ)) (q : Pt ℚ) (hl : ∀ p ∈ l, DPt p)
    (hq : DPt q) (hn : NeighboursApart tol l) (h : ClearOfEdges l q) (hc : StrictlyConvexCCW l) (hout : Outside l q)
    (hfar : ∀ i : Fin l.length, ¬ NearEdge tol l[i] (nextV l i) q) :
    Rnd.containsPoint fl tol l q = false := by
  rw [← Bool.not_eq_true, C115_containsPoint tol htol l q hl hq hn h]
  rintro (h1 | ⟨i, h1⟩)
  · exact convex_outside_even hc hout h1
  · have hnext : nextV l i ∈ l := by unfold nextV; exact List.getElem_mem _
    exact hfar i (C115_contains_near tol htol _ _ _ (hl _ (List.getElem_mem _)) (hl _ hnext) hq h1)

private def dblTri : List (Pt ℚ) := [⟨fl (1 / 10), fl (1 / 10)⟩, ⟨fl (9 / 10), fl (2 / 10)⟩, ⟨fl (3 / 10), fl (8 / 10)⟩]

private theorem dblTri_dpt : ∀ p ∈ dblTri, DPt p := by
  intro p hp
  simp only [dblTri, List.mem_cons, List.not_mem_nil, or_false] at hp
  rcases hp with rfl | rfl | rfl <;> exact ⟨fl_isDouble _, fl_isDouble _⟩

private theorem dblTri_clear (q : Pt ℚ) (h : ∀ e ∈ cycPairs dblTri, (min e.2.y e.1.y ≤ q.y → q.y < max e.2.y e.1.y →
    crossErr e.2 e.1 < |e.2.x + (q.y - e.2.y) / (e.1.y - e.2.y) * (e.1.x - e.2.x) - q.x|)) :
    ClearOfEdges dblTri q := by
  intro i
  rw [clearOf_iff]
  exact h (dblTri[i], nextV dblTri i) (by rw [cycPairs_eq_finRange]; exact List.mem_map_of_mem (List.mem_finRange i))

/-- A triangle with coordinates that are not exact, and points `10^-14` from an edge, inside and
outside. -/
example : (∀ p ∈ dblTri, DPt p) ∧ NeighboursApart (fl (1 / 100000)) dblTri ∧ StrictlyConvexCCW dblTri ∧
    (Inside dblTri ⟨fl (1 / 2), fl (1 / 2)⟩ ∧ ClearOfEdges dblTri ⟨fl (1 / 2), fl (1 / 2)⟩) ∧
    (Inside dblTri ⟨fl (6 / 10 - 1 / 100000000000000), fl (1 / 2)⟩ ∧
      ClearOfEdges dblTri ⟨fl (6 / 10 - 1 / 100000000000000), fl (1 / 2)⟩) ∧
    (Outside dblTri ⟨fl (6 / 10 + 1 / 1000), fl (1 / 2)⟩ ∧ ClearOfEdges dblTri ⟨fl (6 / 10 + 1 / 1000), fl (1 / 2)⟩ ∧
      ∀ i : Fin dblTri.length, ¬ NearEdge (fl (1 / 100000)) dblTri[i] (nextV dblTri i)
        ⟨fl (6 / 10 + 1 / 1000), fl (1 / 2)⟩) := by
  refine ⟨dblTri_dpt, ?_, ?_, ⟨?_, ?_⟩, ⟨?_, ?_⟩, ?_, ?_, ?_⟩
  · rw [noClose_iff]; unfold Close; decide +kernel
  · unfold StrictlyConvexCCW; decide +kernel
  · unfold Inside; decide +kernel
  · exact dblTri_clear _ (by decide +kernel)
  · unfold Inside; decide +kernel
  · exact dblTri_clear _ (by decide +kernel)
  · unfold Outside; decide +kernel
  · exact dblTri_clear _ (by decide +kernel)
  · unfold NearEdge; decide +kernel

/-- C115 fails without the distance: a point strictly inside a triangle with integer coordinates below
`2^28` is rejected, with the tolerance of the library. -/
theorem C115_inside_refuted : ∃ (l : List (Pt ℚ)) (q : Pt ℚ),
    StrictlyConvexCCW l ∧ Inside l q ∧ (∀ p ∈ q :: l, ∃ x y : Int, p = ⟨x, y⟩ ∧ |x| < 2 ^ 28 ∧ |y| < 2 ^ 28) ∧
    Rnd.containsPoint fl (fl (1 / 100000)) l q = false := by
  refine ⟨[⟨135474808, 65387370⟩, ⟨48084736, 23539873⟩, ⟨235474808, 23539873⟩], ⟨135187905, 65249984⟩,
    ?_, ?_, ?_, by decide +kernel⟩
  · unfold StrictlyConvexCCW; decide +kernel
  · unfold Inside; decide +kernel
  · intro p hp
    simp only [List.mem_cons, List.not_mem_nil, or_false] at hp
    rcases hp with rfl | rfl | rfl | rfl
    · exact ⟨135187905, 65249984, by norm_num, by norm_num, by norm_num⟩
    · exact ⟨135474808, 65387370, by norm_num, by norm_num, by norm_num⟩
    · exact ⟨48084736, 23539873, by norm_num, by norm_num, by norm_num⟩
    · exact ⟨235474808, 23539873, by norm_num, by norm_num, by norm_num⟩

/-- C115: and a point strictly outside, which the exact test rejects, is accepted. -/
theorem C115_outside_refuted : ∃ (l : List (Pt ℚ)) (q : Pt ℚ),
    StrictlyConvexCCW l ∧ Outside l q ∧ (∀ p ∈ q :: l, ∃ x y : Int, p = ⟨x, y⟩ ∧ |x| < 2 ^ 28 ∧ |y| < 2 ^ 28) ∧
    containsPoint (fl (1 / 100000)) l q = false ∧ Rnd.containsPoint fl (fl (1 / 100000)) l q = true := by
  refine ⟨[⟨45712482, 1505236⟩, ⟨136537717, 67283897⟩, ⟨5123598, 67283897⟩], ⟨89864853, 33481854⟩,
    ?_, ?_, ?_, by decide +kernel, by decide +kernel⟩
  · unfold StrictlyConvexCCW; decide +kernel
  · unfold Outside; decide +kernel
  · intro p hp
    simp only [List.mem_cons, List.not_mem_nil, or_false] at hp
    rcases hp with rfl | rfl | rfl | rfl
    · exact ⟨89864853, 33481854, by norm_num, by norm_num, by norm_num⟩
    · exact ⟨45712482, 1505236, by norm_num, by norm_num, by norm_num⟩
    · exact ⟨136537717, 67283897, by norm_num, by norm_num, by norm_num⟩
    · exact ⟨5123598, 67283897, by norm_num, by norm_num, by norm_num⟩

end Delynoi
