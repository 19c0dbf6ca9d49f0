import Verif.Props.Double
import Verif.Spec.Polygon
import Verif.Props.Contain
/-!
# C91 - C94: polygons and grids in binary64 arithmetic
-/
set_option linter.unusedSectionVars false
namespace Delynoi

/-! ### C91: area and orientation of polygons -/

/-- A summation loop over the edges of a polygon. -/
theorem apx_sum_edges {α : Type} (k : Nat) (c : ℚ) (hc : 0 ≤ c) (es : List α) (f' f s : α → ℚ)
    (h : ∀ e ∈ es, IsDouble (f' e) ∧ Apx k c (f' e) (f e) (s e)) :
    Apx (k + es.length) (es.length * c * gRnd ^ es.length)
      (Rnd.sumLoop fl 0 (es.map f')) (es.map f).sum (es.map s).sum := by
  have h0 : Apx (k + 0) ((0 : Nat) * c * gRnd ^ 0) 0 0 0 := ⟨by simp, by simp⟩
  have := apx_sum k c hc (es.map (fun e => (f' e, f e, s e))) 0 0 0 0 isDouble_zero h0 (by
    intro e he
    obtain ⟨a, ha, rfl⟩ := List.mem_map.1 he
    exact h a ha)
  simp only [List.map_map, List.length_map, zero_add, Nat.add_zero] at this
  exact this

/-- The size of the products in the area of a fan. -/
def fanSize : List (Pt ℚ) → ℚ
  | [] => 0
  | a :: l => ((cycPairs (a :: l)).map (fun e => turnSize e.1 e.2 a / 2)).sum

/-- C91: error of `geometry_functions::area` (behind `Polygon::getArea`) for a polygon with `n`
vertices in binary64 arithmetic. -/
theorem C91_area_error (l : List (Pt ℚ)) (hl : ∀ p ∈ l, DPt p) :
    |Rnd.fanArea fl l - signedArea l| ≤ (gRnd ^ (l.length + 5) - 1) * fanSize l +
      l.length * (gRnd * (gRnd * etaRnd) + etaRnd) * gRnd ^ l.length := by
  cases l with
  | nil => simp [Rnd.fanArea, signedArea, cycPairs, fanSize]
  | cons a l =>
    have ha := hl a (by simp)
    rw [← C17_fan_eq_shoelace]
    have key := apx_sum_edges 5 (gRnd * (gRnd * etaRnd) + etaRnd)
      (by have := gRnd_ge; have := etaRnd_pos; positivity) (cycPairs (a :: l))
      (fun e => Rnd.triangleArea fl e.1 e.2 a) (fun e => triangleArea e.1 e.2 a)
      (fun e => turnSize e.1 e.2 a / 2) (by
        intro e he
        obtain ⟨h1, h2⟩ := cycPairs_mem he
        refine ⟨fl_isDouble _, ?_⟩
        have h3 := ((orientation_apx e.1 e.2 a (hl _ h1) (hl _ h2) ha).smul (1 / 2) (by norm_num)).fl
        have e1 : gRnd * (1 / 2 * (gRnd * (2 * etaRnd))) + etaRnd = gRnd * (gRnd * etaRnd) + etaRnd := by ring
        have e2 : 1 / 2 * Rnd.orientation fl e.1 e.2 a = Rnd.area2 fl e.1 e.2 a / 2 := by
          have : Rnd.area2 fl e.1 e.2 a = Rnd.orientation fl e.1 e.2 a := rfl
          rw [this]; ring
        have e3 : 1 / 2 * turn e.1 e.2 a = triangleArea e.1 e.2 a := by
          simp only [turn, triangleArea, area2, crossProduct, Pt.sub]; ring
        have e4 : 1 / 2 * turnSize e.1 e.2 a = turnSize e.1 e.2 a / 2 := by ring
        rw [e1, e2, e3, e4] at h3
        exact h3)
    rw [cycPairs_length, Nat.add_comm 5] at key
    exact key.err

/-- C91: hence the sign of the computed area is right when the exact area exceeds the error. -/
theorem C91_area_sign_partial (l : List (Pt ℚ)) (hl : ∀ p ∈ l, DPt p)
    (h : (gRnd ^ (l.length + 5) - 1) * fanSize l +
      l.length * (gRnd * (gRnd * etaRnd) + etaRnd) * gRnd ^ l.length < |signedArea l|) :
    (0 < Rnd.fanArea fl l ↔ 0 < signedArea l) ∧ (Rnd.fanArea fl l < 0 ↔ signedArea l < 0) := by
  have he := (C91_area_error l hl).trans_lt h
  rw [abs_lt] at he
  rcases le_total 0 (signedArea l) with h1 | h1
  · rw [abs_of_nonneg h1] at he h
    refine ⟨⟨fun _ => ?_, fun _ => by linarith⟩, ⟨fun _ => by linarith, fun _ => by linarith⟩⟩
    rcases h1.lt_or_eq with h2 | h2
    · exact h2
    · rw [← h2] at he; linarith
  · rw [abs_of_nonpos h1] at he h
    refine ⟨⟨fun _ => by linarith, fun _ => by linarith⟩, ⟨fun _ => ?_, fun _ => by linarith⟩⟩
    rcases h1.lt_or_eq with h2 | h2
    · exact h2
    · rw [h2] at he; linarith

/-- The size of the products in `isClockwise`. -/
def clockSize : List (Pt ℚ) → ℚ
  | [] => 0
  | a :: l => (((a :: l).getLast (by simp), a) :: (a :: l).zip l).map
      (fun e => |(e.2.x - e.1.x) * (e.2.y + e.1.y)|) |>.sum

theorem clockTerm_apx (a b : Pt ℚ) (ha : DPt a) (hb : DPt b) :
    Apx 3 etaRnd (Rnd.clockTerm fl a b) ((b.x - a.x) * (b.y + a.y)) |(b.x - a.x) * (b.y + a.y)| := by
  have := apx_mul (apx_sub hb.1 ha.1) (apx_add hb.2 ha.2)
  rwa [← abs_mul] at this

/-- C91: `isClockwise` in binary64 arithmetic answers as in exact arithmetic, i.e. correctly,
whenever the area exceeds the error bound. -/
theorem C91_isClockwise_partial (l : List (Pt ℚ)) (hl : ∀ p ∈ l, DPt p) (hne : l ≠ [])
    (h : (gRnd ^ (l.length + 3) - 1) * clockSize l + l.length * etaRnd * gRnd ^ l.length <
      2 * |signedArea l|) :
    Rnd.isClockwise fl l = .ok (decide (signedArea l < 0)) := by
  cases l with
  | nil => exact absurd rfl hne
  | cons a l =>
    have hz := hl ((a :: l).getLast (by simp)) (List.getLast_mem _)
    have h0 := clockTerm_apx _ _ hz (hl a (by simp))
    have key := apx_sum 3 etaRnd etaRnd_pos.le
      (((a :: l).zip l).map (fun e => (Rnd.clockTerm fl e.1 e.2, (e.2.x - e.1.x) * (e.2.y + e.1.y),
        |(e.2.x - e.1.x) * (e.2.y + e.1.y)|))) 1 _ _ _ (fl_isDouble _)
      (h0.mono (j := 3 + 1) (d := (1 : Nat) * etaRnd * gRnd ^ 1) (by omega) (by
        have := gRnd_ge; have := etaRnd_pos; push_cast; nlinarith)) (by
        intro e he
        obtain ⟨b, hb, rfl⟩ := List.mem_map.1 he
        have hb' : (b.1, b.2) ∈ (a :: l).zip l := hb
        obtain ⟨h1, h2⟩ := List.of_mem_zip hb'
        exact ⟨fl_isDouble _, clockTerm_apx _ _ (hl _ h1) (hl _ (by simp [h2]))⟩)
    simp only [List.map_map, List.length_map, List.length_zip, List.length_cons] at key
    have hmin : min (l.length + 1) l.length = l.length := by omega
    rw [hmin] at key
    set z := (a :: l).getLast (by simp) with hzdef
    have hex := clock_sum a l z hzdef
    have e1 : ((fun e : ℚ × ℚ × ℚ => e.1) ∘ fun e : Pt ℚ × Pt ℚ => (Rnd.clockTerm fl e.1 e.2,
        (e.2.x - e.1.x) * (e.2.y + e.1.y), |(e.2.x - e.1.x) * (e.2.y + e.1.y)|)) =
        fun e => Rnd.clockTerm fl e.1 e.2 := rfl
    have e2 : ((fun e : ℚ × ℚ × ℚ => e.2.1) ∘ fun e : Pt ℚ × Pt ℚ => (Rnd.clockTerm fl e.1 e.2,
        (e.2.x - e.1.x) * (e.2.y + e.1.y), |(e.2.x - e.1.x) * (e.2.y + e.1.y)|)) =
        fun e => (e.2.x - e.1.x) * (e.2.y + e.1.y) := rfl
    rw [e1, e2, hex] at key
    have hsz : clockSize (a :: l) = |(a.x - z.x) * (a.y + z.y)| +
        (((a :: l).zip l).map (fun e => |(e.2.x - e.1.x) * (e.2.y + e.1.y)|)).sum := by
      simp only [clockSize, List.map_cons, List.sum_cons]
      rfl
    have h2 : |-shoe (a :: l)| = 2 * |signedArea (a :: l)| := by
      rw [signedArea_eq, abs_neg, abs_mul, abs_of_pos (show (0 : ℚ) < 1 / 2 by norm_num)]; ring
    have hpos := key.pos_iff (by
      rw [h2]
      refine lt_of_le_of_lt (le_of_eq ?_) h
      rw [hsz, List.length_cons, show 3 + 1 + l.length = l.length + 1 + 3 by omega,
        show 1 + l.length = l.length + 1 by omega]
      rfl)
    unfold Rnd.isClockwise
    simp only
    congr 1
    apply Bool.eq_iff_iff.2
    rw [decide_eq_true_iff, decide_eq_true_iff]
    refine Iff.trans hpos ?_
    rw [signedArea_eq]
    constructor <;> intro h <;> linarith

/-- C91: a triangle with integer coordinates around `10^12`, sides of about `10^5`, that is
clockwise but for which the binary64 computation says counter-clockwise, so that `fixCCW` leaves
it alone. -/
theorem C91_isClockwise_refuted :
    signedArea [(⟨1000000000000, 1000000000000⟩ : Pt ℚ), ⟨1000000089879, 1000000089890⟩,
      ⟨1000000179759, 1000000179781⟩] < 0 ∧
    Rnd.isClockwise fl [⟨1000000000000, 1000000000000⟩, ⟨1000000089879, 1000000089890⟩,
      ⟨1000000179759, 1000000179781⟩] = .ok false := by decide +kernel

theorem isDouble_int (m : Int) (h : |m| < 2 ^ 53) : IsDouble (m : ℚ) := ⟨m, 0, by norm_num, h, by simp⟩

-- the hypotheses are met by a square of side 10 with integer vertices
example : (∀ p ∈ [(⟨0, 0⟩ : Pt ℚ), ⟨10, 0⟩, ⟨10, 10⟩, ⟨0, 10⟩], DPt p) ∧
    (gRnd ^ (4 + 3) - 1) * clockSize [⟨0, 0⟩, ⟨10, 0⟩, ⟨10, 10⟩, ⟨0, 10⟩] + 4 * etaRnd * gRnd ^ 4 <
      2 * |signedArea [(⟨0, 0⟩ : Pt ℚ), ⟨10, 0⟩, ⟨10, 10⟩, ⟨0, 10⟩]| ∧
    (gRnd ^ (4 + 5) - 1) * fanSize [⟨0, 0⟩, ⟨10, 0⟩, ⟨10, 10⟩, ⟨0, 10⟩] +
      4 * (gRnd * (gRnd * etaRnd) + etaRnd) * gRnd ^ 4 <
      |signedArea [(⟨0, 0⟩ : Pt ℚ), ⟨10, 0⟩, ⟨10, 10⟩, ⟨0, 10⟩]| := by
  refine ⟨?_, by decide +kernel, by decide +kernel⟩
  have h0 : IsDouble 0 := isDouble_zero
  have h10 : IsDouble 10 := by have := isDouble_int 10 (by norm_num); exact_mod_cast this
  intro p hp
  simp only [List.mem_cons, List.not_mem_nil, or_false] at hp
  rcases hp with rfl | rfl | rfl | rfl <;> exact ⟨by assumption, by assumption⟩

/-! ### C92: middle point and average -/

theorem mid_between {a b : ℚ} (ha : IsDouble a) (hb : IsDouble b) (h : a ≤ b) :
    a ≤ fl (fl (a + b) / 2) ∧ fl (fl (a + b) / 2) ≤ b := by
  have h1 : 2 * a ≤ fl (a + b) := le_fl_of_double ha.two_mul (by linarith)
  have h2 : fl (a + b) ≤ 2 * b := fl_le_of_double hb.two_mul (by linarith)
  exact ⟨le_fl_of_double ha (by linarith), fl_le_of_double hb (by linarith)⟩

theorem mid_between' {a b : ℚ} (ha : IsDouble a) (hb : IsDouble b) :
    min a b ≤ fl (fl (a + b) / 2) ∧ fl (fl (a + b) / 2) ≤ max a b := by
  rcases le_total a b with h | h
  · rw [min_eq_left h, max_eq_right h]; exact mid_between ha hb h
  · rw [min_eq_right h, max_eq_left h, add_comm a b]; exact mid_between hb ha h

/-- C92: the middle point computed in binary64 arithmetic lies in the bounding box of the two
ends, whatever the ends are. -/
theorem C92_middle_between (a b : Pt ℚ) (ha : DPt a) (hb : DPt b) :
    (min a.x b.x ≤ (Rnd.middle fl a b).x ∧ (Rnd.middle fl a b).x ≤ max a.x b.x) ∧
    (min a.y b.y ≤ (Rnd.middle fl a b).y ∧ (Rnd.middle fl a b).y ≤ max a.y b.y) :=
  ⟨mid_between' ha.1 hb.1, mid_between' ha.2 hb.2⟩

/-- C92: it does not depend on the direction, and the middle of a degenerate segment is the
point. -/
theorem C92_middle_symm (a b : Pt ℚ) :
    Rnd.middle fl a b = Rnd.middle fl b a ∧ (DPt a → Rnd.middle fl a a = a) := by
  constructor
  · unfold Rnd.middle; rw [add_comm a.x, add_comm a.y]
  · intro ha
    have h := C92_middle_between a a ha ha
    simp only [min_self, max_self] at h
    ext
    · exact le_antisymm h.1.2 h.1.1
    · exact le_antisymm h.2.2 h.2.1

example : Rnd.middle fl ⟨fl (1 / 10), 0⟩ ⟨fl (3 / 10), 1⟩ = ⟨fl (1 / 5), 1 / 2⟩ := by decide +kernel

theorem avg_error (l : List (Pt ℚ)) (hne : l ≠ []) (f : Pt ℚ → ℚ) (hl : ∀ p ∈ l, IsDouble (f p)) :
    |fl (Rnd.sumLoop fl 0 (l.map f) / l.length) - (l.map f).sum / l.length| ≤
      (gRnd ^ (l.length + 1) - 1) * ((l.map (fun p => |f p|)).sum / l.length) + etaRnd := by
  have h := apx_sum_edges 0 0 le_rfl l f f (fun p => |f p|) (fun p hp => ⟨hl p hp, Apx.exact _⟩)
  have hn : (0 : ℚ) ≤ 1 / l.length := by positivity
  have h2 := (h.smul (1 / l.length) hn).fl
  rw [zero_add] at h2
  have e := h2.err
  rw [show gRnd * (1 / (l.length : ℚ) * (l.length * 0 * gRnd ^ l.length)) + etaRnd = etaRnd by ring] at e
  rw [one_div_mul_eq_div, one_div_mul_eq_div, one_div_mul_eq_div] at e
  exact e

/-- C92: error of `getAverage` for a polygon with `n` vertices. -/
theorem C92_average_error (l : List (Pt ℚ)) (hne : l ≠ []) (hl : ∀ p ∈ l, DPt p) :
    ∃ q' q, Rnd.getAverage fl l = some q' ∧ getAverage l = some q ∧
      |q'.x - q.x| ≤ (gRnd ^ (l.length + 1) - 1) * ((l.map (fun p => |p.x|)).sum / l.length) + etaRnd ∧
      |q'.y - q.y| ≤ (gRnd ^ (l.length + 1) - 1) * ((l.map (fun p => |p.y|)).sum / l.length) + etaRnd := by
  unfold Rnd.getAverage getAverage
  rw [if_neg hne, if_neg hne]
  exact ⟨_, _, rfl, rfl, avg_error l hne Pt.x (fun p hp => (hl p hp).1), avg_error l hne Pt.y (fun p hp => (hl p hp).2)⟩

/-- C92: but, unlike the middle point, the average need not lie in the bounding box of the
vertices: three vertices with first coordinate `0.1` have an average with a larger one. -/
theorem C92_average_in_box_refuted : ∃ l : List (Pt ℚ), (∀ p ∈ l, DPt p ∧ p.x = fl (1 / 10)) ∧
    ∃ q, Rnd.getAverage fl l = some q ∧ fl (1 / 10) < q.x := by
  refine ⟨[⟨fl (1 / 10), fl 0⟩, ⟨fl (1 / 10), fl 1⟩, ⟨fl (1 / 10), fl 2⟩], ?_, ?_⟩
  · intro p hp
    simp only [List.mem_cons, List.not_mem_nil, or_false] at hp
    rcases hp with rfl | rfl | rfl <;> exact ⟨⟨fl_isDouble _, fl_isDouble _⟩, rfl⟩
  · refine ⟨_, rfl, by decide +kernel⟩

/-! ### C93: segments and their ends -/

/-- C93: a segment contains its own ends, in binary64 arithmetic too and whatever the size of the
coordinates: the rounding errors of the area test cancel. -/
theorem C93_contains_ends (tol : ℚ) (ht : 0 < tol) (a b : Pt ℚ) :
    Rnd.contains fl tol a a b = true ∧ Rnd.contains fl tol b a b = true := by
  have hz : ∀ p q : Pt ℚ, fl (p.x * fl (q.y - p.y)) + fl (p.x * fl (p.y - q.y)) = 0 := by
    intro p q
    rw [show q.y - p.y = -(p.y - q.y) by ring, fl_neg, mul_neg, fl_neg, neg_add_cancel]
  have t1 : ∀ x y : ℚ, (Rnd.geTol fl tol x x && Rnd.leTol fl tol x y ||
      Rnd.geTol fl tol x y && Rnd.leTol fl tol x x) = true := by
    intro x y
    simp only [Rnd.geTol, Rnd.leTol, le_refl, decide_true, Bool.true_or, Bool.true_and, Bool.and_true,
      Bool.or_eq_true, decide_eq_true_eq, ge_iff_le]
    rcases le_total x y with h | h
    · exact Or.inl (Or.inl h)
    · exact Or.inr (Or.inl h)
  have t2 : ∀ x y : ℚ, (Rnd.geTol fl tol y x && Rnd.leTol fl tol y y ||
      Rnd.geTol fl tol y y && Rnd.leTol fl tol y x) = true := by
    intro x y; rw [Bool.or_comm]; exact t1 y x
  unfold Rnd.contains
  simp only
  rw [t1, t1, t2, t2, sub_self, sub_self, fl_zero, mul_zero, mul_zero, fl_zero, add_zero, zero_add,
    fl_of_double (fl_isDouble (a.x * fl (b.y - a.y))), fl_of_double (fl_isDouble (b.x * fl (b.y - a.y))), hz,
    add_comm (fl (b.x * fl (b.y - a.y))), hz, fl_zero, abs_zero]
  simp [ht]

/-- C93: hence `containsPoint` accepts every vertex of the polygon. -/
theorem C93_contains_vertices (tol : ℚ) (ht : 0 < tol) (l : List (Pt ℚ)) (v : Pt ℚ) (hv : v ∈ l) :
    Rnd.containsPoint fl tol l v = true := by
  have hany : (cycPairs l).any (fun e => Rnd.contains fl tol v e.1 e.2) = true := by
    have : v ∈ (cycPairs l).map Prod.fst := by rw [cycPairs_fst]; exact hv
    obtain ⟨e, he, rfl⟩ := List.mem_map.1 this
    rw [List.any_eq_true]
    exact ⟨e, he, (C93_contains_ends tol ht e.1 e.2).1⟩
  unfold Rnd.containsPoint
  split
  · exact hany
  · split
    · rfl
    · exact hany

/-- C93: the middle point of a segment, on the other hand, need not be accepted, even if it is
computed without error: here the coordinates are integers below `2^28` and the tolerance is the
library's. -/
theorem C93_middle_refuted :
    Rnd.middle fl ⟨196974150, 2037700⟩ ⟨31732428, 188863350⟩ = Seg.middle ⟨196974150, 2037700⟩ ⟨31732428, 188863350⟩ ∧
    Rnd.contains fl (fl (1 / 100000)) (Rnd.middle fl ⟨196974150, 2037700⟩ ⟨31732428, 188863350⟩)
      ⟨196974150, 2037700⟩ ⟨31732428, 188863350⟩ = false ∧
    Seg.contains (fl (1 / 100000)) (Seg.middle (⟨196974150, 2037700⟩ : Pt ℚ) ⟨31732428, 188863350⟩)
      ⟨196974150, 2037700⟩ ⟨31732428, 188863350⟩ = true := by
  decide +kernel

example : Rnd.containsPoint fl (fl (1 / 100000)) [⟨fl (1 / 10), fl (2 / 10)⟩, ⟨fl (7 / 10), fl (1 / 10)⟩,
    ⟨fl (3 / 10), fl (9 / 10)⟩] ⟨fl (7 / 10), fl (1 / 10)⟩ = true := by decide +kernel

/-! ### C94: grids -/

/-- C94: the first grid line is the lower bound exactly. -/
theorem C94_first (lo w : ℚ) (hlo : IsDouble lo) (n : Int) : Rnd.gridCoord fl lo w n 0 = lo := by
  unfold Rnd.gridCoord
  rw [Nat.cast_zero, zero_mul, fl_zero, add_zero, fl_of_double hlo]

/-- C94: grid lines are in order. -/
theorem C94_monotone (lo w : ℚ) (hw : 0 ≤ w) (n : Int) (hn : 2 ≤ n) (i j : Nat) (h : i ≤ j) :
    Rnd.gridCoord fl lo w n i ≤ Rnd.gridCoord fl lo w n j := by
  unfold Rnd.gridCoord
  have hs : 0 ≤ fl (w / ((n - 1 : Int) : ℚ)) := by
    refine fl_nonneg (div_nonneg hw ?_)
    have : (0 : Int) ≤ n - 1 := by omega
    exact_mod_cast this
  have hij : (i : ℚ) ≤ j := by exact_mod_cast h
  exact fl_mono (add_le_add_right (fl_mono (mul_le_mul_of_nonneg_right hij hs)) lo)

/-- C94: error of grid line `j`. -/
theorem C94_error (lo w : ℚ) (hlo : IsDouble lo) (hw : 0 ≤ w) (n : Int) (hn : 2 ≤ n) (j : Nat) :
    |Rnd.gridCoord fl lo w n j - (lo + j * (w / ((n - 1 : Int) : ℚ)))| ≤
      (gRnd ^ 3 - 1) * (|lo| + j * (w / ((n - 1 : Int) : ℚ))) + gRnd * (gRnd * (j * etaRnd) + etaRnd) := by
  have h0 : 0 ≤ w / ((n - 1 : Int) : ℚ) := by
    refine div_nonneg hw ?_
    have : (0 : Int) ≤ n - 1 := by omega
    exact_mod_cast this
  have h1 := (Apx.exact (w / ((n - 1 : Int) : ℚ))).fl
  rw [mul_zero, abs_of_nonneg h0] at h1
  have h2 := (h1.smul (j : ℚ) (by positivity)).fl
  have h3 := ((Apx.exact lo).mono (j := 2) (d := 0) (by omega) le_rfl).add h2
  have h4 := h3.flRel (fl_add_error hlo (fl_isDouble _))
  have e := h4.err
  rw [zero_add (gRnd * _ + etaRnd), zero_add etaRnd] at e
  exact e

/-- C94: if the spacing and the multiples that occur are binary64 numbers, the line is exact. -/
theorem C94_exact (lo w : ℚ) (n : Int) (j : Nat) (h1 : IsDouble (w / ((n - 1 : Int) : ℚ)))
    (h2 : IsDouble (j * (w / ((n - 1 : Int) : ℚ)))) (h3 : IsDouble (lo + j * (w / ((n - 1 : Int) : ℚ)))) :
    Rnd.gridCoord fl lo w n j = lo + j * (w / ((n - 1 : Int) : ℚ)) := by
  unfold Rnd.gridCoord
  rw [fl_of_double h1, fl_of_double h2, fl_of_double h3]

/-- C94: the last grid line may be outside the box. -/
theorem C94_last_line_refuted : Rnd.gridCoord fl 0 10 148 147 > 10 := by decide +kernel

/-- C94: consequence for seeding: of the 8 x 8 grid on a square of side `10^6`, exact arithmetic
accepts all 64 points, binary64 arithmetic only 52: the last line in each direction is
outside, most of it too far outside for the area test of the edges. -/
theorem C94_seeds_lost_refuted :
    (((List.range 8).flatMap (fun i => (List.range 8).map (fun j =>
        (⟨Rnd.gridCoord fl 0 1000000 8 j, Rnd.gridCoord fl 0 1000000 8 i⟩ : Pt ℚ)))).filter
      (Rnd.containsPoint fl (fl (1 / 100000)) [⟨0, 0⟩, ⟨1000000, 0⟩, ⟨1000000, 1000000⟩, ⟨0, 1000000⟩])).length = 52 ∧
    (((List.range 8).flatMap (fun i => (List.range 8).map (fun j =>
        (⟨Rnd.gridCoord id 0 1000000 8 j, Rnd.gridCoord id 0 1000000 8 i⟩ : Pt ℚ)))).filter
      (containsPoint (fl (1 / 100000)) [⟨0, 0⟩, ⟨1000000, 0⟩, ⟨1000000, 1000000⟩, ⟨0, 1000000⟩])).length = 64 := by
  decide +kernel

example : Rnd.gridCoord fl 0 10 11 3 = 3 := by decide +kernel

end Delynoi
