import Verif.Proofs.Winding
import Verif.Proofs.Contain
import Verif.Proofs.Triangulation
import Mathlib.Algebra.Ring.Int.Parity
import Mathlib.Tactic.Tauto
/-!
Helper lemmas: winding numbers as sums over edges, and triangulations.
-/
set_option linter.unusedSectionVars false
namespace Delynoi
variable {K : Type} [Field K] [LinearOrder K] [IsStrictOrderedRing K]

private def mir (p : Pt K) : Pt K := ⟨-p.x, p.y⟩

/-- Arithmetic form of `CrossesRight`. -/
theorem crossesRight_iff {a b q : Pt K} : CrossesRight a b q ↔
    (UpE q.y (a, b) ∧ 0 < turn a b q) ∨ (DownE q.y (a, b) ∧ turn a b q < 0) := by
  have h1 : CrossesRight a b q ↔ CrossesLeft (mir a) (mir b) (mir q) := by
    unfold CrossesRight CrossesLeft
    refine and_congr Iff.rfl (and_congr Iff.rfl (exists_congr (fun t => and_congr Iff.rfl (and_congr Iff.rfl
      (and_congr Iff.rfl ?_)))))
    simp only [lineAt, mir]
    constructor <;> intro h <;> linarith
  have h2 : turn (mir a) (mir b) (mir q) = -turn a b q := by unfold turn mir; ring
  rw [h1, crossesLeft_iff, h2]
  unfold UpE DownE mir
  simp only [neg_lt_zero, neg_pos]

/-- Signed crossing to the right. -/
noncomputable def sgnR (q : Pt K) (e : Pt K × Pt K) : Int :=
  open Classical in if CrossesRight e.1 e.2 q then (if e.1.y < e.2.y then 1 else -1) else 0

/-- Signed crossing to the left. -/
noncomputable def sgnL (q : Pt K) (e : Pt K × Pt K) : Int :=
  open Classical in if CrossesLeft e.1 e.2 q then (if e.1.y < e.2.y then 1 else -1) else 0

/-- Whether `u` is above `x`. -/
def hgtI (x u : Pt K) : Int := if x.y < u.y then 1 else 0

theorem sgnR_wnd (q : Pt K) (e : Pt K × Pt K) : ((sgnR q e : Int) : K) = wnd q e.1 e.2 := by
  obtain ⟨a, b⟩ := e
  unfold sgnR wnd hgt
  rw [crossesRight_iff]
  unfold UpE DownE
  simp only
  by_cases ha : q.y < a.y <;> by_cases hb : q.y < b.y
  · rw [if_pos ha, if_pos hb, if_neg (by push Not; exact ⟨fun h => absurd ha (not_lt.2 h.1), fun h => absurd hb (not_lt.2 h.1)⟩)]
    simp
  · rw [if_pos ha, if_neg hb]
    have hb' := not_lt.1 hb
    by_cases ht : turn a b q < 0
    · rw [if_pos (Or.inr ⟨⟨hb', ha⟩, ht⟩), if_neg (by linarith), if_pos (mul_pos_of_neg_of_neg (by linarith) ht)]
      simp
    · rw [if_neg (by push Not; exact ⟨fun h => absurd ha (not_lt.2 h.1), fun _ => not_lt.1 ht⟩),
        if_neg (not_lt.2 (mul_nonpos_of_nonpos_of_nonneg (by linarith) (not_lt.1 ht)))]
      simp
  · rw [if_neg ha, if_pos hb]
    have ha' := not_lt.1 ha
    by_cases ht : 0 < turn a b q
    · rw [if_pos (Or.inl ⟨⟨ha', hb⟩, ht⟩), if_pos (by linarith), if_pos (mul_pos (by linarith) ht)]
      simp
    · rw [if_neg (by push Not; exact ⟨fun _ => not_lt.1 ht, fun h => absurd hb (not_lt.2 h.1)⟩),
        if_neg (not_lt.2 (mul_nonpos_of_nonneg_of_nonpos (by linarith) (not_lt.1 ht)))]
      simp
  · rw [if_neg ha, if_neg hb, if_neg (by push Not; exact ⟨fun h => absurd h.2 hb, fun h => absurd h.2 ha⟩)]
    simp

private theorem count_signed {α : Type} (f : α → Int) (p n : α → Bool)
    (h : ∀ e, f e = (if p e then 1 else 0) - (if n e then 1 else 0)) (l : List α) :
    (l.map f).sum = (l.countP p : Int) - (l.countP n : Int) := by
  induction l with
  | nil => simp
  | cons a l ih =>
    rw [List.map_cons, List.sum_cons, ih, List.countP_cons, List.countP_cons, h]
    push_cast
    split <;> split <;> ring

open Classical in
theorem winding_sum (l : List (Pt K)) (q : Pt K) : winding l q = ((cycPairs l).map (sgnR q)).sum := by
  rw [count_signed (sgnR q) (fun e => decide (CrossesRight e.1 e.2 q ∧ e.1.y < e.2.y))
    (fun e => decide (CrossesRight e.1 e.2 q ∧ e.2.y < e.1.y))]
  · unfold winding
    rw [cycPairs_eq_finRange, List.countP_map, List.countP_map]
    rfl
  · intro e
    unfold sgnR
    by_cases h : CrossesRight e.1 e.2 q
    · have hne : e.1.y ≠ e.2.y := by
        intro he
        rcases crossesRight_iff.1 h with ⟨⟨h1, h2⟩, _⟩ | ⟨⟨h1, h2⟩, _⟩
        · simp only at h1 h2; rw [he] at h1; exact absurd h2 (not_lt.2 h1)
        · simp only at h1 h2; rw [he] at h2; exact absurd h2 (not_lt.2 h1)
      rcases lt_or_gt_of_ne hne with h1 | h1
      · simp [h, h1, h1.le, not_lt.2 h1.le]
      · simp [h, h1, not_lt.2 h1.le]
    · simp [h]

/-- The winding number as an edge sum. -/
theorem winding_edgeSum (l : List (Pt K)) (q : Pt K) : ((winding l q : Int) : K) = edgeSum (wnd q) l := by
  rw [winding_sum]
  unfold edgeSum
  generalize cycPairs l = es
  induction es with
  | nil => simp
  | cons e es ih => rw [List.map_cons, List.sum_cons, List.map_cons, List.sum_cons, Int.cast_add, ih, sgnR_wnd]

/-! ### Crossings to the left -/

/-- `q` is on the segment `ab`. -/
theorem sgn_add {q : Pt K} {e : Pt K × Pt K} (h : ¬ ∃ t, 0 ≤ t ∧ t ≤ 1 ∧ lineAt e.1 e.2 t = q) :
    sgnL q e + sgnR q e = hgtI q e.2 - hgtI q e.1 := by
  obtain ⟨a, b⟩ := e
  have hne : UpE q.y (a, b) ∨ DownE q.y (a, b) → turn a b q ≠ 0 := by
    intro hs h0
    apply h
    obtain ⟨t, t0, t1, ty⟩ := exists_at_height hs
    refine ⟨t, t0, t1, Pt.ext ?_ ty⟩
    have hd : b.y - a.y ≠ 0 := by
      rcases hs with ⟨h3, h4⟩ | ⟨h3, h4⟩ <;> (simp only at h3 h4; intro h'; linarith)
    have : (b.y - a.y) * ((lineAt a b t).x - q.x) = 0 := by
      have h1 : turn a b (lineAt a b t) = 0 := by unfold turn lineAt; ring
      unfold turn at h0 h1
      rw [ty] at h1
      linear_combination h0 - h1
    rcases mul_eq_zero.1 this with h2 | h2
    · exact absurd h2 hd
    · exact sub_eq_zero.1 h2
  unfold sgnL sgnR hgtI
  simp only
  have nu : ¬ UpE q.y (a, b) ∨ ¬ DownE q.y (a, b) := by
    unfold UpE DownE; simp only
    by_contra hc
    push Not at hc
    linarith [hc.1.1, hc.2.2]
  by_cases ha : q.y < a.y <;> by_cases hb : q.y < b.y
  · have u : ¬ UpE q.y (a, b) := fun hh => absurd ha (not_lt.2 hh.1)
    have d : ¬ DownE q.y (a, b) := fun hh => absurd hb (not_lt.2 hh.1)
    have l : ¬ CrossesLeft a b q := by rw [crossesLeft_iff]; tauto
    have r : ¬ CrossesRight a b q := by rw [crossesRight_iff]; tauto
    simp [l, r, ha, hb]
  · have d : DownE q.y (a, b) := ⟨not_lt.1 hb, ha⟩
    have u : ¬ UpE q.y (a, b) := by tauto
    have hn : ¬ a.y < b.y := by push Not; linarith [not_lt.1 hb]
    rcases lt_or_gt_of_ne (hne (Or.inr d)) with ht | ht
    · have l : ¬ CrossesLeft a b q := by rw [crossesLeft_iff]; have := ht.le; have := not_lt.2 this; tauto
      have r : CrossesRight a b q := by rw [crossesRight_iff]; tauto
      simp [l, r, ha, hb, hn]
    · have l : CrossesLeft a b q := by rw [crossesLeft_iff]; tauto
      have r : ¬ CrossesRight a b q := by rw [crossesRight_iff]; have := ht.le; have := not_lt.2 this; tauto
      simp [l, r, ha, hb, hn]
  · have u : UpE q.y (a, b) := ⟨not_lt.1 ha, hb⟩
    have d : ¬ DownE q.y (a, b) := by tauto
    have hn : a.y < b.y := by linarith [not_lt.1 ha]
    rcases lt_or_gt_of_ne (hne (Or.inl u)) with ht | ht
    · have l : CrossesLeft a b q := by rw [crossesLeft_iff]; tauto
      have r : ¬ CrossesRight a b q := by rw [crossesRight_iff]; have := ht.le; have := not_lt.2 this; tauto
      simp [l, r, ha, hb, hn]
    · have l : ¬ CrossesLeft a b q := by rw [crossesLeft_iff]; have := ht.le; have := not_lt.2 this; tauto
      have r : CrossesRight a b q := by rw [crossesRight_iff]; tauto
      simp [l, r, ha, hb, hn]
  · have u : ¬ UpE q.y (a, b) := fun hh => hb hh.2
    have d : ¬ DownE q.y (a, b) := fun hh => ha hh.2
    have l : ¬ CrossesLeft a b q := by rw [crossesLeft_iff]; tauto
    have r : ¬ CrossesRight a b q := by rw [crossesRight_iff]; tauto
    simp [l, r, ha, hb]

private theorem cyc_zero (f : Pt K → Int) (l : List (Pt K)) :
    ((cycPairs l).map (fun e => f e.2 - f e.1)).sum = 0 := by
  have h1 : ∀ es : List (Pt K × Pt K), (es.map (fun e => f e.2 - f e.1)).sum =
      ((es.map Prod.snd).map f).sum - ((es.map Prod.fst).map f).sum := by
    intro es
    induction es with
    | nil => simp
    | cons e es ih => simp only [List.map_cons, List.sum_cons, ih]; ring
  rw [h1, cycPairs_fst, ((cycPairs_snd_perm l).map f).sum_eq, sub_self]

/-- Away from the outline, an odd number of crossings to the left means an odd winding number. -/
theorem odd_crossings (l : List (Pt K)) (q : Pt K)
    (h : ∀ e ∈ cycPairs l, ¬ ∃ t, 0 ≤ t ∧ t ≤ 1 ∧ lineAt e.1 e.2 t = q) :
    Odd (crossings l q) ↔ Odd (winding l q) := by
  classical
  have hsum : ∀ es : List (Pt K × Pt K), (∀ e ∈ es, ¬ ∃ t, 0 ≤ t ∧ t ≤ 1 ∧ lineAt e.1 e.2 t = q) →
      (es.map (sgnL q)).sum + (es.map (sgnR q)).sum = (es.map (fun e => hgtI q e.2 - hgtI q e.1)).sum := by
    intro es
    induction es with
    | nil => intro _; simp
    | cons e es ih =>
      intro h
      have h1 := ih (fun e' he' => h e' (List.mem_cons_of_mem _ he'))
      have h2 := sgn_add (h e List.mem_cons_self)
      simp only [List.map_cons, List.sum_cons]
      omega
  have h0 := hsum _ h
  rw [cyc_zero (hgtI q) l] at h0
  have hL : ∀ es : List (Pt K × Pt K), ∃ k : Int,
      (es.countP (fun e => decide (CrossesLeft e.1 e.2 q)) : Int) = (es.map (sgnL q)).sum + 2 * k := by
    intro es
    induction es with
    | nil => exact ⟨0, by simp⟩
    | cons e es ih =>
      obtain ⟨k, hk⟩ := ih
      rw [List.countP_cons, List.map_cons, List.sum_cons]
      unfold sgnL at hk ⊢
      by_cases hc : CrossesLeft e.1 e.2 q
      · by_cases hu : e.1.y < e.2.y
        · refine ⟨k, ?_⟩
          simp only [hc, hu, decide_true, if_true]; push_cast; omega
        · refine ⟨k + 1, ?_⟩
          simp only [hc, hu, decide_true, if_true, if_false]; push_cast; omega
      · refine ⟨k, ?_⟩
        simp only [hc, decide_false, if_false, Bool.false_eq_true]; push_cast; omega
  obtain ⟨k, hk⟩ := hL (cycPairs l)
  have hc : ((crossings l q : Nat) : Int) = ((cycPairs l).map (sgnL q)).sum + 2 * k := by
    rw [← hk, crossings_eq]
  rw [← winding_sum] at h0
  rw [← Int.odd_coe_nat, hc, Int.odd_iff, Int.odd_iff]
  omega

/-! ### Triangles -/

theorem cov_flip (x a b c : Pt K) : cov x a c b = -cov x a b c := by
  unfold cov
  rw [wnd_swap x a c, wnd_swap x c b, wnd_swap x b a]; ring

theorem edgeSum_tri (x : Pt K) (t : Pt K × Pt K × Pt K) :
    wnd x t.1 t.2.1 + wnd x t.2.1 t.2.2 + wnd x t.2.2 t.1 = cov x t.1 t.2.1 t.2.2 := rfl

theorem open_ccw {t : Pt K × Pt K × Pt K} {x : Pt K} (h : InOpenTri t x) : 0 < turn t.1 t.2.1 t.2.2 := by
  obtain ⟨h1, h2, h3⟩ := h
  have := turn_sum t.1 t.2.1 t.2.2 x
  linarith

theorem turn_flip (t : Pt K × Pt K × Pt K) :
    turn (flipTri t).1 (flipTri t).2.1 (flipTri t).2.2 = -turn t.1 t.2.1 t.2.2 := by
  unfold flipTri turn; ring

/-- Counts of one triangle. -/
theorem cov_bounds (x : Pt K) (t : Pt K × Pt K × Pt K) : ∃ k : Int, cov x t.1 t.2.1 t.2.2 = (k : K) ∧
    (openCount [t] x : Int) - closedCount [flipTri t] x ≤ k ∧
    k ≤ (closedCount [t] x : Int) - openCount [flipTri t] x := by
  classical
  have key : ∀ t : Pt K × Pt K × Pt K, 0 < turn t.1 t.2.1 t.2.2 → ∃ k : Int, cov x t.1 t.2.1 t.2.2 = (k : K) ∧
      (openCount [t] x : Int) ≤ k ∧ k ≤ closedCount [t] x ∧ closedCount [flipTri t] x = 0 ∧
      openCount [flipTri t] x = 0 := by
    intro t ht
    obtain ⟨h1, h2, h3⟩ := cov_spec (x := x) ht
    have c0 : closedCount [flipTri t] x = 0 := by
      unfold closedCount
      rw [List.countP_singleton, if_neg]
      simp only [decide_eq_true_eq, not_and]
      intro h; rw [turn_flip] at h; linarith
    have o0 : openCount [flipTri t] x = 0 := by
      unfold openCount
      rw [List.countP_singleton, if_neg]
      simp only [decide_eq_true_eq]
      intro h; have := open_ccw h; rw [turn_flip] at this; linarith
    rcases h1 with h1 | h1
    · refine ⟨0, by rw [h1]; simp, ?_, by simp, c0, o0⟩
      unfold openCount
      rw [List.countP_singleton, if_neg]
      · simp
      · simp only [decide_eq_true_eq]
        intro ho; rw [h2 ho] at h1; exact one_ne_zero h1
    · refine ⟨1, by rw [h1]; simp, ?_, ?_, c0, o0⟩
      · unfold openCount
        rw [List.countP_singleton]
        split <;> simp
      · unfold closedCount
        rw [List.countP_singleton, if_pos]
        · simp
        · simp only [decide_eq_true_eq]
          exact ⟨ht, h3 h1⟩
  rcases lt_trichotomy (turn t.1 t.2.1 t.2.2) 0 with h | h | h
  · obtain ⟨k, k1, k2, k3, k4, k5⟩ := key (flipTri t) (by rw [turn_flip]; linarith)
    refine ⟨-k, ?_, ?_, ?_⟩
    · rw [Int.cast_neg, ← k1]
      unfold flipTri
      simp only
      rw [cov_flip]
    · have : flipTri (flipTri t) = t := rfl
      rw [this] at k4 k5
      rw [k5]; push_cast; omega
    · have : flipTri (flipTri t) = t := rfl
      rw [this] at k4 k5
      rw [k4]; push_cast; omega
  · have nc : ∀ s : Pt K × Pt K × Pt K, turn s.1 s.2.1 s.2.2 = 0 → openCount [s] x = 0 ∧ closedCount [s] x = 0 := by
      intro s hs
      constructor
      · unfold openCount
        rw [List.countP_singleton, if_neg]
        simp only [decide_eq_true_eq]
        intro ho; have := open_ccw ho; linarith
      · unfold closedCount
        rw [List.countP_singleton, if_neg]
        simp only [decide_eq_true_eq, not_and]
        intro hp; linarith
    refine ⟨0, by rw [cov_flat x h]; simp, ?_, ?_⟩
    · rw [(nc t h).1, (nc (flipTri t) (by rw [turn_flip, h, neg_zero])).2]; simp
    · rw [(nc t h).2, (nc (flipTri t) (by rw [turn_flip, h, neg_zero])).1]; simp
  · obtain ⟨k, k1, k2, k3, k4, k5⟩ := key t h
    exact ⟨k, k1, by rw [k4]; push_cast; omega, by rw [k5]; push_cast; omega⟩

/-- Counts of many triangles. -/
theorem covs_bounds (x : Pt K) (ts : List (Pt K × Pt K × Pt K)) : ∃ k : Int,
    (ts.map (fun t => cov x t.1 t.2.1 t.2.2)).sum = (k : K) ∧
    (openCount ts x : Int) - closedCount (ts.map flipTri) x ≤ k ∧
    k ≤ (closedCount ts x : Int) - openCount (ts.map flipTri) x := by
  classical
  induction ts with
  | nil => exact ⟨0, by simp [openCount, closedCount]⟩
  | cons t ts ih =>
    obtain ⟨k, k1, k2, k3⟩ := ih
    obtain ⟨j, j1, j2, j3⟩ := cov_bounds x t
    have o : ∀ (t : Pt K × Pt K × Pt K) ts, openCount (t :: ts) x = openCount [t] x + openCount ts x := by
      intro t ts; unfold openCount; rw [← List.countP_append]; rfl
    have c : ∀ (t : Pt K × Pt K × Pt K) ts, closedCount (t :: ts) x = closedCount [t] x + closedCount ts x := by
      intro t ts; unfold closedCount; rw [← List.countP_append]; rfl
    refine ⟨j + k, ?_, ?_, ?_⟩
    · rw [List.map_cons, List.sum_cons, j1, k1, Int.cast_add]
    · rw [List.map_cons, o, c (flipTri t)]; push_cast; omega
    · rw [List.map_cons, c, o (flipTri t)]; push_cast; omega

end Delynoi
