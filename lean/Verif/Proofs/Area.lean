import Verif.Proofs.Cyc
/-! Lemmas about area sums. -/
namespace Delynoi
set_option linter.unusedSectionVars false
variable {K : Type} [Field K] [LinearOrder K] [IsStrictOrderedRing K]

/-- Shoelace sum. -/
def shoe (l : List (Pt K)) : K := ((cycPairs l).map (fun e => e.1.x * e.2.y - e.2.x * e.1.y)).sum

theorem signedArea_eq (l : List (Pt K)) : signedArea l = 1 / 2 * shoe l := rfl

theorem fanArea_eq (l : List (Pt K)) : fanArea l = signedArea l := by
  cases l with
  | nil => simp [fanArea, signedArea, cycPairs]
  | cons a l =>
    have h : ∀ e : Pt K × Pt K, triangleArea e.1 e.2 a =
        1 / 2 * (e.1.x * e.2.y - e.2.x * e.1.y) +
          ((fun p : Pt K => 1 / 2 * (p.x * a.y - p.y * a.x)) e.2 -
            (fun p : Pt K => 1 / 2 * (p.x * a.y - p.y * a.x)) e.1) := by
      intro e; simp only [triangleArea, area2, crossProduct, Pt.sub]; ring
    simp only [fanArea, signedArea]
    rw [List.map_congr_left (fun e _ => h e), list_sum_add, list_sum_mul,
      cyc_telescope (fun p : Pt K => 1 / 2 * (p.x * a.y - p.y * a.x)), add_zero]

theorem perm_sum {α : Type} (f : α → K) {l m : List α} (h : l.Perm m) :
    (l.map f).sum = (m.map f).sum := (h.map f).sum_eq

theorem shoe_rotate (l : List (Pt K)) (k : Nat) : shoe (l.rotate k) = shoe l := by
  unfold shoe
  rw [cycPairs_rotate]
  exact perm_sum _ (List.rotate_perm _ _)

theorem shoe_reverse (l : List (Pt K)) : shoe l.reverse = -shoe l := by
  unfold shoe
  rw [perm_sum _ (cycPairs_reverse_perm l), List.map_map]
  have : (fun e : Pt K × Pt K => e.1.x * e.2.y - e.2.x * e.1.y) ∘ Prod.swap =
      fun e => (-1) * (e.1.x * e.2.y - e.2.x * e.1.y) := by
    funext e; simp only [Function.comp, Prod.swap]; ring
  rw [this, list_sum_mul]; ring

/-- Translation of a point. -/
def shift (v : Pt K) (p : Pt K) : Pt K := ⟨p.x + v.x, p.y + v.y⟩

theorem shoe_shift (v : Pt K) (l : List (Pt K)) : shoe (l.map (shift v)) = shoe l := by
  unfold shoe
  rw [cycPairs_map, List.map_map]
  have : ∀ e : Pt K × Pt K,
      ((fun e : Pt K × Pt K => e.1.x * e.2.y - e.2.x * e.1.y) ∘ Prod.map (shift v) (shift v)) e =
      (e.1.x * e.2.y - e.2.x * e.1.y) +
        ((fun p : Pt K => v.x * p.y - v.y * p.x) e.2 - (fun p : Pt K => v.x * p.y - v.y * p.x) e.1) := by
    intro e; simp only [Function.comp, Prod.map, shift]; ring
  rw [List.map_congr_left (fun e _ => this e), list_sum_add,
    cyc_telescope (fun p : Pt K => v.x * p.y - v.y * p.x), add_zero]

theorem zip_closing {α : Type} (a : α) (l : List α) :
    cycPairs (a :: l) = (a :: l).zip l ++ [((a :: l).getLast (by simp), a)] := by
  rw [cycPairs_cons]
  suffices h : ∀ (b : α) (l : List α), (b :: l).zip (l ++ [a]) =
      (b :: l).zip l ++ [((b :: l).getLast (by simp), a)] from h a l
  intro b l
  induction l generalizing b with
  | nil => simp
  | cons c l ih =>
    have := ih c
    simp only [List.cons_append, List.zip_cons_cons]
    rw [this]
    simp

/-- The sum `isClockwise` computes. -/
theorem clock_sum (a : Pt K) (l : List (Pt K)) (z : Pt K) (hz : z = (a :: l).getLast (by simp)) :
    (a.x - z.x) * (a.y + z.y) + (((a :: l).zip l).map (fun e => (e.2.x - e.1.x) * (e.2.y + e.1.y))).sum =
      -shoe (a :: l) := by
  have hs : (a.x - z.x) * (a.y + z.y) +
      (((a :: l).zip l).map (fun e => (e.2.x - e.1.x) * (e.2.y + e.1.y))).sum =
      ((cycPairs (a :: l)).map (fun e => (e.2.x - e.1.x) * (e.2.y + e.1.y))).sum := by
    rw [zip_closing, List.map_append, List.sum_append, ← hz]
    simp; ring
  rw [hs]
  have : ∀ e : Pt K × Pt K, (e.2.x - e.1.x) * (e.2.y + e.1.y) =
      (-1) * (e.1.x * e.2.y - e.2.x * e.1.y) +
        ((fun p : Pt K => p.x * p.y) e.2 - (fun p : Pt K => p.x * p.y) e.1) := by
    intro e; simp only; ring
  rw [List.map_congr_left (fun e _ => this e), list_sum_add, list_sum_mul,
    cyc_telescope (fun p : Pt K => p.x * p.y)]
  unfold shoe; ring

theorem isClockwise_iff (a : Pt K) (l : List (Pt K)) :
    isClockwise (a :: l) = .ok (decide (signedArea (a :: l) < 0)) := by
  unfold isClockwise
  simp only
  rw [clock_sum a l _ rfl, signedArea_eq]
  congr 1
  apply Bool.eq_iff_iff.2
  simp only [decide_eq_true_eq]
  constructor <;> intro h <;> linarith

/-- First moments used by the centroid. -/
def momX (l : List (Pt K)) : K :=
  ((cycPairs l).map (fun e => (e.1.x + e.2.x) * (e.1.x * e.2.y - e.2.x * e.1.y))).sum
def momY (l : List (Pt K)) : K :=
  ((cycPairs l).map (fun e => (e.1.y + e.2.y) * (e.1.x * e.2.y - e.2.x * e.1.y))).sum

theorem momX_shift (v : Pt K) (l : List (Pt K)) :
    momX (l.map (shift v)) = momX l + 3 * v.x * shoe l := by
  unfold momX
  rw [cycPairs_map, List.map_map]
  have : ∀ e : Pt K × Pt K,
      ((fun e : Pt K × Pt K => (e.1.x + e.2.x) * (e.1.x * e.2.y - e.2.x * e.1.y)) ∘
        Prod.map (shift v) (shift v)) e =
      ((e.1.x + e.2.x) * (e.1.x * e.2.y - e.2.x * e.1.y) +
        (3 * v.x) * (e.1.x * e.2.y - e.2.x * e.1.y)) +
      ((fun p : Pt K => v.x * (p.x * p.y) - v.y * p.x ^ 2 + 2 * v.x * (v.x * p.y - v.y * p.x)) e.2 -
       (fun p : Pt K => v.x * (p.x * p.y) - v.y * p.x ^ 2 + 2 * v.x * (v.x * p.y - v.y * p.x)) e.1) := by
    intro e; simp only [Function.comp, Prod.map, shift]; ring
  rw [List.map_congr_left (fun e _ => this e), list_sum_add, list_sum_add, list_sum_mul,
    cyc_telescope (fun p : Pt K => v.x * (p.x * p.y) - v.y * p.x ^ 2 +
      2 * v.x * (v.x * p.y - v.y * p.x)), add_zero]
  rfl

theorem momY_shift (v : Pt K) (l : List (Pt K)) :
    momY (l.map (shift v)) = momY l + 3 * v.y * shoe l := by
  unfold momY
  rw [cycPairs_map, List.map_map]
  have : ∀ e : Pt K × Pt K,
      ((fun e : Pt K × Pt K => (e.1.y + e.2.y) * (e.1.x * e.2.y - e.2.x * e.1.y)) ∘
        Prod.map (shift v) (shift v)) e =
      ((e.1.y + e.2.y) * (e.1.x * e.2.y - e.2.x * e.1.y) +
        (3 * v.y) * (e.1.x * e.2.y - e.2.x * e.1.y)) +
      ((fun p : Pt K => -v.y * (p.x * p.y) + v.x * p.y ^ 2 + 2 * v.y * (v.x * p.y - v.y * p.x)) e.2 -
       (fun p : Pt K => -v.y * (p.x * p.y) + v.x * p.y ^ 2 + 2 * v.y * (v.x * p.y - v.y * p.x)) e.1) := by
    intro e; simp only [Function.comp, Prod.map, shift]; ring
  rw [List.map_congr_left (fun e _ => this e), list_sum_add, list_sum_add, list_sum_mul,
    cyc_telescope (fun p : Pt K => -v.y * (p.x * p.y) + v.x * p.y ^ 2 +
      2 * v.y * (v.x * p.y - v.y * p.x)), add_zero]
  rfl

theorem momX_reverse (l : List (Pt K)) : momX l.reverse = -momX l := by
  unfold momX
  rw [perm_sum _ (cycPairs_reverse_perm l), List.map_map]
  have : (fun e : Pt K × Pt K => (e.1.x + e.2.x) * (e.1.x * e.2.y - e.2.x * e.1.y)) ∘ Prod.swap =
      fun e => (-1) * ((e.1.x + e.2.x) * (e.1.x * e.2.y - e.2.x * e.1.y)) := by
    funext e; simp only [Function.comp, Prod.swap]; ring
  rw [this, list_sum_mul]; ring

theorem momY_reverse (l : List (Pt K)) : momY l.reverse = -momY l := by
  unfold momY
  rw [perm_sum _ (cycPairs_reverse_perm l), List.map_map]
  have : (fun e : Pt K × Pt K => (e.1.y + e.2.y) * (e.1.x * e.2.y - e.2.x * e.1.y)) ∘ Prod.swap =
      fun e => (-1) * ((e.1.y + e.2.y) * (e.1.x * e.2.y - e.2.x * e.1.y)) := by
    funext e; simp only [Function.comp, Prod.swap]; ring
  rw [this, list_sum_mul]; ring

theorem momX_rotate (l : List (Pt K)) (k : Nat) : momX (l.rotate k) = momX l := by
  unfold momX; rw [cycPairs_rotate]; exact perm_sum _ (List.rotate_perm _ _)
theorem momY_rotate (l : List (Pt K)) (k : Nat) : momY (l.rotate k) = momY l := by
  unfold momY; rw [cycPairs_rotate]; exact perm_sum _ (List.rotate_perm _ _)

theorem calculateCentroid_eq (l : List (Pt K)) : calculateCentroid l =
    if shoe l = 0 then none else some ⟨momX l / (3 * shoe l), momY l / (3 * shoe l)⟩ := by
  unfold calculateCentroid
  have h0 : signedArea l = 1 / 2 * shoe l := rfl
  have h6 : 6 * signedArea l = 3 * shoe l := by rw [h0]; ring
  simp only [h6]
  by_cases h : shoe l = 0
  · rw [if_pos h, if_pos (by rw [h0, h, mul_zero])]
  · have h2 : signedArea l ≠ 0 := by rw [h0]; exact mul_ne_zero (by norm_num) h
    rw [if_neg h, if_neg h2]
    rfl

end Delynoi
