import Verif.Model.ClipperGeom
import Verif.Proofs.ClipperPip
import Verif.Proofs.Double
import Verif.Proofs.Area
import Verif.Proofs.Contain
import Mathlib.Algebra.Order.BigOperators.Group.List
/-!
# Lemmas about Clipper's `Area` and about rounding in `PointInPolygon`
-/
set_option linter.unusedSectionVars false
namespace Delynoi
open Clip

theorem prevPairs_eq {α : Type} (l : List α) : prevPairs l = (cycPairs l).rotate (l.length - 1) := by
  rcases Nat.eq_zero_or_pos l.length with h0 | h0
  · rw [List.length_eq_zero_iff.1 h0]; rfl
  rw [← cycPairs_rotate]
  unfold prevPairs
  have h1 : l.rotate (l.length - 1) = l.drop (l.length - 1) ++ l.take (l.length - 1) :=
    List.rotate_eq_drop_append_take (by omega)
  have h2 : (l.rotate (l.length - 1)).rotate 1 = l := by
    rw [List.rotate_rotate, show l.length - 1 + 1 = l.length by omega, List.rotate_length]
  rw [← h1]
  unfold cycPairs
  have h3 : (l.rotate (l.length - 1)).drop 1 ++ (l.rotate (l.length - 1)).take 1 = l := by
    rw [← List.rotate_eq_drop_append_take (by rw [List.length_rotate]; omega), h2]
  rw [h3]

theorem prevPairs_perm {α : Type} (l : List α) : (prevPairs l).Perm (cycPairs l) := by
  rw [prevPairs_eq]; exact List.rotate_perm _ _

theorem prevPairs_mem {α : Type} {l : List α} {e : α × α} (h : e ∈ prevPairs l) : e.1 ∈ l ∧ e.2 ∈ l :=
  cycPairs_mem ((prevPairs_perm l).mem_iff.1 h)

/-- The exact sum of the terms. -/
theorem areaTerm_sum (l : List IPt) :
    ((prevPairs l).map (fun e => areaTerm id e.1 e.2)).sum = -shoe (l.map IPt.toPt) := by
  rw [((prevPairs_perm l).map _).sum_eq]
  unfold shoe
  rw [cycPairs_map, List.map_map]
  have h1 : ∀ es : List (IPt × IPt), (es.map (fun e => areaTerm id e.1 e.2)).sum =
      -(es.map ((fun e : Pt ℚ × Pt ℚ => e.1.x * e.2.y - e.2.x * e.1.y) ∘ Prod.map IPt.toPt IPt.toPt)).sum +
      (((es.map Prod.fst).map (fun p => (p.X : ℚ) * p.Y)).sum - ((es.map Prod.snd).map (fun p => (p.X : ℚ) * p.Y)).sum) := by
    intro es
    induction es with
    | nil => simp
    | cons e es ih =>
      simp only [List.map_cons, List.sum_cons, ih]
      unfold areaTerm IPt.toPt
      simp only [id, Function.comp, Prod.map]
      ring
  rw [h1, cycPairs_fst, ((cycPairs_snd_perm l).map _).sum_eq]
  ring

/-- Integers below `2^53` are not rounded. -/
theorem fl_int {k : Int} (h : |k| < 9007199254740992) : fl (k : ℚ) = k :=
  fl_of_double ⟨k, 0, by norm_num, by norm_num; exact h, by simp⟩

theorem fl_half_int {k : Int} (h : |k| < 9007199254740992) : fl ((k : ℚ) * (1 / 2)) = k * (1 / 2) :=
  fl_of_double ⟨k, -1, by norm_num, by norm_num; exact h, by simp⟩

/-- The term of `Area` as an integer. -/
def areaInt (e : IPt × IPt) : Int := (e.1.X + e.2.X) * (e.1.Y - e.2.Y)

theorem areaTerm_id (e : IPt × IPt) : areaTerm id e.1 e.2 = (areaInt e : Int) := by
  unfold areaTerm areaInt; simp only [id]; push_cast; rfl

theorem areaInt_abs {M : Int} {e : IPt × IPt} (h1 : |e.1.X| ≤ M ∧ |e.1.Y| ≤ M) (h2 : |e.2.X| ≤ M ∧ |e.2.Y| ≤ M) :
    |e.1.X + e.2.X| ≤ 2 * M ∧ |e.1.Y - e.2.Y| ≤ 2 * M ∧ |areaInt e| ≤ 4 * M ^ 2 := by
  have a1 : |e.1.X + e.2.X| ≤ 2 * M := (abs_add_le _ _).trans (by linarith [h1.1, h2.1])
  have a2 : |e.1.Y - e.2.Y| ≤ 2 * M := (abs_sub _ _).trans (by linarith [h1.2, h2.2])
  refine ⟨a1, a2, ?_⟩
  unfold areaInt
  rw [abs_mul]
  calc _ ≤ (2 * M) * (2 * M) := mul_le_mul a1 a2 (abs_nonneg _) ((abs_nonneg _).trans a1)
    _ = 4 * M ^ 2 := by ring

theorem areaTerm_fl {M : Int} (hM : 4 * M ^ 2 < 9007199254740992) {e : IPt × IPt}
    (h1 : |e.1.X| ≤ M ∧ |e.1.Y| ≤ M) (h2 : |e.2.X| ≤ M ∧ |e.2.Y| ≤ M) :
    areaTerm fl e.1 e.2 = (areaInt e : Int) := by
  obtain ⟨a1, a2, a3⟩ := areaInt_abs h1 h2
  have hM0 : 0 ≤ M := (abs_nonneg _).trans h1.1
  have hM1 : 2 * M < 9007199254740992 := by nlinarith
  unfold areaTerm
  rw [fl_int (k := e.1.X) (by linarith [h1.1]), fl_int (k := e.2.X) (by linarith [h2.1]),
    fl_int (k := e.1.Y) (by linarith [h1.2]), fl_int (k := e.2.Y) (by linarith [h2.2]),
    ← Int.cast_add, ← Int.cast_sub, fl_int (by linarith), fl_int (by linarith), ← Int.cast_mul]
  exact fl_int (by unfold areaInt at a3; linarith)

theorem sumLoop_fl {B : Int} : ∀ (es : List Int) (acc : Int), (∀ k ∈ es, |k| ≤ B) → 0 ≤ B →
    |acc| + es.length * B < 9007199254740992 →
    Rnd.sumLoop fl acc (es.map (fun k : Int => (k : ℚ))) = ((acc + es.sum : Int) : ℚ) ∧
      |acc + es.sum| ≤ |acc| + es.length * B
  | [], acc, _, _, _ => by simp [Rnd.sumLoop]
  | k :: es, acc, h, hB, hb => by
    have hk := h k (by simp)
    have h1 : |acc + k| ≤ |acc| + B := (abs_add_le _ _).trans (by linarith)
    have hl : ((k :: es).length : Int) = es.length + 1 := by simp
    have hb' : |acc + k| + es.length * B < 9007199254740992 := by rw [hl] at hb; linarith
    have h0 : 0 ≤ (es.length : Int) * B := by positivity
    obtain ⟨g1, g2⟩ := sumLoop_fl es (acc + k) (fun x hx => h x (List.mem_cons_of_mem _ hx)) hB hb'
    have e1 : Rnd.sumLoop fl (acc : ℚ) ((k :: es).map (fun k : Int => (k : ℚ))) =
        Rnd.sumLoop fl (fl ((acc : ℚ) + k)) (es.map (fun k : Int => (k : ℚ))) := rfl
    refine ⟨?_, ?_⟩
    · rw [e1, ← Int.cast_add, fl_int (by linarith), g1, List.sum_cons, add_assoc]
    · rw [List.sum_cons, ← add_assoc, hl]; linarith

/-- Coordinates at most `M` and `4 n M² < 2^53`: nothing is rounded. -/
theorem area_sum_fl {M : Int} {l : List IPt} (hl : ∀ p ∈ l, |p.X| ≤ M ∧ |p.Y| ≤ M)
    (hM : 4 * l.length * M ^ 2 < 9007199254740992) :
    ∃ S : Int, |S| < 9007199254740992 ∧ (S : ℚ) = -shoe (l.map IPt.toPt) ∧
      Rnd.sumLoop fl 0 ((prevPairs l).map (fun e => areaTerm fl e.1 e.2)) = S := by
  rcases Nat.eq_zero_or_pos l.length with h0 | h0
  · rw [List.length_eq_zero_iff.1 h0]; exact ⟨0, by norm_num, by simp [shoe, cycPairs], by simp [Rnd.sumLoop, prevPairs]⟩
  have hsq : 0 ≤ M ^ 2 := sq_nonneg M
  have hl1 : (1 : Int) ≤ l.length := by exact_mod_cast h0
  have hM4 : 4 * M ^ 2 < 9007199254740992 := by nlinarith
  have e1 : (prevPairs l).map (fun e => areaTerm fl e.1 e.2) = ((prevPairs l).map areaInt).map (fun k : Int => (k : ℚ)) := by
    rw [List.map_map]
    apply List.map_congr_left
    intro e he
    exact areaTerm_fl hM4 (hl _ (prevPairs_mem he).1) (hl _ (prevPairs_mem he).2)
  have e2 : (((prevPairs l).map areaInt).sum : ℚ) = -shoe (l.map IPt.toPt) := by
    rw [← areaTerm_sum]
    have : ∀ es : List (IPt × IPt), (((es.map areaInt).sum : Int) : ℚ) = (es.map (fun e => areaTerm id e.1 e.2)).sum := by
      intro es
      induction es with
      | nil => simp
      | cons e es ih => rw [List.map_cons, List.map_cons, List.sum_cons, List.sum_cons, areaTerm_id, ← ih]; push_cast; rfl
    exact this _
  have hb : |(0 : Int)| + (((prevPairs l).map areaInt).length : Int) * (4 * M ^ 2) < 9007199254740992 := by
    have : ((prevPairs l).map areaInt).length = l.length := by
      rw [List.length_map, (prevPairs_perm l).length_eq, cycPairs_length]
    rw [this, abs_zero]; linarith
  obtain ⟨g1, g2⟩ := sumLoop_fl ((prevPairs l).map areaInt) 0 (by
    intro k hk
    obtain ⟨e, he, rfl⟩ := List.mem_map.1 hk
    exact (areaInt_abs (hl _ (prevPairs_mem he).1) (hl _ (prevPairs_mem he).2)).2.2) (by positivity) hb
  rw [zero_add] at g1 g2
  refine ⟨((prevPairs l).map areaInt).sum, by linarith, e2, ?_⟩
  rw [e1]
  exact_mod_cast g1

/-! ### Rings -/

theorem ringTerm_eq (r : ℚ → ℚ) {a b : IPt} (ha : Fits a) (hb : Fits b) :
    ringTerm r a b = .ok (r (r (a.X + b.X : Int) * r (a.Y - b.Y : Int))) := by
  unfold ringTerm
  have h1 : i64 (a.X + b.X) = .ok (a.X + b.X) := by
    have h2 := ha.1; have h3 := hb.1
    rw [abs_le] at h2 h3
    exact i64_ok (by omega)
  rw [h1, i64_diff ha.2 hb.2]
  rfl

theorem ringSum_eq (r : ℚ → ℚ) : ∀ (es : List (IPt × IPt)) (acc : ℚ), (∀ e ∈ es, Fits e.1 ∧ Fits e.2) →
    ringSum r es acc = .ok (Rnd.sumLoop r acc (es.map (fun e => r (r (e.1.X + e.2.X : Int) * r (e.1.Y - e.2.Y : Int)))))
  | [], acc, _ => rfl
  | e :: es, acc, h => by
    rw [ringSum, ringTerm_eq r (h e (by simp)).1 (h e (by simp)).2, Outcome.bind_ok,
      ringSum_eq r es _ (fun f hf => h f (List.mem_cons_of_mem _ hf))]
    rfl

theorem ringArea_eq (r : ℚ → ℚ) {l : List IPt} (h : ∀ p ∈ l, Fits p) :
    ringArea r l = .ok (r (Rnd.sumLoop r 0 ((prevPairs l).map
      (fun e => r (r (e.1.X + e.2.X : Int) * r (e.1.Y - e.2.Y : Int)))) * (1 / 2))) := by
  unfold ringArea
  rw [ringSum_eq r _ _ (fun e he => ⟨h _ (prevPairs_mem he).1, h _ (prevPairs_mem he).2⟩)]
  rfl

/-! ### Rounding in `PointInPolygon` -/

/-- The rounded `d` never has the opposite sign. -/
theorem fl_cross_sign (a b c d : ℚ) :
    (0 < fl (fl (a * b) - fl (c * d)) → 0 < a * b - c * d) ∧ (fl (fl (a * b) - fl (c * d)) < 0 → a * b - c * d < 0) := by
  constructor
  · intro h
    by_contra hn
    have h1 : fl (a * b) ≤ fl (c * d) := fl_mono (by linarith)
    have h2 := fl_nonpos (sub_nonpos.2 h1)
    linarith
  · intro h
    by_contra hn
    have h1 : fl (c * d) ≤ fl (a * b) := fl_mono (by linarith)
    have h2 := fl_nonneg (sub_nonneg.2 h1)
    linarith

/-- Coordinates whose differences are converted to `double` without rounding. -/
def Fits52 (p : IPt) : Prop := |p.X| ≤ 2251799813685248 ∧ |p.Y| ≤ 2251799813685248

theorem Fits52.fits {p : IPt} (h : Fits52 p) : Fits p := ⟨h.1.trans (by norm_num), h.2.trans (by norm_num)⟩

theorem fl_diff52 {x y : Int} (hx : |x| ≤ 2251799813685248) (hy : |y| ≤ 2251799813685248) :
    fl ((x - y : Int) : ℚ) = ((x - y : Int) : ℚ) :=
  fl_int (lt_of_le_of_lt (abs_sub x y) (by omega))

theorem pipCross_fl {q a b : IPt} (hq : Fits52 q) (ha : Fits52 a) (hb : Fits52 b) :
    pipCross fl q a b = .ok (fl (fl (((a.X - q.X : Int) : ℚ) * ((b.Y - q.Y : Int) : ℚ)) -
      fl (((b.X - q.X : Int) : ℚ) * ((a.Y - q.Y : Int) : ℚ)))) := by
  rw [pipCross_eq fl hq.fits ha.fits hb.fits, fl_diff52 ha.1 hq.1, fl_diff52 hb.2 hq.2,
    fl_diff52 hb.1 hq.1, fl_diff52 ha.2 hq.2]

theorem dExact_prod (q a b : IPt) : ((dExact q a b : Int) : ℚ) =
    ((a.X - q.X : Int) : ℚ) * ((b.Y - q.Y : Int) : ℚ) - ((b.X - q.X : Int) : ℚ) * ((a.Y - q.Y : Int) : ℚ) := by
  unfold dExact; push_cast; rfl

theorem pipDecide_fl {q a b : IPt} (hq : Fits52 q) (ha : Fits52 a) (hb : Fits52 b) (res : Int) :
    pipDecide fl q a b res = .ok none ∨ pipDecide fl q a b res = pipDecide id q a b res := by
  have hs := fl_cross_sign ((a.X - q.X : Int) : ℚ) ((b.Y - q.Y : Int) : ℚ) ((b.X - q.X : Int) : ℚ) ((a.Y - q.Y : Int) : ℚ)
  rw [pipDecide_id hq.fits ha.fits hb.fits]
  unfold pipDecide
  rw [pipCross_fl hq ha hb, Outcome.bind_ok]
  rw [← dExact_prod] at hs
  generalize fl (fl (((a.X - q.X : Int) : ℚ) * ((b.Y - q.Y : Int) : ℚ)) -
      fl (((b.X - q.X : Int) : ℚ) * ((a.Y - q.Y : Int) : ℚ))) = D at hs ⊢
  rw [Int.cast_pos, Int.cast_lt_zero] at hs
  by_cases h0 : D = 0
  · left; rw [if_pos h0]; rfl
  · right
    rw [if_neg h0]
    have hd : decide (D > 0) = decide (0 < dExact q a b) := by
      rw [decide_eq_decide]
      rcases lt_or_gt_of_ne h0 with h1 | h1
      · have := hs.2 h1
        constructor
        · intro h2; exact absurd h1 (not_lt.2 (le_of_lt h2))
        · intro h2; omega
      · exact ⟨fun _ => hs.1 h1, fun _ => h1⟩
    have hne : dExact q a b ≠ 0 := by
      rcases lt_or_gt_of_ne h0 with h1 | h1
      · have := hs.2 h1; omega
      · have := hs.1 h1; omega
    rw [if_neg hne, hd]
    by_cases e1 : (0 < dExact q a b ↔ a.Y < b.Y)
    · rw [if_pos e1, if_pos (by rw [decide_eq_decide]; exact e1)]; rfl
    · rw [if_neg e1, if_neg (by rw [decide_eq_decide]; exact e1)]; rfl

theorem pipStep_fl {q a b : IPt} (hq : Fits52 q) (ha : Fits52 a) (hb : Fits52 b) (res : Int) :
    pipStep fl q a b res = .ok none ∨ pipStep fl q a b res = pipStep id q a b res := by
  unfold pipStep
  split
  · exact Or.inl rfl
  · split
    · split
      · split
        · exact Or.inr rfl
        · exact pipDecide_fl hq ha hb res
      · split
        · exact pipDecide_fl hq ha hb res
        · exact Or.inr rfl
    · exact Or.inr rfl

theorem pipLoop_fl {q : IPt} (hq : Fits52 q) : ∀ (es : List (IPt × IPt)) (res : Int),
    (∀ e ∈ es, Fits52 e.1 ∧ Fits52 e.2) →
    pipLoop fl q es res = .ok (-1) ∨ pipLoop fl q es res = pipLoop id q es res
  | [], _, _ => Or.inr rfl
  | e :: es, res, hf => by
    obtain ⟨f1, f2⟩ := hf e (by simp)
    have ih := fun z => pipLoop_fl hq es z (fun f hf' => hf f (List.mem_cons_of_mem _ hf'))
    rcases pipStep_fl hq f1 f2 res with h1 | h1
    · exact Or.inl (pipLoop_none h1)
    · rcases pipStep_total hq.fits f1.fits f2.fits res with h2 | h2 | h2
      · exact Or.inl (pipLoop_none (h1.trans h2))
      · rw [pipLoop_some h2, pipLoop_some (h1.trans h2)]; exact ih _
      · rw [pipLoop_some h2, pipLoop_some (h1.trans h2)]; exact ih _

/-- Coordinates for which `d` is not rounded at all. -/
def Fits25 (p : IPt) : Prop := |p.X| ≤ 33554431 ∧ |p.Y| ≤ 33554431

theorem Fits25.fits52 {p : IPt} (h : Fits25 p) : Fits52 p := ⟨h.1.trans (by norm_num), h.2.trans (by norm_num)⟩

theorem diff25 {x y : Int} (hx : |x| ≤ 33554431) (hy : |y| ≤ 33554431) : |x - y| ≤ 67108862 :=
  (abs_sub x y).trans (by omega)

theorem pipCross_fl25 {q a b : IPt} (hq : Fits25 q) (ha : Fits25 a) (hb : Fits25 b) :
    pipCross fl q a b = pipCross id q a b := by
  rw [pipCross_fl hq.fits52 ha.fits52 hb.fits52, pipCross_id hq.fits52.fits ha.fits52.fits hb.fits52.fits, dExact_prod]
  have p1 : |(a.X - q.X) * (b.Y - q.Y)| ≤ 67108862 * 67108862 := by
    rw [abs_mul]; exact mul_le_mul (diff25 ha.1 hq.1) (diff25 hb.2 hq.2) (abs_nonneg _) (by norm_num)
  have p2 : |(b.X - q.X) * (a.Y - q.Y)| ≤ 67108862 * 67108862 := by
    rw [abs_mul]; exact mul_le_mul (diff25 hb.1 hq.1) (diff25 ha.2 hq.2) (abs_nonneg _) (by norm_num)
  have p3 := abs_sub ((a.X - q.X) * (b.Y - q.Y)) ((b.X - q.X) * (a.Y - q.Y))
  rw [← Int.cast_mul, ← Int.cast_mul, fl_int (by omega), fl_int (by omega), ← Int.cast_sub, fl_int (by omega)]

theorem pipStep_fl25 {q a b : IPt} (hq : Fits25 q) (ha : Fits25 a) (hb : Fits25 b) (res : Int) :
    pipStep fl q a b res = pipStep id q a b res := by
  unfold pipStep pipDecide
  rw [pipCross_fl25 hq ha hb]

theorem pipLoop_fl25 {q : IPt} (hq : Fits25 q) : ∀ (es : List (IPt × IPt)) (res : Int),
    (∀ e ∈ es, Fits25 e.1 ∧ Fits25 e.2) → pipLoop fl q es res = pipLoop id q es res
  | [], _, _ => rfl
  | e :: es, res, hf => by
    obtain ⟨f1, f2⟩ := hf e (by simp)
    rw [pipLoop, pipLoop, pipStep_fl25 hq f1 f2]
    congr 1
    funext o
    cases o with
    | none => rfl
    | some z => exact pipLoop_fl25 hq es z (fun f hf' => hf f (List.mem_cons_of_mem _ hf'))

end Delynoi
