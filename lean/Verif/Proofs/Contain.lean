import Verif.Proofs.Area
import Verif.Spec.Polygon
import Mathlib.Data.Rat.Cast.Order
import Mathlib.Algebra.Order.Field.Rat
import Mathlib.Tactic.Positivity
import Mathlib.Tactic.FieldSimp
import Mathlib.Data.Finset.Max
/-! Lemmas for the point-in-polygon test. -/
namespace Delynoi
set_option linter.unusedSectionVars false
variable {K : Type} [Field K] [LinearOrder K] [IsStrictOrderedRing K]

theorem cycPairs_eq_finRange {α : Type} (l : List α) :
    cycPairs l = (List.finRange l.length).map (fun i => (l[i], nextV l i)) := by
  apply List.ext_getElem
  · simp [cycPairs_length]
  · intro i h1 h2
    simp [cycPairs_getElem, nextV]

/-- Upward straddling edge. -/
def UpE (h : K) (e : Pt K × Pt K) : Prop := e.1.y ≤ h ∧ h < e.2.y
/-- Downward straddling edge. -/
def DownE (h : K) (e : Pt K × Pt K) : Prop := e.2.y ≤ h ∧ h < e.1.y

theorem xat_lt_up {a b q : Pt K} (h : a.y < b.y) :
    a.x + (q.y - a.y) / (b.y - a.y) * (b.x - a.x) < q.x ↔ turn a b q < 0 := by
  have hd : 0 < b.y - a.y := by linarith
  have e : (a.x + (q.y - a.y) / (b.y - a.y) * (b.x - a.x) - q.x) * (b.y - a.y) = turn a b q := by
    unfold turn; field_simp; ring
  rw [← e]
  constructor
  · intro h1; exact mul_neg_of_neg_of_pos (by linarith) hd
  · intro h1
    have := neg_of_mul_neg_left h1 hd.le
    linarith

theorem xat_lt_down {a b q : Pt K} (h : b.y < a.y) :
    a.x + (q.y - a.y) / (b.y - a.y) * (b.x - a.x) < q.x ↔ 0 < turn a b q := by
  have hd : 0 < a.y - b.y := by linarith
  have hd' : b.y - a.y ≠ 0 := by linarith
  have e : (q.x - (a.x + (q.y - a.y) / (b.y - a.y) * (b.x - a.x))) * (a.y - b.y) = turn a b q := by
    unfold turn; field_simp; ring
  rw [← e]
  constructor
  · intro h1; exact mul_pos (by linarith) hd
  · intro h1
    have := pos_of_mul_pos_left h1 hd.le
    linarith

/-- Arithmetic form of `CrossesLeft`. -/
theorem crossesLeft_iff {a b q : Pt K} : CrossesLeft a b q ↔
    (UpE q.y (a, b) ∧ turn a b q < 0) ∨ (DownE q.y (a, b) ∧ 0 < turn a b q) := by
  unfold CrossesLeft UpE DownE
  constructor
  · rintro ⟨h1, h2, t, _, _, h3, h4⟩
    simp only [lineAt] at h3 h4
    have hx : q.x = ((1 - t) * a.x + t * b.x) + (q.x - ((1 - t) * a.x + t * b.x)) := by ring
    have ht : turn a b q = -(b.y - a.y) * (q.x - ((1 - t) * a.x + t * b.x)) := by
      unfold turn; rw [← h3]; ring
    rcases le_total a.y b.y with hab | hab
    · rw [min_eq_left hab] at h1; rw [max_eq_right hab] at h2
      left; refine ⟨⟨h1, h2⟩, ?_⟩
      rw [ht]; nlinarith
    · rw [min_eq_right hab] at h1; rw [max_eq_left hab] at h2
      right; refine ⟨⟨h1, h2⟩, ?_⟩
      rw [ht]; nlinarith
  · have key : ∀ (h0 : a.y ≠ b.y), (lineAt a b ((q.y - a.y) / (b.y - a.y))).y = q.y ∧
        (lineAt a b ((q.y - a.y) / (b.y - a.y))).x =
          a.x + (q.y - a.y) / (b.y - a.y) * (b.x - a.x) := by
      intro h0
      have : b.y - a.y ≠ 0 := fun h => h0 (by linarith)
      simp only [lineAt]
      constructor
      · field_simp; ring
      · ring
    rintro (⟨⟨h1, h2⟩, h3⟩ | ⟨⟨h1, h2⟩, h3⟩)
    · simp only at h1 h2
      have hlt : a.y < b.y := by linarith
      rw [min_eq_left hlt.le, max_eq_right hlt.le]
      refine ⟨h1, h2, (q.y - a.y) / (b.y - a.y), ?_, ?_, (key hlt.ne).1, ?_⟩
      · exact div_nonneg (by linarith) (by linarith)
      · rw [div_le_one (by linarith)]; linarith
      · rw [(key hlt.ne).2, xat_lt_up hlt]; exact h3
    · simp only at h1 h2
      have hlt : b.y < a.y := by linarith
      rw [min_eq_right hlt.le, max_eq_left hlt.le]
      refine ⟨h1, h2, (q.y - a.y) / (b.y - a.y), ?_, ?_, (key hlt.ne').1, ?_⟩
      · exact div_nonneg_of_nonpos (by linarith) (by linarith)
      · rw [div_le_one_of_neg (by linarith)]; linarith
      · rw [(key hlt.ne').2, xat_lt_down hlt]; exact h3

/-- The code's toggle condition is the specification's crossing. -/
theorem crosses_iff (pI pJ q : Pt K) : crosses pI pJ q = true ↔ CrossesLeft pJ pI q := by
  rw [crossesLeft_iff]
  unfold crosses UpE DownE
  simp only [Bool.and_eq_true, Bool.or_eq_true, decide_eq_true_eq]
  have ht : turn pI pJ q = -turn pJ pI q := by unfold turn; ring
  constructor
  · rintro ⟨h | h, h'⟩
    · have : pI.y < pJ.y := by linarith [h.1, h.2]
      rw [xat_lt_up this, ht] at h'
      exact Or.inr ⟨h, by linarith⟩
    · have : pJ.y < pI.y := by linarith [h.1, h.2]
      rw [xat_lt_down this, ht] at h'
      exact Or.inl ⟨h, by linarith⟩
  · rintro (⟨h, h'⟩ | ⟨h, h'⟩)
    · have : pJ.y < pI.y := by linarith [h.1, h.2]
      refine ⟨Or.inr h, ?_⟩
      rw [xat_lt_down this, ht]; linarith
    · have : pI.y < pJ.y := by linarith [h.1, h.2]
      refine ⟨Or.inl h, ?_⟩
      rw [xat_lt_up this, ht]; linarith

open Classical in
theorem oddLoop_eq (tol : K) (q : Pt K) : ∀ (l : List (Pt K)) (z : Pt K) (odd : Bool),
    (∀ e ∈ (z :: l).zip l, Close tol e.1 e.2 → e.1 = e.2) →
    oddLoop tol q z odd l = (odd ^^ decide (Odd (((z :: l).zip l).countP
      (fun e => decide (CrossesLeft e.1 e.2 q))))) := by
  intro l
  induction l with
  | nil => intro z odd _; simp [oddLoop]
  | cons a l ih =>
    intro z odd h
    by_cases h0 : a.eqTol tol z = true
    · -- a repeated vertex
      have hza : z = a := by
        apply h (z, a) (by simp)
        simp only [Pt.eqTol, Bool.and_eq_true, decide_eq_true_eq] at h0
        exact ⟨by rw [abs_sub_comm]; exact h0.1, by rw [abs_sub_comm]; exact h0.2⟩
      subst hza
      simp only [oddLoop, h0, if_true]
      rw [ih _ _ (fun e he => h e (by
        simp only [List.zip_cons_cons, List.mem_cons]; exact Or.inr he))]
      rw [show (z :: z :: l).zip (z :: l) = (z, z) :: (z :: l).zip l from rfl, List.countP_cons]
      have hx : ¬ CrossesLeft z z q := by
        rintro ⟨h1, h2, _⟩
        rw [min_self] at h1
        rw [max_self] at h2
        linarith
      simp [hx]
    rw [Bool.not_eq_true] at h0
    have hc : crosses a z q = decide (CrossesLeft z a q) := by
      rw [Bool.eq_iff_iff, crosses_iff, decide_eq_true_eq]
    simp only [oddLoop, h0, Bool.false_eq_true, if_false]
    rw [ih _ _ (fun e he => h e (by
      simp only [List.zip_cons_cons, List.mem_cons]; exact Or.inr he))]
    rw [show (z :: a :: l).zip (a :: l) = (z, a) :: (a :: l).zip l from rfl, List.countP_cons]
    rw [hc]
    by_cases hx : CrossesLeft z a q
    · simp only [hx, decide_true, if_true]
      generalize ((a :: l).zip l).countP (fun e => decide (CrossesLeft e.1 e.2 q)) = n
      rcases Nat.even_or_odd n with he | he
      · have h1 := Nat.not_odd_iff_even.2 he
        have h2 : Odd (n + 1) := he.add_one
        simp only [h1, h2, decide_true, decide_false]
        cases odd <;> rfl
      · have h2 : ¬ Odd (n + 1) := Nat.not_odd_iff_even.2 he.add_one
        simp only [he, h2, decide_true, decide_false]
        cases odd <;> rfl
    · simp [hx]

theorem crossings_eq (l : List (Pt K)) (q : Pt K) : crossings l q =
    @List.countP _ (fun e => @decide (CrossesLeft e.1 e.2 q) (Classical.propDecidable _)) (cycPairs l) := by
  unfold crossings
  rw [cycPairs_eq_finRange, List.countP_map]
  rfl

theorem noClose_iff (tol : K) (l : List (Pt K)) :
    NeighboursApart tol l ↔ ∀ e ∈ cycPairs l, Close tol e.1 e.2 → e.1 = e.2 := by
  unfold NeighboursApart
  rw [cycPairs_eq_finRange]
  simp

theorem oddLoop_cyc (tol : K) (q : Pt K) (a : Pt K) (l : List (Pt K))
    (h : NeighboursApart tol (a :: l)) :
    oddLoop tol q ((a :: l).getLast (by simp)) false (a :: l) = true ↔
      Odd (crossings (a :: l) q) := by
  classical
  rw [noClose_iff] at h
  have hp : (((a :: l).getLast (by simp) :: a :: l).zip (a :: l)).Perm (cycPairs (a :: l)) := by
    rw [zip_closing, List.zip_cons_cons]
    exact (List.perm_append_singleton _ _).symm
  rw [oddLoop_eq tol q (a :: l) _ false (fun e he => h e (hp.mem_iff.1 he)), hp.countP_eq,
    crossings_eq]
  simp only [Bool.false_xor, decide_eq_true_eq]

/-! ### Convex polygons -/

theorem countP_eq_one_split {α : Type} (p : α → Bool) : ∀ (l : List α), l.countP p = 1 →
    ∃ l1 e l2, l = l1 ++ e :: l2 ∧ p e = true ∧ (∀ x ∈ l1, p x = false) ∧ (∀ x ∈ l2, p x = false) := by
  intro l
  induction l with
  | nil => simp
  | cons a l ih =>
    intro h
    rw [List.countP_cons] at h
    by_cases hp : p a = true
    · rw [if_pos hp] at h
      have h0 : l.countP p = 0 := by omega
      refine ⟨[], a, l, rfl, hp, by simp, ?_⟩
      intro x hx
      have := List.countP_eq_zero.1 h0 x hx
      simpa using this
    · rw [if_neg hp] at h
      obtain ⟨l1, e, l2, h1, h2, h3, h4⟩ := ih (by omega)
      refine ⟨a :: l1, e, l2, by rw [h1]; rfl, h2, ?_, h4⟩
      intro x hx
      rcases List.mem_cons.1 hx with rfl | hx
      · simpa using hp
      · exact h3 x hx

theorem countP_le_one {α : Type} (p : α → Bool) : ∀ (l : List α),
    (∀ (i j : Nat) (x y : α), l[i]? = some x → l[j]? = some y → p x = true → p y = true → i = j) →
    l.countP p ≤ 1 := by
  intro l
  induction l with
  | nil => simp
  | cons a l ih =>
    intro h
    rw [List.countP_cons]
    have ih' := ih (fun i j x y hx hy px py => by
      have := h (i + 1) (j + 1) x y (by simpa using hx) (by simpa using hy) px py
      omega)
    by_cases hp : p a = true
    · rw [if_pos hp]
      have : l.countP p = 0 := by
        rw [List.countP_eq_zero]
        intro x hx hpx
        obtain ⟨j, hj, rfl⟩ := List.getElem_of_mem hx
        have := h 0 (j + 1) a l[j] (by simp) (by simp) hp hpx
        omega
      omega
    · rw [if_neg hp]; omega

theorem countP_of_unique {α : Type} (p r : α → Bool) (l : List α) (h1 : l.countP p = 1)
    (hrp : ∀ x, r x = true → p x = true) :
    ∃ e ∈ l, p e = true ∧ l.countP r = if r e = true then 1 else 0 := by
  obtain ⟨l1, e, l2, hl, he, ha, hb⟩ := countP_eq_one_split p l h1
  refine ⟨e, by rw [hl]; simp, he, ?_⟩
  have z1 : l1.countP r = 0 := by
    rw [List.countP_eq_zero]; intro x hx hr
    have := ha x hx; rw [hrp x hr] at this; simp at this
  have z2 : l2.countP r = 0 := by
    rw [List.countP_eq_zero]; intro x hx hr
    have := hb x hx; rw [hrp x hr] at this; simp at this
  rw [hl, List.countP_append, List.countP_cons, z1, z2]; omega

open Classical in
theorem up_eq_down (h : K) (l : List (Pt K)) :
    (cycPairs l).countP (fun e => decide (UpE h e)) = (cycPairs l).countP (fun e => decide (DownE h e)) := by
  have ht := cyc_telescope (fun p : Pt K => if h < p.y then (1 : ℚ) else 0) l
  have key : ∀ m : List (Pt K × Pt K), (m.map (fun e => (fun p : Pt K => if h < p.y then (1 : ℚ) else 0) e.2 -
      (fun p : Pt K => if h < p.y then (1 : ℚ) else 0) e.1)).sum =
      (m.countP (fun e => decide (UpE h e)) : ℚ) - (m.countP (fun e => decide (DownE h e)) : ℚ) := by
    intro m
    induction m with
    | nil => simp
    | cons e m ih =>
      rw [List.map_cons, List.sum_cons, ih, List.countP_cons, List.countP_cons]
      unfold UpE DownE
      by_cases h1 : h < e.1.y <;> by_cases h2 : h < e.2.y
      · simp [h1, h2, not_le.2 h1, not_le.2 h2]
      · have := not_lt.1 h2; simp [h1, h2, this, not_le.2 h1]; ring
      · have := not_lt.1 h1; simp [h1, h2, this, not_le.2 h2]; ring
      · have := not_lt.1 h1; simp [h1, h2]
  rw [key] at ht
  have : ((cycPairs l).countP (fun e => decide (UpE h e)) : ℚ) =
      ((cycPairs l).countP (fun e => decide (DownE h e)) : ℚ) := by linarith
  exact_mod_cast this

theorem turn_affine (a b c d : Pt K) (t : K) :
    turn a b (lineAt c d t) = (1 - t) * turn a b c + t * turn a b d := by
  unfold turn lineAt; ring

theorem exists_at_height {c d : Pt K} {h : K} (hs : UpE h (c, d) ∨ DownE h (c, d)) :
    ∃ t, 0 ≤ t ∧ t ≤ 1 ∧ (lineAt c d t).y = h := by
  unfold UpE DownE at hs
  have h0 : d.y - c.y ≠ 0 := by rcases hs with h | h <;> simp only at h <;> intro h' <;> linarith [h.1, h.2]
  refine ⟨(h - c.y) / (d.y - c.y), ?_, ?_, by simp only [lineAt]; field_simp; ring⟩
  · rcases hs with hs | hs
    · exact div_nonneg (by linarith [hs.1]) (by linarith [hs.1, hs.2])
    · exact div_nonneg_of_nonpos (by linarith [hs.2]) (by linarith [hs.1, hs.2])
  · rcases hs with hs | hs
    · rw [div_le_one (by linarith [hs.1, hs.2])]; linarith [hs.2]
    · rw [div_le_one_of_neg (by linarith [hs.1, hs.2])]; linarith [hs.1]

/-- Weak convexity extracted from the strict one. -/
theorem convex_weak {l : List (Pt K)} (h : StrictlyConvexCCW l) (i k : Fin l.length) :
    0 ≤ turn l[i] (nextV l i) l[k] := by
  by_cases h1 : k = i
  · subst h1; simp [turn]
  by_cases h2 : k.val = (i.val + 1) % l.length
  · have : l[k] = nextV l i := by unfold nextV; simp [← h2]
    rw [this]; unfold turn
    apply le_of_eq; ring
  · exact (h.2 i k h1 h2).le

theorem convex_weak_mem {l : List (Pt K)} (h : StrictlyConvexCCW l) {e : Pt K × Pt K}
    (he : e ∈ cycPairs l) {c : Pt K} (hc : c ∈ l) : 0 ≤ turn e.1 e.2 c := by
  rw [cycPairs_eq_finRange] at he
  obtain ⟨i, _, rfl⟩ := List.mem_map.1 he
  obtain ⟨k, hk, rfl⟩ := List.getElem_of_mem hc
  exact convex_weak h i ⟨k, hk⟩

/-- Two upward (or two downward) straddling edges of a strictly convex polygon coincide. -/
theorem straddle_unique {l : List (Pt K)} (h : StrictlyConvexCCW l) (y : K)
    (i j : Fin l.length)
    (hu : (UpE y (l[i], nextV l i) ∧ UpE y (l[j], nextV l j)) ∨
      (DownE y (l[i], nextV l i) ∧ DownE y (l[j], nextV l j))) : i = j := by
  by_contra hne
  have key : ∀ i j : Fin l.length, i ≠ j →
      ((UpE y (l[i], nextV l i) ∧ UpE y (l[j], nextV l j)) ∨
      (DownE y (l[i], nextV l i) ∧ DownE y (l[j], nextV l j))) →
      0 < turn l[i] (nextV l i) l[j] ∧ 0 < turn l[i] (nextV l i) (nextV l j) := by
    intro i j hij hu
    have n1 : j.val ≠ (i.val + 1) % l.length := by
      intro he
      have : l[j] = nextV l i := by unfold nextV; simp [← he]
      unfold UpE DownE at hu
      rw [this] at hu
      rcases hu with hu | hu <;> simp only at hu <;> linarith [hu.1.1, hu.1.2, hu.2.1, hu.2.2]
    have n2 : (j.val + 1) % l.length ≠ i.val := by
      intro he
      have : l[i] = nextV l j := by unfold nextV; simp [he]
      unfold UpE DownE at hu
      rw [this] at hu
      rcases hu with hu | hu <;> simp only at hu <;> linarith [hu.1.1, hu.1.2, hu.2.1, hu.2.2]
    have n3 : (j.val + 1) % l.length ≠ (i.val + 1) % l.length := by
      intro he
      apply hij
      have hi := i.isLt; have hj := j.isLt
      ext
      by_cases c1 : i.val + 1 = l.length
      · by_cases c2 : j.val + 1 = l.length
        · omega
        · rw [c1, Nat.mod_self, Nat.mod_eq_of_lt (by omega)] at he; omega
      · by_cases c2 : j.val + 1 = l.length
        · rw [c2, Nat.mod_self, Nat.mod_eq_of_lt (by omega)] at he; omega
        · rw [Nat.mod_eq_of_lt (by omega), Nat.mod_eq_of_lt (by omega)] at he; omega
    refine ⟨h.2 i j (Ne.symm hij) n1, ?_⟩
    exact h.2 i ⟨(j.val + 1) % l.length, Nat.mod_lt _ (by have := i.isLt; omega)⟩
      (fun hc => n2 (by rw [← hc])) n3
  obtain ⟨a1, a2⟩ := key i j hne hu
  obtain ⟨b1, b2⟩ := key j i (Ne.symm hne)
    (hu.elim (fun h => Or.inl ⟨h.2, h.1⟩) (fun h => Or.inr ⟨h.2, h.1⟩))
  obtain ⟨s, s0, s1, sy⟩ := exists_at_height (c := l[j]) (d := nextV l j) (h := y)
    (hu.elim (fun h => Or.inl h.2) (fun h => Or.inr h.2))
  obtain ⟨t, t0, t1, ty⟩ := exists_at_height (c := l[i]) (d := nextV l i) (h := y)
    (hu.elim (fun h => Or.inl h.1) (fun h => Or.inr h.1))
  have c1 : 0 < turn l[i] (nextV l i) (lineAt l[j] (nextV l j) s) := by
    rw [turn_affine]; rcases eq_or_lt_of_le s0 with rfl | hs
    · linarith
    · nlinarith [mul_pos hs a2, mul_nonneg (sub_nonneg.2 s1) a1.le]
  have c2 : 0 < turn l[j] (nextV l j) (lineAt l[i] (nextV l i) t) := by
    rw [turn_affine]; rcases eq_or_lt_of_le t0 with rfl | hs
    · linarith
    · nlinarith [mul_pos hs b2, mul_nonneg (sub_nonneg.2 t1) b1.le]
  -- both points at the same height
  have d1 : turn l[i] (nextV l i) (lineAt l[j] (nextV l j) s) = -((nextV l i).y - l[i].y) *
      ((lineAt l[j] (nextV l j) s).x - (lineAt l[i] (nextV l i) t).x) := by
    have e0 : turn l[i] (nextV l i) (lineAt l[i] (nextV l i) t) = 0 := by
      unfold turn lineAt; ring
    have : turn l[i] (nextV l i) (lineAt l[j] (nextV l j) s) =
      turn l[i] (nextV l i) (lineAt l[i] (nextV l i) t) +
      -((nextV l i).y - l[i].y) *
      ((lineAt l[j] (nextV l j) s).x - (lineAt l[i] (nextV l i) t).x) := by
      unfold turn; rw [sy, ty]; ring
    rw [this, e0, zero_add]
  have d2 : turn l[j] (nextV l j) (lineAt l[i] (nextV l i) t) = -((nextV l j).y - l[j].y) *
      ((lineAt l[i] (nextV l i) t).x - (lineAt l[j] (nextV l j) s).x) := by
    have e0 : turn l[j] (nextV l j) (lineAt l[j] (nextV l j) s) = 0 := by
      unfold turn lineAt; ring
    have : turn l[j] (nextV l j) (lineAt l[i] (nextV l i) t) =
      turn l[j] (nextV l j) (lineAt l[j] (nextV l j) s) +
      -((nextV l j).y - l[j].y) *
      ((lineAt l[i] (nextV l i) t).x - (lineAt l[j] (nextV l j) s).x) := by
      unfold turn; rw [sy, ty]; ring
    rw [this, e0, zero_add]
  rw [d1] at c1; rw [d2] at c2
  unfold UpE DownE at hu
  rcases hu with ⟨⟨u1, u2⟩, ⟨u3, u4⟩⟩ | ⟨⟨u1, u2⟩, ⟨u3, u4⟩⟩ <;> simp only at u1 u2 u3 u4
  · have : 0 < (nextV l i).y - l[i].y := by linarith
    have : 0 < (nextV l j).y - l[j].y := by linarith
    nlinarith
  · have : 0 < l[i].y - (nextV l i).y := by linarith
    have : 0 < l[j].y - (nextV l j).y := by linarith
    nlinarith

open Classical in
theorem up_le_one {l : List (Pt K)} (h : StrictlyConvexCCW l) (y : K) :
    (cycPairs l).countP (fun e => decide (UpE y e)) ≤ 1 := by
  apply countP_le_one
  intro i j x z hx hz px pz
  have hi : i < l.length := by
    have := (List.getElem?_eq_some_iff.1 hx).1; rwa [cycPairs_length] at this
  have hj : j < l.length := by
    have := (List.getElem?_eq_some_iff.1 hz).1; rwa [cycPairs_length] at this
  rw [cycPairs_getElem? l i hi] at hx
  rw [cycPairs_getElem? l j hj] at hz
  have ex := Option.some.inj hx
  have ez := Option.some.inj hz
  have := straddle_unique h y ⟨i, hi⟩ ⟨j, hj⟩ (Or.inl ⟨by
    simp only [decide_eq_true_eq, ← ex] at px; exact px, by
    simp only [decide_eq_true_eq, ← ez] at pz; exact pz⟩)
  exact Fin.mk.inj_iff.1 this

/-- A strictly interior point is straddled. -/
theorem inside_straddled {l : List (Pt K)} (h : StrictlyConvexCCW l) {q : Pt K} (hq : Inside l q) :
    ∃ e ∈ cycPairs l, UpE q.y e := by
  have hn : 0 < l.length := by have := h.1; omega
  have n3 := h.1
  -- neighbours of a vertex
  have nb : ∀ k : Fin l.length, ∃ u w : Pt K, u ∈ l ∧ w ∈ l ∧ 0 < turn u l[k] q ∧
      0 < turn l[k] w q ∧ 0 < turn u l[k] w := by
    intro k
    have hk := k.isLt
    let i : Fin l.length := ⟨(k.val + (l.length - 1)) % l.length, Nat.mod_lt _ hn⟩
    have hik : (i.val + 1) % l.length = k.val := by
      show ((k.val + (l.length - 1)) % l.length + 1) % l.length = k.val
      rw [Nat.mod_add_mod, show k.val + (l.length - 1) + 1 = k.val + l.length by omega,
        Nat.add_mod_right, Nat.mod_eq_of_lt hk]
    have hnk : nextV l i = l[k] := by unfold nextV; simp [hik]
    let w : Fin l.length := ⟨(k.val + 1) % l.length, Nat.mod_lt _ hn⟩
    refine ⟨l[i], nextV l k, List.getElem_mem _, List.getElem_mem _, ?_, hq k, ?_⟩
    · have := hq i; rwa [hnk] at this
    · have := h.2 i w ?_ ?_
      · rw [hnk] at this; exact this
      · intro he
        have he' : (k.val + 1) % l.length = (k.val + (l.length - 1)) % l.length := by
          have := congrArg Fin.val he; exact this
        by_cases c0 : k.val = 0
        · rw [c0, Nat.mod_eq_of_lt (by omega), Nat.mod_eq_of_lt (by omega)] at he'; omega
        · rw [show k.val + (l.length - 1) = (k.val - 1) + l.length by omega, Nat.add_mod_right,
            Nat.mod_eq_of_lt (show k.val - 1 < l.length by omega)] at he'
          by_cases c1 : k.val + 1 = l.length
          · rw [c1, Nat.mod_self] at he'; omega
          · rw [Nat.mod_eq_of_lt (by omega)] at he'; omega
      · rw [hik]
        show (k.val + 1) % l.length ≠ k.val
        by_cases c1 : k.val + 1 = l.length
        · rw [c1, Nat.mod_self]; omega
        · rw [Nat.mod_eq_of_lt (by omega)]; omega
  have : Nonempty (Fin l.length) := ⟨⟨0, hn⟩⟩
  obtain ⟨kmax, _, hmax⟩ := Finset.exists_max_image (Finset.univ : Finset (Fin l.length))
    (fun k => l[k].y) Finset.univ_nonempty
  obtain ⟨kmin, _, hmin⟩ := Finset.exists_min_image (Finset.univ : Finset (Fin l.length))
    (fun k => l[k].y) Finset.univ_nonempty
  have memy : ∀ u ∈ l, u.y ≤ l[kmax].y ∧ l[kmin].y ≤ u.y := by
    intro u hu
    obtain ⟨k, hk, rfl⟩ := List.getElem_of_mem hu
    exact ⟨hmax ⟨k, hk⟩ (Finset.mem_univ _), hmin ⟨k, hk⟩ (Finset.mem_univ _)⟩
  have above : q.y < l[kmax].y := by
    by_contra hc
    obtain ⟨u, w, hu, hw, t1, t2, t3⟩ := nb kmax
    have uy := (memy u hu).1
    have wy := (memy w hw).1
    generalize l[kmax] = v at *
    have e1 : turn u v q = (v.x - u.x) * (q.y - v.y) - (v.y - u.y) * (q.x - v.x) := by
      unfold turn; ring
    have e2 : turn v w q = (w.x - v.x) * (q.y - v.y) - (w.y - v.y) * (q.x - v.x) := by
      unfold turn; ring
    have e3 : turn u v w = (v.x - u.x) * (w.y - v.y) - (v.y - u.y) * (w.x - v.x) := by
      unfold turn; ring
    rw [e1] at t1; rw [e2] at t2; rw [e3] at t3
    have D : 0 ≤ q.y - v.y := by linarith
    have U : 0 ≤ v.y - u.y := by linarith
    have W : 0 ≤ v.y - w.y := by linarith
    have m1 := mul_nonneg W t1.le
    have m2 := mul_nonneg U t2.le
    have m3 := mul_nonneg D t3.le
    have hD : q.y - v.y = 0 := by
      by_contra hD
      have hD' := lt_of_le_of_ne D (Ne.symm hD)
      have := mul_pos hD' t3
      nlinarith
    rw [hD] at t1 t2
    rcases le_total 0 (q.x - v.x) with he | he
    · have := mul_nonneg U he; linarith
    · have := mul_nonneg W (neg_nonneg.2 he); linarith
  have below : l[kmin].y ≤ q.y := by
    by_contra hc
    obtain ⟨u, w, hu, hw, t1, t2, t3⟩ := nb kmin
    have uy := (memy u hu).2
    have wy := (memy w hw).2
    generalize l[kmin] = v at *
    have e1 : turn u v q = (v.x - u.x) * (q.y - v.y) - (v.y - u.y) * (q.x - v.x) := by
      unfold turn; ring
    have e2 : turn v w q = (w.x - v.x) * (q.y - v.y) - (w.y - v.y) * (q.x - v.x) := by
      unfold turn; ring
    have e3 : turn u v w = (v.x - u.x) * (w.y - v.y) - (v.y - u.y) * (w.x - v.x) := by
      unfold turn; ring
    rw [e1] at t1; rw [e2] at t2; rw [e3] at t3
    have D : 0 < v.y - q.y := by linarith
    have U : 0 ≤ u.y - v.y := by linarith
    have W : 0 ≤ w.y - v.y := by linarith
    have m1 := mul_nonneg W t1.le
    have m2 := mul_nonneg U t2.le
    have m3 := mul_pos D t3
    nlinarith
  by_contra hno
  have step : ∀ m : Nat, (l[(kmin.val + m) % l.length]'(Nat.mod_lt _ hn)).y ≤ q.y := by
    intro m
    induction m with
    | zero =>
      have : (kmin.val + 0) % l.length = kmin.val := by
        rw [Nat.add_zero, Nat.mod_eq_of_lt kmin.isLt]
      simp only [this]; exact below
    | succ m ih =>
      by_contra hc
      apply hno
      refine ⟨_, List.getElem_mem (l := cycPairs l) (n := (kmin.val + m) % l.length)
        (by rw [cycPairs_length]; exact Nat.mod_lt _ hn), ?_⟩
      rw [cycPairs_getElem]
      refine ⟨ih, ?_⟩
      have : ((kmin.val + m) % l.length + 1) % l.length = (kmin.val + (m + 1)) % l.length := by
        rw [Nat.mod_add_mod]; rfl
      simp only [this]
      exact not_le.1 hc
  have := step (kmax.val + (l.length - kmin.val))
  have hk := kmin.isLt
  have e : (kmin.val + (kmax.val + (l.length - kmin.val))) % l.length = kmax.val := by
    rw [show kmin.val + (kmax.val + (l.length - kmin.val)) = kmax.val + l.length by omega,
      Nat.add_mod_right, Nat.mod_eq_of_lt kmax.isLt]
  simp only [e] at this
  exact absurd above (not_lt.2 this)

/-- Summary: either no edge straddles the height of `q` and there is no crossing, or exactly one
goes up and one down and they decide. -/
theorem convex_crossings {l : List (Pt K)} (h : StrictlyConvexCCW l) (q : Pt K) :
    ((∀ e ∈ cycPairs l, ¬ UpE q.y e) ∧ crossings l q = 0) ∨
    (∃ u ∈ cycPairs l, ∃ d ∈ cycPairs l, UpE q.y u ∧ DownE q.y d ∧
      (Odd (crossings l q) ↔ ¬ (turn u.1 u.2 q < 0 ↔ 0 < turn d.1 d.2 q))) := by
  classical
  have hud := up_eq_down q.y l
  have hle := up_le_one h q.y
  have hsplit : ∀ m : List (Pt K × Pt K), m.countP (fun e => decide (CrossesLeft e.1 e.2 q)) =
      m.countP (fun e => decide (UpE q.y e ∧ turn e.1 e.2 q < 0)) +
      m.countP (fun e => decide (DownE q.y e ∧ 0 < turn e.1 e.2 q)) := by
    intro m
    induction m with
    | nil => simp
    | cons e m ih =>
      rw [List.countP_cons, List.countP_cons, List.countP_cons, ih]
      have hc := crossesLeft_iff (a := e.1) (b := e.2) (q := q)
      have hex : ¬ (UpE q.y e ∧ DownE q.y e) := by
        rintro ⟨⟨_, h2⟩, ⟨h3, _⟩⟩; linarith
      by_cases h1 : UpE q.y e ∧ turn e.1 e.2 q < 0
      · have h2 : ¬ (DownE q.y e ∧ 0 < turn e.1 e.2 q) := fun h' => hex ⟨h1.1, h'.1⟩
        have h3 : CrossesLeft e.1 e.2 q := hc.2 (Or.inl h1)
        simp only [h1, h2, h3, decide_true, decide_false, if_true, and_self, Bool.false_eq_true, if_false]; omega
      · by_cases h2 : DownE q.y e ∧ 0 < turn e.1 e.2 q
        · have h3 : CrossesLeft e.1 e.2 q := hc.2 (Or.inr h2)
          simp only [h1, h2, h3, decide_true, decide_false, if_true, and_self, Bool.false_eq_true, if_false]; omega
        · have h3 : ¬ CrossesLeft e.1 e.2 q := fun h' => (hc.1 h').elim h1 h2
          simp only [h1, h2, h3, decide_false, Bool.false_eq_true, if_false]; omega
  have hcr : crossings l q = (cycPairs l).countP (fun e => decide (CrossesLeft e.1 e.2 q)) := by
    rw [crossings_eq]
  rw [hcr, hsplit]
  rcases Nat.le_one_iff_eq_zero_or_eq_one.1 hle with h0 | h1
  · left
    have hd0 := hud ▸ h0
    have hu : ∀ e ∈ cycPairs l, ¬ UpE q.y e := by
      intro e he hc
      exact List.countP_eq_zero.1 h0 e he (by simpa using hc)
    have hd : ∀ e ∈ cycPairs l, ¬ DownE q.y e := by
      intro e he hc
      exact List.countP_eq_zero.1 hd0 e he (by simpa using hc)
    refine ⟨hu, ?_⟩
    have e1 : (cycPairs l).countP (fun e => decide (UpE q.y e ∧ turn e.1 e.2 q < 0)) = 0 := by
      rw [List.countP_eq_zero]; intro e he hc; exact hu e he (by simpa using (of_decide_eq_true hc).1)
    have e2 : (cycPairs l).countP (fun e => decide (DownE q.y e ∧ 0 < turn e.1 e.2 q)) = 0 := by
      rw [List.countP_eq_zero]; intro e he hc; exact hd e he (by simpa using (of_decide_eq_true hc).1)
    rw [e1, e2]
  · right
    have hd1 := hud ▸ h1
    obtain ⟨u, hu, hu1, hu2⟩ := countP_of_unique _ (fun e => decide (UpE q.y e ∧ turn e.1 e.2 q < 0))
      (cycPairs l) h1 (fun x hx => by simpa using (of_decide_eq_true hx).1)
    obtain ⟨d, hd, hd1', hd2⟩ := countP_of_unique _ (fun e => decide (DownE q.y e ∧ 0 < turn e.1 e.2 q))
      (cycPairs l) hd1 (fun x hx => by simpa using (of_decide_eq_true hx).1)
    have hu1 : UpE q.y u := by simpa using hu1
    have hd1' : DownE q.y d := by simpa using hd1'
    refine ⟨u, hu, d, hd, hu1, hd1', ?_⟩
    rw [hu2, hd2]
    by_cases c1 : turn u.1 u.2 q < 0 <;> by_cases c2 : 0 < turn d.1 d.2 q <;>
      simp [hu1, hd1', c1, c2]

theorem convex_inside_odd {l : List (Pt K)} (h : StrictlyConvexCCW l) {q : Pt K} (hq : Inside l q) :
    Odd (crossings l q) := by
  obtain ⟨e, he, heu⟩ := inside_straddled h hq
  have hin : ∀ e ∈ cycPairs l, 0 < turn e.1 e.2 q := by
    intro e he
    rw [cycPairs_eq_finRange] at he
    obtain ⟨i, _, rfl⟩ := List.mem_map.1 he
    exact hq i
  rcases convex_crossings h q with ⟨h1, _⟩ | ⟨u, hu, d, hd, _, _, hodd⟩
  · exact absurd heu (h1 e he)
  · rw [hodd]
    intro hc
    have := hc.2 (hin d hd)
    linarith [hin u hu]

theorem convex_outside_even {l : List (Pt K)} (h : StrictlyConvexCCW l) {q : Pt K}
    (hq : Outside l q) : ¬ Odd (crossings l q) := by
  obtain ⟨i, hi⟩ := hq
  have he : (l[i], nextV l i) ∈ cycPairs l := by
    rw [cycPairs_eq_finRange]; exact List.mem_map_of_mem (List.mem_finRange i)
  generalize hoe : (l[i], nextV l i) = o at he
  have hi' : turn o.1 o.2 q < 0 := by rw [← hoe]; exact hi
  rcases convex_crossings h q with ⟨_, h0⟩ | ⟨u, hu, d, hd, hu1, hd1, hodd⟩
  · rw [h0]; simp
  rw [hodd, not_not]
  obtain ⟨s, s0, s1, sy⟩ := exists_at_height (c := d.1) (d := d.2) (Or.inr hd1)
  obtain ⟨t, t0, t1, ty⟩ := exists_at_height (c := u.1) (d := u.2) (Or.inl hu1)
  have wk : ∀ e ∈ cycPairs l, 0 ≤ turn e.1 e.2 (lineAt d.1 d.2 s) ∧
      0 ≤ turn e.1 e.2 (lineAt u.1 u.2 t) := by
    intro e he
    rw [turn_affine, turn_affine]
    have a1 := convex_weak_mem h he (cycPairs_mem hd).1
    have a2 := convex_weak_mem h he (cycPairs_mem hd).2
    have a3 := convex_weak_mem h he (cycPairs_mem hu).1
    have a4 := convex_weak_mem h he (cycPairs_mem hu).2
    constructor
    · exact add_nonneg (mul_nonneg (by linarith) a1) (mul_nonneg s0 a2)
    · exact add_nonneg (mul_nonneg (by linarith) a3) (mul_nonneg t0 a4)
  have du : 0 < u.2.y - u.1.y := by have := hu1.1; have := hu1.2; linarith
  have dd : 0 < d.1.y - d.2.y := by have := hd1.1; have := hd1.2; linarith
  have hor : ∀ (e : Pt K × Pt K) (p : Pt K), p.y = q.y →
      turn e.1 e.2 q = turn e.1 e.2 p - (e.2.y - e.1.y) * (q.x - p.x) := by
    intro e p hp; unfold turn; rw [hp]; ring
  have zd : turn d.1 d.2 (lineAt d.1 d.2 s) = 0 := by unfold turn lineAt; ring
  have zu : turn u.1 u.2 (lineAt u.1 u.2 t) = 0 := by unfold turn lineAt; ring
  have q1 := hor u _ ty
  have q2 := hor d _ sy
  have q3 := hor u _ sy
  rw [zu] at q1; rw [zd] at q2
  constructor
  · intro hneg
    have w := (wk u hu).1
    have : 0 < (u.2.y - u.1.y) * (q.x - (lineAt d.1 d.2 s).x) := by linarith
    have hx := pos_of_mul_pos_right this du.le
    rw [q2]
    nlinarith
  · intro hpos
    by_contra hnn
    have hx1 : 0 < q.x - (lineAt d.1 d.2 s).x := by
      rw [q2] at hpos
      have : 0 < (d.1.y - d.2.y) * (q.x - (lineAt d.1 d.2 s).x) := by linarith
      exact pos_of_mul_pos_right this dd.le
    have hx2 : 0 ≤ (lineAt u.1 u.2 t).x - q.x := by
      rw [q1] at hnn
      by_contra hc
      apply hnn
      nlinarith
    obtain ⟨w1, w2⟩ := wk o he
    have r1 := hor o _ sy
    have r2 := hor o _ ty
    -- q is between the two points
    have c := add_nonneg (mul_nonneg hx2 w1) (mul_nonneg hx1.le w2)
    have e : ((lineAt u.1 u.2 t).x - q.x) * turn o.1 o.2 (lineAt d.1 d.2 s) +
        (q.x - (lineAt d.1 d.2 s).x) * turn o.1 o.2 (lineAt u.1 u.2 t) =
        (((lineAt u.1 u.2 t).x - q.x) + (q.x - (lineAt d.1 d.2 s).x)) * turn o.1 o.2 q := by
      have f1 : turn o.1 o.2 (lineAt d.1 d.2 s) =
        turn o.1 o.2 q + (o.2.y - o.1.y) * (q.x - (lineAt d.1 d.2 s).x) := by linarith
      have f2 : turn o.1 o.2 (lineAt u.1 u.2 t) =
        turn o.1 o.2 q + (o.2.y - o.1.y) * (q.x - (lineAt u.1 u.2 t).x) := by linarith
      rw [f1, f2]; ring
    rw [e] at c
    have : 0 < ((lineAt u.1 u.2 t).x - q.x) + (q.x - (lineAt d.1 d.2 s).x) := by linarith
    nlinarith

end Delynoi
