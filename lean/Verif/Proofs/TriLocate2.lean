import Verif.Proofs.TriLocate
import Mathlib.Data.Finset.Card
import Mathlib.Data.Finset.Basic
import Mathlib.Data.Finset.Prod
import Mathlib.Data.Fintype.Basic
/-! # The walk ends

The distance between the point and the edge through which a triangle is entered never grows; it can
stay the same only while the walk turns about the endpoint of the edge that is closest to the point.
-/
set_option linter.unusedSectionVars false
namespace Delynoi.Tri
variable {K : Type} [Field K] [LinearOrder K] [IsStrictOrderedRing K]
  {m : Heap} {ts : List Nat} {pos : Nat → Pt K} {p : Pt K}

/-- The point of the segment closest to `p`, and the square of its distance. -/
structure Near (o d p : Pt K) (D t : K) : Prop where
  eq : D = sqDist p (lineAt o d t)
  nonneg : 0 ≤ t
  le : t ≤ 1
  least : ∀ s, 0 ≤ s → s ≤ 1 → D ≤ sqDist p (lineAt o d s)

/-- The square of the distance from a point of the line. -/
theorem sqDist_line (o d p : Pt K) (s t : K) : sqDist p (lineAt o d s) = sqDist p (lineAt o d t) -
    2 * (s - t) * ((p.x - (lineAt o d t).x) * (d.x - o.x) + (p.y - (lineAt o d t).y) * (d.y - o.y)) +
    (s - t) ^ 2 * ((d.x - o.x) ^ 2 + (d.y - o.y) ^ 2) := by
  simp only [sqDist, lineAt]; ring

theorem len_pos {o d : Pt K} (h : o ≠ d) : 0 < (d.x - o.x) ^ 2 + (d.y - o.y) ^ 2 := by
  rcases (sq_nonneg (d.x - o.x)).lt_or_eq with hx | hx
  · exact add_pos_of_pos_of_nonneg hx (sq_nonneg _)
  · rcases (sq_nonneg (d.y - o.y)).lt_or_eq with hy | hy
    · exact add_pos_of_nonneg_of_pos (sq_nonneg _) hy
    · have hx' := pow_eq_zero_iff (two_ne_zero) |>.1 hx.symm
      have hy' := pow_eq_zero_iff (two_ne_zero) |>.1 hy.symm
      exact absurd (ptExt (by linarith) (by linarith)) h

theorem exists_near {o d : Pt K} (h : o ≠ d) (p : Pt K) : ∃ D t, Near o d p D t := by
  have hU := len_pos h
  set U := (d.x - o.x) ^ 2 + (d.y - o.y) ^ 2 with hUd
  set w := (p.x - o.x) * (d.x - o.x) + (p.y - o.y) * (d.y - o.y) with hw
  have at' : ∀ t, (p.x - (lineAt o d t).x) * (d.x - o.x) + (p.y - (lineAt o d t).y) * (d.y - o.y) = w - t * U := by
    intro t; rw [hw, hUd]; simp only [lineAt]; ring
  by_cases h0 : w ≤ 0
  · refine ⟨_, 0, rfl, le_rfl, zero_le_one, fun s hs _ => ?_⟩
    rw [sqDist_line o d p s 0, at', ← hUd]
    have : 0 ≤ s * -w := mul_nonneg hs (by linarith)
    have : 0 ≤ (s - 0) ^ 2 * U := by positivity
    nlinarith
  by_cases h1 : U ≤ w
  · refine ⟨_, 1, rfl, zero_le_one, le_rfl, fun s _ hs => ?_⟩
    rw [sqDist_line o d p s 1, at', ← hUd]
    have : 0 ≤ (1 - s) * (w - U) := mul_nonneg (by linarith) (by linarith)
    have : 0 ≤ (s - 1) ^ 2 * U := by positivity
    nlinarith
  · refine ⟨_, w / U, rfl, (div_pos (not_le.1 h0) hU).le, ((div_lt_one hU).2 (not_le.1 h1)).le, fun s _ _ => ?_⟩
    rw [sqDist_line o d p s (w / U), at', ← hUd, div_mul_cancel₀ _ hU.ne', sub_self, mul_zero, sub_zero]
    have : 0 ≤ (s - w / U) ^ 2 * U := by positivity
    linarith

/-- Away from the first endpoint the segment is not left backwards. -/
theorem Near.ahead {o d p : Pt K} {D t : K} (n : Near o d p D t) (ht : 0 < t) :
    0 ≤ (p.x - (lineAt o d t).x) * (d.x - o.x) + (p.y - (lineAt o d t).y) * (d.y - o.y) := by
  set A := (p.x - (lineAt o d t).x) * (d.x - o.x) + (p.y - (lineAt o d t).y) * (d.y - o.y) with hA
  set U := (d.x - o.x) ^ 2 + (d.y - o.y) ^ 2 with hU
  by_contra hn
  have hn' := not_le.1 hn
  have hUn : 0 ≤ U := by positivity
  -- go back a little
  obtain ⟨e, he0, het, heU⟩ : ∃ e, 0 < e ∧ e ≤ t ∧ e * U ≤ -A := by
    rcases hUn.lt_or_eq with h | h
    · refine ⟨min t (-A / U), lt_min ht (div_pos (by linarith) h), min_le_left _ _, ?_⟩
      calc min t (-A / U) * U ≤ (-A / U) * U := mul_le_mul_of_nonneg_right (min_le_right _ _) hUn
        _ = -A := div_mul_cancel₀ _ h.ne'
    · exact ⟨t, ht, le_rfl, by rw [← h]; linarith⟩
  have h1 := n.least (t - e) (by linarith) (by linarith [n.le])
  rw [sqDist_line o d p (t - e) t, ← hA, ← hU, ← n.eq] at h1
  have h2 : e * (e * U) ≤ e * (-A) := mul_le_mul_of_nonneg_left heU he0.le
  have h3 : e * A < 0 := mul_neg_of_pos_of_neg he0 hn'
  nlinarith

theorem Near.uniq {o d p : Pt K} (h : o ≠ d) {D t t' : K} (n : Near o d p D t) (n' : Near o d p D t') : t = t' := by
  by_contra hne
  have hU := len_pos h
  have hm := n.least ((t + t') / 2) (by linarith [n.nonneg, n'.nonneg]) (by linarith [n.le, n'.le])
  have e : sqDist p (lineAt o d ((t + t') / 2)) = (sqDist p (lineAt o d t) + sqDist p (lineAt o d t')) / 2 -
      (t - t') ^ 2 * ((d.x - o.x) ^ 2 + (d.y - o.y) ^ 2) / 4 := by
    simp only [sqDist, lineAt]; field_simp; ring
  rw [e, ← n.eq, ← n'.eq] at hm
  have : 0 < (t - t') ^ 2 * ((d.x - o.x) ^ 2 + (d.y - o.y) ^ 2) := mul_pos (by
    have := sub_ne_zero.2 hne; positivity) hU
  linarith

/-- Turning left about `o`. -/
theorem near_left {o d a p : Pt K} (hc : 0 < turn a o d) (hp : 0 < turn o d p ∨ ∃ s, (s < 0 ∨ 1 < s) ∧ p = lineAt o d s)
    (hl : 0 < turn o a p)
    (hch : turn a d p ≤ 0 ∨ 0 ≤ (a.x - p.x) * (d.x - o.x) + (a.y - p.y) * (d.y - o.y))
    {D t D' t' : K} (n : Near o d p D t) (n' : Near o a p D' t') : D' < D ∨ (D' = D ∧ t = 0 ∧ t' = 0) := by
  have hoa : o ≠ a := by
    rintro rfl; simp [turn] at hc
  have hod : o ≠ d := by
    rintro rfl
    have : turn a o o = 0 := by simp only [turn]; ring
    linarith
  have hU := len_pos hod
  rcases n.nonneg.lt_or_eq with ht | ht
  · left
    have hah := n.ahead ht
    rcases hch with hch | hch
    · -- the segment from the closest point to `p` crosses `o a`
      have q1 : turn o a (lineAt o d t) = - t * turn a o d := by simp only [turn, lineAt]; ring
      have q2 : turn a d (lineAt o d t) = - (1 - t) * turn a o d := by simp only [turn, lineAt]; ring
      have q1' : turn o a (lineAt o d t) < 0 := by rw [q1]; nlinarith
      have q2' : turn a d (lineAt o d t) ≤ 0 := by
        rw [q2]; have := mul_nonneg (sub_nonneg.2 n.le) hc.le; linarith
      set Q := lineAt o d t with hQ
      have hden : 0 < turn o a p - turn o a Q := by linarith
      set l := - turn o a Q / (turn o a p - turn o a Q) with hldef
      have hl0 : 0 < l := div_pos (by linarith) hden
      have hl1 : l < 1 := (div_lt_one hden).2 (by linarith)
      have hR0 : turn o a (lineAt Q p l) = 0 := by
        have : turn o a (lineAt Q p l) = (1 - l) * turn o a Q + l * turn o a p := by simp only [turn, lineAt]; ring
        rw [this]
        have : l * (turn o a p - turn o a Q) = - turn o a Q := div_mul_cancel₀ _ hden.ne'
        linarith
      obtain ⟨s, hs⟩ := lineAt_of_turn hoa hR0
      have hod0 : 0 ≤ turn o d p := by
        rcases hp with h | ⟨s, -, h⟩
        · exact h.le
        · rw [h]; apply le_of_eq; simp only [turn, lineAt]; ring
      have hs0 : 0 ≤ s := by
        have e1 : turn o d (lineAt Q p l) = s * turn a o d := by rw [hs]; simp only [turn, lineAt]; ring
        have e2 : turn o d (lineAt Q p l) = l * turn o d p := by rw [hQ]; simp only [turn, lineAt]; ring
        by_contra hn
        have : s * turn a o d < 0 := mul_neg_of_neg_of_pos (not_le.1 hn) hc
        have : 0 ≤ l * turn o d p := mul_nonneg hl0.le hod0
        linarith
      have hs1 : s ≤ 1 := by
        have e1 : turn a d (lineAt Q p l) = (s - 1) * turn a o d := by rw [hs]; simp only [turn, lineAt]; ring
        have e2 : turn a d (lineAt Q p l) = (1 - l) * turn a d Q + l * turn a d p := by simp only [turn, lineAt]; ring
        by_contra hn
        have : 0 < (s - 1) * turn a o d := mul_pos (by linarith) hc
        have : (1 - l) * turn a d Q ≤ 0 := mul_nonpos_of_nonneg_of_nonpos (by linarith) q2'
        have : l * turn a d p ≤ 0 := mul_nonpos_of_nonneg_of_nonpos hl0.le hch
        linarith
      have hle := n'.least s hs0 hs1
      rw [← hs] at hle
      have e : sqDist p (lineAt Q p l) = (1 - l) ^ 2 * sqDist p Q := by simp only [sqDist, lineAt]; ring
      have hpQ : 0 < sqDist p Q := by
        have hne : Q ≠ p := by
          intro h; rw [h] at q1'; linarith
        have := len_pos hne
        simpa [sqDist] using this
      have : (1 - l) ^ 2 < 1 := by nlinarith
      rw [e] at hle
      rw [n.eq]
      nlinarith
    · -- the point of `o a` opposite to `p`
      have wt : 0 < (p.x - o.x) * (d.x - o.x) + (p.y - o.y) * (d.y - o.y) := by
        have e : (p.x - o.x) * (d.x - o.x) + (p.y - o.y) * (d.y - o.y) =
          ((p.x - (lineAt o d t).x) * (d.x - o.x) + (p.y - (lineAt o d t).y) * (d.y - o.y)) + t * ((d.x - o.x) ^ 2 + (d.y - o.y) ^ 2) := by
          simp only [lineAt]; ring
        rw [e]
        exact add_pos_of_nonneg_of_pos hah (mul_pos ht hU)
      set P := (p.x - o.x) * (d.x - o.x) + (p.y - o.y) * (d.y - o.y) with hP
      set A := (a.x - o.x) * (d.x - o.x) + (a.y - o.y) * (d.y - o.y) with hA
      set U := (d.x - o.x) ^ 2 + (d.y - o.y) ^ 2 with hUd
      have hPA : P ≤ A := by rw [hP, hA]; linarith
      have hA0 : 0 < A := by linarith
      have hs0 : 0 < P / A := div_pos wt hA0
      have hs1 : P / A ≤ 1 := (div_le_one hA0).2 hPA
      have hle := n'.least (P / A) hs0.le hs1
      set R := lineAt o a (P / A) with hR
      have hsA : P / A * A = P := div_mul_cancel₀ _ hA0.ne'
      have perp : (p.x - R.x) * (d.x - o.x) + (p.y - R.y) * (d.y - o.y) = 0 := by
        have : (p.x - R.x) * (d.x - o.x) + (p.y - R.y) * (d.y - o.y) = P - P / A * A := by
          rw [hR]; simp only [lineAt]; rw [hP, hA]; ring
        rw [this, hsA, sub_self]
      have lag : A * turn o d (⟨o.x + (p.x - R.x), o.y + (p.y - R.y)⟩ : Pt K) = U * turn o a p := by
        have e1 : turn o d (⟨o.x + (p.x - R.x), o.y + (p.y - R.y)⟩ : Pt K) = turn o d p - P / A * turn a o d := by
          rw [hR]; simp only [turn, lineAt]; ring
        rw [e1, mul_sub, ← mul_assoc, mul_comm A (P / A), hsA, hP, hA, hUd]
        simp only [turn]; ring
      set c1 := turn o d (⟨o.x + (p.x - R.x), o.y + (p.y - R.y)⟩ : Pt K) with hc1
      have hc1pos : 0 < c1 := by
        have : 0 < A * c1 := by rw [lag]; exact mul_pos hU hl
        exact (pos_iff_pos_of_mul_pos this).1 hA0
      have hc1lt : c1 < turn o d p := by
        have e1 : c1 = turn o d p - P / A * turn a o d := by
          rw [hc1, hR]; simp only [turn, lineAt]; ring
        have := mul_pos hs0 hc
        linarith
      -- both distances
      have dR : sqDist p R * U = c1 ^ 2 := by
        have : sqDist p R * U = c1 ^ 2 + ((p.x - R.x) * (d.x - o.x) + (p.y - R.y) * (d.y - o.y)) ^ 2 := by
          rw [hc1, hUd]; simp only [sqDist, turn]; ring
        rw [this, perp]; ring
      have dQ : turn o d p ^ 2 ≤ D * U := by
        have : sqDist p (lineAt o d t) * U = turn o d p ^ 2 +
            ((p.x - (lineAt o d t).x) * (d.x - o.x) + (p.y - (lineAt o d t).y) * (d.y - o.y)) ^ 2 := by
          rw [hUd]; simp only [sqDist, turn, lineAt]; ring
        rw [n.eq, this]
        have := sq_nonneg ((p.x - (lineAt o d t).x) * (d.x - o.x) + (p.y - (lineAt o d t).y) * (d.y - o.y))
        linarith
      have : c1 ^ 2 < turn o d p ^ 2 := by nlinarith
      have : sqDist p R * U < D * U := by linarith
      exact lt_of_le_of_lt hle (lt_of_mul_lt_mul_right this hU.le)
  · -- `o` is closest
    have e0 : lineAt o d t = o := by rw [← ht]; apply ptExt <;> simp [lineAt]
    have e1 : lineAt o a 0 = o := by apply ptExt <;> simp [lineAt]
    have hD : D = sqDist p o := by rw [n.eq, e0]
    have hle := n'.least 0 le_rfl zero_le_one
    rw [e1, ← hD] at hle
    rcases hle.lt_or_eq with h | h
    · exact Or.inl h
    · refine Or.inr ⟨h, ht.symm, n'.uniq hoa ⟨?_, le_rfl, zero_le_one, n'.least⟩⟩
      rw [e1, h, hD]

theorem near_mirror {o d p : Pt K} {D t : K} (n : Near o d p D t) :
    Near (⟨- d.x, d.y⟩ : Pt K) ⟨- o.x, o.y⟩ ⟨- p.x, p.y⟩ D (1 - t) where
  eq := by rw [n.eq]; simp only [sqDist, lineAt]; ring
  nonneg := by linarith [n.le]
  le := by linarith [n.nonneg]
  least := by
    intro s h0 h1
    have := n.least (1 - s) (by linarith) (by linarith)
    refine this.trans (le_of_eq ?_)
    simp only [sqDist, lineAt]; ring

/-- Turning right about `d`. -/
theorem near_right {o d a p : Pt K} (hc : 0 < turn a o d) (hp : 0 < turn o d p ∨ ∃ s, (s < 0 ∨ 1 < s) ∧ p = lineAt o d s)
    (hr : 0 < turn a d p)
    (hch : turn o a p ≤ 0 ∨ (a.x - p.x) * (d.x - o.x) + (a.y - p.y) * (d.y - o.y) ≤ 0)
    {D t D' t' : K} (n : Near o d p D t) (n' : Near a d p D' t') : D' < D ∨ (D' = D ∧ t = 1 ∧ t' = 1) := by
  have mir : ∀ u v w : Pt K, turn (⟨- u.x, u.y⟩ : Pt K) ⟨- v.x, v.y⟩ ⟨- w.x, w.y⟩ = turn v u w := by
    intro u v w; simp only [turn]; ring
  have := near_left (o := ⟨- d.x, d.y⟩) (d := ⟨- o.x, o.y⟩) (a := ⟨- a.x, a.y⟩) (p := ⟨- p.x, p.y⟩)
    (by rw [mir]; have : turn d a o = turn a o d := by simp only [turn]; ring
        rw [this]; exact hc)
    (by
      rw [mir]
      refine hp.imp id ?_
      rintro ⟨s, hs, rfl⟩
      refine ⟨1 - s, ?_, ?_⟩
      · rcases hs with hs | hs
        · right; linarith
        · left; linarith
      · apply ptExt <;> simp only [lineAt] <;> ring)
    (by rw [mir]; exact hr)
    (by
      rw [mir]
      refine hch.imp id fun h => ?_
      simp only; linarith)
    (near_mirror n) (near_mirror n')
  rcases this with h | ⟨h1, h2, h3⟩
  · exact Or.inl h
  · exact Or.inr ⟨h1, by linarith, by linarith⟩

/-- Directions on one side of a line through `o` are ordered. -/
theorem fan_order {o d a q p : Pt K} (hd : 0 < turn o d p) (ha : 0 < turn o a p) (hq : 0 < turn o q p)
    (h1 : 0 < turn o d a) (h2 : 0 < turn o a q) : 0 < turn o d q := by
  have e : turn o a p * turn o d q = turn o d a * turn o q p + turn o a q * turn o d p := by
    simp only [turn]; ring
  have : 0 < turn o a p * turn o d q := by
    rw [e]; exact add_pos (mul_pos h1 hq) (mul_pos h2 hd)
  exact (pos_iff_pos_of_mul_pos this).1 ha

section
variable (m ts pos)

/-- All vertices of the mesh. -/
def vertsOf : Finset Nat :=
  (ts.flatMap fun t => (m.corner (t, 0)).toList ++ (m.corner (t, 1)).toList ++ (m.corner (t, 2)).toList).toFinset

open Classical in
/-- The vertices that the walk has before it when it turns left about the origin of the edge. -/
noncomputable def fanL (p : Pt K) (x : Otri) : Finset Nat :=
  (vertsOf m ts).filter fun q => ∃ o d, m.Dir (· ∈ ts) x o d ∧ 0 < turn (pos o) (pos q) p ∧ 0 < turn (pos o) (pos d) (pos q)

open Classical in
/-- The vertices that the walk has before it when it turns right about the end of the edge. -/
noncomputable def fanR (p : Pt K) (x : Otri) : Finset Nat :=
  (vertsOf m ts).filter fun q => ∃ o d, m.Dir (· ∈ ts) x o d ∧ 0 < turn (pos q) (pos d) p ∧ 0 < turn (pos o) (pos d) (pos q)

end

theorem mem_vertsOf {x : Otri} (hx : x.1 ∈ ts) {v : Nat} (hv : m.corner x = some v) : v ∈ vertsOf m ts := by
  rw [vertsOf, List.mem_toFinset, List.mem_flatMap]
  refine ⟨x.1, hx, ?_⟩
  obtain ⟨t, o⟩ := x
  match o with
  | 0 => simp [hv]
  | 1 => simp [hv]
  | 2 => simp [hv]

theorem Heap.Dir.uniq {L : Nat → Prop} {x : Otri} {a b a' b' : Nat} (h : m.Dir L x a b) (h' : m.Dir L x a' b') : a = a' ∧ b = b' :=
  ⟨Option.some.inj (h.2.1.symm.trans h'.2.1), Option.some.inj (h.2.2.symm.trans h'.2.2)⟩

open Classical in
theorem mem_fanL {x : Otri} {o d : Nat} (t : m.Dir (· ∈ ts) x o d) (q : Nat) : q ∈ fanL m ts pos p x ↔
    q ∈ vertsOf m ts ∧ 0 < turn (pos o) (pos q) p ∧ 0 < turn (pos o) (pos d) (pos q) := by
  rw [fanL, Finset.mem_filter]
  refine and_congr_right fun _ => ⟨?_, fun hh => ⟨o, d, t, hh⟩⟩
  rintro ⟨o', d', t', hh⟩
  obtain ⟨rfl, rfl⟩ := t.uniq t'
  exact hh

open Classical in
theorem mem_fanR {x : Otri} {o d : Nat} (t : m.Dir (· ∈ ts) x o d) (q : Nat) : q ∈ fanR m ts pos p x ↔
    q ∈ vertsOf m ts ∧ 0 < turn (pos q) (pos d) p ∧ 0 < turn (pos o) (pos d) (pos q) := by
  rw [fanR, Finset.mem_filter]
  refine and_congr_right fun _ => ⟨?_, fun hh => ⟨o, d, t, hh⟩⟩
  rintro ⟨o', d', t', hh⟩
  obtain ⟨rfl, rfl⟩ := t.uniq t'
  exact hh

/-- The distance of every edge, and where it is attained. -/
def Measured (m : Heap) (ts : List Nat) (pos : Nat → Pt K) (p : Pt K) (D t : Otri → K) : Prop :=
  ∀ x o d, m.Dir (· ∈ ts) x o d → Near (pos o) (pos d) p (D x) (t x)

theorem exists_measured (h : Linked m (· ∈ ts)) (c : Ccw m (· ∈ ts) pos) (p : Pt K) : ∃ D t : Otri → K, Measured m ts pos p D t := by
  have : ∀ x : Otri, ∃ r : K × K, ∀ o d, m.Dir (· ∈ ts) x o d → Near (pos o) (pos d) p r.1 r.2 := by
    intro x
    by_cases hx : ∃ o d, m.Dir (· ∈ ts) x o d
    · obtain ⟨o, d, hd⟩ := hx
      obtain ⟨a, t⟩ := hd.tri h
      have hc := c _ _ _ _ t
      have hne : pos o ≠ pos d := by
        intro e
        have : turn (pos a) (pos o) (pos d) = 0 := by rw [e]; simp only [turn]; ring
        linarith
      obtain ⟨D, s, n⟩ := exists_near hne p
      refine ⟨(D, s), fun o' d' hd' => ?_⟩
      obtain ⟨rfl, rfl⟩ := hd.uniq hd'
      exact n
    · exact ⟨(0, 0), fun o d hd => absurd ⟨o, d, hd⟩ hx⟩
  exact ⟨fun x => (this x).choose.1, fun x => (this x).choose.2, fun x => (this x).choose_spec⟩

open Classical in
/-- What is left to turn about the closest endpoint. -/
noncomputable def left' (m : Heap) (ts : List Nat) (pos : Nat → Pt K) (p : Pt K) (t : Otri → K) (x : Otri) : Nat :=
  if t x = 0 then (fanL m ts pos p x).card else (fanR m ts pos p x).card

/-- Handles below a given one. -/
def Below (D t : Otri → K) (m : Heap) (ts : List Nat) (pos : Nat → Pt K) (p : Pt K) (y x : Otri) : Prop :=
  D y < D x ∨ (D y = D x ∧ left' m ts pos p t y < left' m ts pos p t x)

theorem Below.trans {D t : Otri → K} {x y z : Otri} (h : Below D t m ts pos p x y) (g : Below D t m ts pos p y z) :
    Below D t m ts pos p x z := by
  rcases h with h | ⟨h, h'⟩ <;> rcases g with g | ⟨g, g'⟩
  · exact Or.inl (h.trans g)
  · exact Or.inl (by rw [← g]; exact h)
  · exact Or.inl (by rw [h]; exact g)
  · exact Or.inr ⟨h.trans g, h'.trans g'⟩

theorem Below.irrefl {D t : Otri → K} {x : Otri} : ¬ Below D t m ts pos p x x := by
  rintro (h | ⟨-, h⟩)
  · exact lt_irrefl _ h
  · exact lt_irrefl _ h

/-- The walk goes down. -/
theorem next_below (h : Linked m (· ∈ ts)) (c : Ccw m (· ∈ ts) pos) {D t : Otri → K} (hM : Measured m ts pos p D t)
    {x y : Otri} {o d : Nat} (hd : m.Dir (· ∈ ts) x o d) (hp : 0 < turn (pos o) (pos d) p) (s : WalkStep m (· ∈ ts) pos p x y) :
    Below D t m ts pos p y x := by
  cases s with
  | @left a o' d' tr hn hl hch =>
    obtain ⟨rfl, rfl⟩ := hd.uniq tr.dir
    obtain ⟨w, tw⟩ := h.cross tr.prev hn
    have hca := c _ _ _ _ tr
    have hca' : 0 < turn (pos o) (pos d) (pos a) := by
      have : turn (pos o) (pos d) (pos a) = turn (pos a) (pos o) (pos d) := by simp only [turn]; ring
      linarith
    rcases near_left hca (Or.inl hp) hl hch (hM _ _ _ hd) (hM _ _ _ tw.dir) with hlt | ⟨e, e1, e2⟩
    · exact Or.inl hlt
    · refine Or.inr ⟨e, ?_⟩
      rw [left', left', if_pos e1, if_pos e2]
      refine Finset.card_lt_card ⟨fun q hq => ?_, fun hsub => ?_⟩
      · rw [mem_fanL tw.dir] at hq
        rw [mem_fanL hd]
        exact ⟨hq.1, hq.2.1, fan_order hp hl hq.2.1 hca' hq.2.2⟩
      · have : a ∈ fanL m ts pos p x := (mem_fanL hd a).2 ⟨mem_vertsOf tr.1 tr.2.1, hl, hca'⟩
        have h3 := ((mem_fanL tw.dir a).1 (hsub this)).2.2
        have : turn (pos o) (pos a) (pos a) = 0 := by simp only [turn]; ring
        linarith
  | @right a o' d' tr hn hl hch =>
    obtain ⟨rfl, rfl⟩ := hd.uniq tr.dir
    obtain ⟨w, tw⟩ := h.cross tr.next hn
    have hca := c _ _ _ _ tr
    have hca' : 0 < turn (pos o) (pos d) (pos a) := by
      have : turn (pos o) (pos d) (pos a) = turn (pos a) (pos o) (pos d) := by simp only [turn]; ring
      linarith
    rcases near_right hca (Or.inl hp) hl hch (hM _ _ _ hd) (hM _ _ _ tw.dir) with hlt | ⟨e, e1, e2⟩
    · exact Or.inl hlt
    · refine Or.inr ⟨e, ?_⟩
      rw [left', left', if_neg (by rw [e2]; exact one_ne_zero), if_neg (by rw [e1]; exact one_ne_zero)]
      have mir : ∀ u v w : Pt K, turn (⟨- u.x, u.y⟩ : Pt K) ⟨- v.x, v.y⟩ ⟨- w.x, w.y⟩ = turn v u w := by
        intro u v w; simp only [turn]; ring
      have rot : ∀ u v w : Pt K, turn u v w = turn v w u := by
        intro u v w; simp only [turn]; ring
      refine Finset.card_lt_card ⟨fun q hq => ?_, fun hsub => ?_⟩
      · rw [mem_fanR tw.dir] at hq
        rw [mem_fanR hd]
        refine ⟨hq.1, hq.2.1, ?_⟩
        have := fan_order (o := ⟨- (pos d).x, (pos d).y⟩) (d := ⟨- (pos o).x, (pos o).y⟩) (a := ⟨- (pos a).x, (pos a).y⟩)
          (q := ⟨- (pos q).x, (pos q).y⟩) (p := ⟨- p.x, p.y⟩) (by rw [mir]; exact hp) (by rw [mir]; exact hl) (by rw [mir]; exact hq.2.1)
          (by rw [mir]; exact hca') (by rw [mir]; exact hq.2.2)
        rw [mir] at this
        exact this
      · have : a ∈ fanR m ts pos p x := (mem_fanR hd a).2 ⟨mem_vertsOf tr.1 tr.2.1, hl, hca'⟩
        have h3 := ((mem_fanR tw.dir a).1 (hsub this)).2.2
        have : turn (pos a) (pos d) (pos a) = 0 := by simp only [turn]; ring
        linarith

open Classical in
/-- The walk from an edge with the point to its left. -/
theorem loop_ends (h : Linked m (· ∈ ts)) (c : Ccw m (· ∈ ts) pos) {D t : Otri → K} (hM : Measured m ts pos p D t)
    (cs stop : Bool) : ∀ (fuel : Nat) (x : Otri) (a o d : Nat),
    m.Tri3 (· ∈ ts) x a o d → 0 < turn (pos o) (pos d) p →
    (((ts.toFinset ×ˢ (Finset.univ : Finset (Fin 3))).filter fun y => Below D t m ts pos p y x).card < fuel) →
    ∃ r y, preciseLoop m pos p cs stop fuel x (pos o) (pos d) (pos a) = .ok (some (r, y)) ∧ Answer m (· ∈ ts) pos p (cs && stop) r y := by
  intro fuel
  induction fuel with
  | zero => intro x a o d _ _ hh; exact absurd hh (Nat.not_lt_zero _)
  | succ fuel ih =>
    intro x a o d tr hp hh
    rcases step_spec h c cs stop tr (Or.inl hp) fuel with hr | ⟨y, a', o', d', hnx, t', hp', e⟩
    · exact hr
    · rw [e]
      refine ih y a' o' d' t' hp' ?_
      have hb := next_below h c hM tr.dir hp hnx
      refine lt_of_lt_of_le (Finset.card_lt_card (Finset.ssubset_iff_subset_ne.2 ⟨?_, ?_⟩)) (Nat.lt_succ_iff.1 hh)
      · intro z hz
        rw [Finset.mem_filter] at hz ⊢
        exact ⟨hz.1, hz.2.trans hb⟩
      · intro e
        have : y ∈ (ts.toFinset ×ˢ (Finset.univ : Finset (Fin 3))).filter fun y => Below D t m ts pos p y x := by
          rw [Finset.mem_filter, Finset.mem_product]
          exact ⟨⟨List.mem_toFinset.2 t'.1, Finset.mem_univ _⟩, hb⟩
        rw [← e, Finset.mem_filter] at this
        exact Below.irrefl this.2

/-- `preciselocate` ends in any mesh. -/
theorem precise_ends (h : Linked m (· ∈ ts)) (c : Ccw m (· ∈ ts) pos) (cs stop : Bool)
    {fuel : Nat} (hf : 3 * ts.length < fuel) {x : Otri} (hx : Ahead m (· ∈ ts) pos p x) :
    ∃ r y, preciselocate m pos p cs stop fuel x = .ok (some (r, y)) ∧ Answer m (· ∈ ts) pos p (cs && stop) r y := by
  classical
  obtain ⟨o, d, hd, hp⟩ := hx
  obtain ⟨a, tr⟩ := hd.tri h
  obtain ⟨D, t, hM⟩ := exists_measured h c p
  rw [precise_eq cs stop tr]
  have hle : (ts.toFinset ×ˢ (Finset.univ : Finset (Fin 3))).card ≤ 3 * ts.length := by
    rw [Finset.card_product, Finset.card_univ, Fintype.card_fin, mul_comm]
    exact Nat.mul_le_mul_left _ (List.toFinset_card_le _)
  have below : ∀ y : Otri, y.1 ∈ ts →
      ((ts.toFinset ×ˢ (Finset.univ : Finset (Fin 3))).filter fun z => Below D t m ts pos p z y).card < 3 * ts.length := by
    intro y hy
    refine lt_of_lt_of_le (Finset.card_lt_card (Finset.ssubset_iff_subset_ne.2 ⟨Finset.filter_subset _ _, ?_⟩)) hle
    intro e
    have : y ∈ (ts.toFinset ×ˢ (Finset.univ : Finset (Fin 3))) := by
      rw [Finset.mem_product]; exact ⟨List.mem_toFinset.2 hy, Finset.mem_univ _⟩
    rw [← e, Finset.mem_filter] at this
    exact Below.irrefl this.2
  obtain ⟨fuel, rfl⟩ : ∃ f, fuel = f + 1 := ⟨fuel - 1, by omega⟩
  rcases step_spec h c cs stop tr hp fuel with hr | ⟨y, a', o', d', -, t', hp', e⟩
  · exact hr
  · rw [e]
    exact loop_ends h c hM cs stop fuel y a' o' d' t' hp' (lt_of_lt_of_le (below y t'.1) (by omega))

end Delynoi.Tri
