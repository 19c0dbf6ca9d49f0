import Verif.Proofs.TriMesh4
/-! # Flips: Delaunay edges; the triangles and edges after a flip -/
set_option linter.unusedSectionVars false
namespace Delynoi.Tri
section
variable {K : Type} [Field K] [LinearOrder K] [IsStrictOrderedRing K]

/-- The weighted squared distances to `d` measure the power of `d`. -/
theorem power_weights {o a b c d : Pt K} (h1 : sqDist o a = sqDist o b) (h2 : sqDist o a = sqDist o c) :
    turn b c d * sqDist a d + turn c a d * sqDist b d + turn a b d * sqDist c d =
      turn a b c * (sqDist o a - sqDist o d) := by
  have : turn b c d * sqDist a d + turn c a d * sqDist b d + turn a b d * sqDist c d =
      turn a b c * (sqDist o a - sqDist o d) - turn c a d * (sqDist o a - sqDist o b) -
        turn a b d * (sqDist o a - sqDist o c) := by
    simp only [turn, sqDist]; ring
  rw [this, ← h1, ← h2]; ring

theorem weights_aux (a b c d : Pt K) :
    turn b c d * (turn b c d * sqDist a d + turn c a d * sqDist b d + turn a b d * sqDist c d) =
      turn a b c * (turn c a d * sqDist b d + turn a b d * sqDist c d) - turn c a d * turn a b d * sqDist b c := by
  simp only [turn, sqDist]; ring

theorem turn_sum (a b c d : Pt K) : turn b c d + turn c a d + turn a b d = turn a b c := by
  simp only [turn]; ring

theorem sqDist_nonneg' (a b : Pt K) : 0 ≤ sqDist a b := add_nonneg (sq_nonneg _) (sq_nonneg _)

/-- A point in the circle, beyond the edge `ab`, sees `ab` between `ca` and `cb`. -/
theorem convex_left {a b c d : Pt K} (h1 : 0 < turn a b c) (h2 : turn a b d < 0)
    (hp : 0 < turn b c d * sqDist a d + turn c a d * sqDist b d + turn a b d * sqDist c d) : 0 < turn c a d := by
  by_contra hq
  rw [not_lt] at hq
  have hs := turn_sum a b c d
  have hpos : 0 < turn b c d := by linarith
  have := weights_aux a b c d
  have e1 : 0 < turn b c d * (turn b c d * sqDist a d + turn c a d * sqDist b d + turn a b d * sqDist c d) :=
    mul_pos hpos hp
  have e2 : turn c a d * sqDist b d ≤ 0 := mul_nonpos_of_nonpos_of_nonneg hq (sqDist_nonneg' _ _)
  have e3 : turn a b d * sqDist c d ≤ 0 := mul_nonpos_of_nonpos_of_nonneg h2.le (sqDist_nonneg' _ _)
  have e4 : 0 ≤ turn c a d * turn a b d * sqDist b c :=
    mul_nonneg (mul_nonneg_of_nonpos_of_nonpos hq h2.le) (sqDist_nonneg' _ _)
  have e5 : turn a b c * (turn c a d * sqDist b d + turn a b d * sqDist c d) ≤ 0 :=
    mul_nonpos_of_nonneg_of_nonpos h1.le (by linarith)
  linarith

theorem convex_of_inside {o a b c d : Pt K} (o1 : sqDist o a = sqDist o b) (o2 : sqDist o a = sqDist o c)
    (h1 : 0 < turn c a b) (h2 : 0 < turn d b a) (hin : sqDist o d < sqDist o a) :
    0 < turn d c a ∧ 0 < turn c d b := by
  have h1' : 0 < turn a b c := by rw [← turn_rotate c a b] at h1; exact h1
  have h2' : turn a b d < 0 := by
    have : turn a b d = - turn d b a := by simp only [turn]; ring
    linarith
  have hp : 0 < turn b c d * sqDist a d + turn c a d * sqDist b d + turn a b d * sqDist c d := by
    rw [power_weights o1 o2]; exact mul_pos h1' (by linarith)
  constructor
  · have := convex_left h1' h2' hp
    rw [← turn_rotate]; exact this
  · -- the mirror image
    by_contra hq
    have hq' : turn b c d ≤ 0 := by
      have : turn b c d = turn c d b := by simp only [turn]; ring
      rw [this]; exact not_lt.1 hq
    have hs := turn_sum a b c d
    have hpos : 0 < turn c a d := by linarith
    have id : turn c a d * (turn b c d * sqDist a d + turn c a d * sqDist b d + turn a b d * sqDist c d) =
        turn a b c * (turn b c d * sqDist a d + turn a b d * sqDist c d) - turn b c d * turn a b d * sqDist a c := by
      simp only [turn, sqDist]; ring
    have e1 := mul_pos hpos hp
    have e2 : turn b c d * sqDist a d ≤ 0 := mul_nonpos_of_nonpos_of_nonneg hq' (sqDist_nonneg' _ _)
    have e3 : turn a b d * sqDist c d ≤ 0 := mul_nonpos_of_nonpos_of_nonneg h2'.le (sqDist_nonneg' _ _)
    have e4 : 0 ≤ turn b c d * turn a b d * sqDist a c :=
      mul_nonneg (mul_nonneg_of_nonpos_of_nonpos hq' h2'.le) (sqDist_nonneg' _ _)
    have e5 : turn a b c * (turn b c d * sqDist a d + turn a b d * sqDist c d) ≤ 0 :=
      mul_nonpos_of_nonneg_of_nonpos h1'.le (by linarith)
    linarith

theorem outside_after {o o' a b c d : Pt K} (o1 : sqDist o a = sqDist o b) (o2 : sqDist o a = sqDist o c)
    (h1 : 0 < turn c a b) (h2 : 0 < turn d b a) (hin : sqDist o d < sqDist o a)
    (p1 : sqDist o' d = sqDist o' c) (p2 : sqDist o' d = sqDist o' a) : sqDist o' d < sqDist o' b := by
  have h1' : 0 < turn a b c := by rw [← turn_rotate c a b] at h1; exact h1
  have hq := (convex_of_inside o1 o2 h1 h2 hin).1
  have hp : 0 < turn b c d * sqDist a d + turn c a d * sqDist b d + turn a b d * sqDist c d := by
    rw [power_weights o1 o2]; exact mul_pos h1' (by linarith)
  have id : turn b c d * sqDist a d + turn c a d * sqDist b d + turn a b d * sqDist c d =
      turn d c a * (sqDist o' b - sqDist o' d) + turn b c d * (sqDist o' a - sqDist o' d) +
        turn a b d * (sqDist o' c - sqDist o' d) := by
    simp only [turn, sqDist]; ring
  rw [id, ← p1, ← p2, sub_self, mul_zero, mul_zero, add_zero, add_zero] at hp
  have := (mul_pos_iff_of_pos_left hq).1 hp
  linarith

end
section
variable {m : Heap} {L : Nat → Prop} {e top : Otri} {a b c d : Nat} (h : Linked m L) (q : QuadAt m L e top a b c d)
include h q

theorem flip_tri' {cs : Bool} {x : Otri} {v A B : Nat} (hx : m.Tri3 L x v A B) (h1 : x.1 ≠ e.1) (h2 : x.1 ≠ top.1) :
    (m.flip cs e).Tri3 L x v A B := by
  obtain ⟨-, -, -, -, -, -, c7⟩ := flip_corner h q cs
  obtain ⟨x1, x2, x3, x4⟩ := hx
  exact ⟨x1, by rw [c7 x h1 h2]; exact x2, by rw [c7 (x.1, x.2 + 1) h1 h2]; exact x3,
    by rw [c7 (x.1, x.2 + 2) h1 h2]; exact x4⟩

theorem flip_new {cs : Bool} : (m.flip cs e).Tri3 L e a d c ∧ (m.flip cs e).Tri3 L top b c d := by
  obtain ⟨c1, c2, c3, c4, c5, c6, -⟩ := flip_corner h q cs
  exact ⟨tri3_iff.2 ⟨q.le, c1, c2, c3⟩, tri3_iff.2 ⟨q.lt, c4, c5, c6⟩⟩

/-- Edges other than the diagonals keep their neighbours' subsegments. -/
theorem flip_keep (g : Segmented m L) {x : Otri} {v w : Nat} (hx : m.Dir L x v w) (h1 : x ≠ e) (h2 : x ≠ top) :
    ∃ y, (m.flip true e).Dir L y v w ∧ (m.flip true e).sub y = m.sub x := by
  obtain ⟨d1, d2, d3, d4, d5, d6⟩ := q.distinct h
  have i := cyc_inv d1 d2 d3 d4 d5 d6 x
  refine ⟨cyc (lnext e) (lprev e) (lnext top) (lprev top) x, (flip_dir h q true).2 (Or.inr (Or.inr
    ⟨cyc_ne h q (Or.inl rfl) h1, cyc_ne h q (Or.inr rfl) h2, ?_⟩)), ?_⟩
  · rw [i]; exact hx
  · rw [flip_sub h q g, i]

theorem flip_diag (g : Segmented m L) :
    (m.flip true e).sub e = m.sub e ∧ (m.flip true e).sub top = m.sub top := by
  rw [flip_sub h q g, flip_sub h q g, cyc_fix' h q (by simp), cyc_fix' h q (by simp)]
  exact ⟨rfl, rfl⟩

end
/-- With the combinatorial conditions of a flip. -/
theorem quad_of_free {m : Heap} {L : Nat → Prop} {e : Otri} {a b c d : Nat} (h : Linked m L) (he : m.Dir L e a b)
    (hc : m.corner e = some c) (hn : m.nbr e ≠ (0, 0)) (hd : m.corner (m.nbr e) = some d)
    (hdis : a ≠ b ∧ a ≠ c ∧ a ≠ d ∧ b ≠ c ∧ b ≠ d ∧ c ≠ d) (hno : ¬ m.Adj L c d) :
    QuadAt m L e (m.nbr e) a b c d := by
  obtain ⟨hl, hi, v, w, k1, k2⟩ := h.across he.1 hn
  have e1 := he.2.1.symm.trans k1.2.1
  have e2 := he.2.2.symm.trans k1.2.2
  cases e1; cases e2
  obtain ⟨n1, n2, n3, n4, n5, n6⟩ := hdis
  refine ⟨he.1, hl, ?_, rfl, hi, hc, he.2.1, he.2.2, hd, k2.2.1, k2.2.2, n1, n2, n3, n4, n5, n6, hno⟩
  intro hh
  have hd' : m.corner (m.nbr e) = some d := hd
  rcases handle_cases e (m.nbr e) hh.symm with h0 | h0 | h0 <;> rw [h0] at hd'
  · rw [hc] at hd'; cases hd'; exact n6 rfl
  · have := he.2.1; rw [show m.corner (lnext e) = some a from this] at hd'; cases hd'; exact n3 rfl
  · have := he.2.2; rw [show m.corner (lprev e) = some b from this] at hd'; cases hd'; exact n5 rfl

end Delynoi.Tri
