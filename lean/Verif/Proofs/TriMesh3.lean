import Verif.Proofs.TriMesh2
import Mathlib.Tactic.Ring
import Mathlib.Tactic.Linarith
import Mathlib.Tactic.LinearCombination
import Mathlib.Algebra.Order.Field.Basic
/-! # Flips: subsegments and geometry -/
set_option linter.unusedSectionVars false
namespace Delynoi.Tri
variable {K : Type} [Field K] [LinearOrder K] [IsStrictOrderedRing K]

/-! ### Angles -/

theorem cone1 {v A B C W : Pt K} (h1 : 0 < turn v C A) (h2 : 0 < turn v B C) (h3 : 0 < turn v B A)
    (h4 : 0 < turn v C W) (h5 : 0 < turn v W A) : 0 < turn v B W := by
  have : turn v C A * turn v B W = turn v W A * turn v B C + turn v C W * turn v B A := by
    simp only [turn]; ring
  exact (mul_pos_iff_of_pos_left h1).1 (this ▸ add_pos (mul_pos h5 h2) (mul_pos h4 h3))

theorem cone2 {v A B D W : Pt K} (h1 : 0 < turn v A D) (h2 : 0 < turn v D B) (h3 : 0 < turn v A B)
    (h4 : 0 < turn v A W) (h5 : 0 < turn v W D) : 0 < turn v W B := by
  have : turn v A D * turn v W B = turn v W D * turn v A B + turn v A W * turn v D B := by
    simp only [turn]; ring
  exact (mul_pos_iff_of_pos_left h1).1 (this ▸ add_pos (mul_pos h5 h3) (mul_pos h4 h2))

theorem norm_pos {v B D : Pt K} (h : turn v D B ≠ 0) : 0 < (B.x - v.x) ^ 2 + (B.y - v.y) ^ 2 := by
  by_contra hh
  have hx : (B.x - v.x) ^ 2 = 0 := by nlinarith [sq_nonneg (B.x - v.x), sq_nonneg (B.y - v.y)]
  have hy : (B.y - v.y) ^ 2 = 0 := by nlinarith [sq_nonneg (B.x - v.x), sq_nonneg (B.y - v.y)]
  have hx' := pow_eq_zero_iff (two_ne_zero) |>.1 hx
  have hy' := pow_eq_zero_iff (two_ne_zero) |>.1 hy
  apply h
  simp only [turn, hx', hy']; ring

theorem ray1 {v B D W : Pt K} (h0 : turn v B W = 0) (h1 : 0 < turn v D W) (h2 : 0 < turn v D B) :
    0 < (B.x - v.x) * (W.x - v.x) + (B.y - v.y) * (W.y - v.y) := by
  have hn := norm_pos (ne_of_gt h2)
  have : turn v D B * ((B.x - v.x) * (W.x - v.x) + (B.y - v.y) * (W.y - v.y)) =
      ((B.x - v.x) ^ 2 + (B.y - v.y) ^ 2) * turn v D W := by
    simp only [turn] at h0 ⊢
    linear_combination (-((D.x - v.x) * (B.x - v.x) + (D.y - v.y) * (B.y - v.y))) * h0
  exact (mul_pos_iff_of_pos_left h2).1 (this ▸ mul_pos hn h1)

theorem ray2 {v A A' D : Pt K} (h0 : turn v A A' = 0) (h1 : 0 < turn v A D) (h2 : 0 < turn v A' D) :
    0 < (A.x - v.x) * (A'.x - v.x) + (A.y - v.y) * (A'.y - v.y) := by
  have hn : 0 < (A.x - v.x) ^ 2 + (A.y - v.y) ^ 2 := by
    refine norm_pos (D := D) ?_
    have : turn v D A = - turn v A D := by simp only [turn]; ring
    rw [this]; exact neg_ne_zero.2 (ne_of_gt h1)
  have : turn v A D * ((A.x - v.x) * (A'.x - v.x) + (A.y - v.y) * (A'.y - v.y)) =
      ((A.x - v.x) ^ 2 + (A.y - v.y) ^ 2) * turn v A' D := by
    simp only [turn] at h0 ⊢
    linear_combination ((D.x - v.x) * (A.x - v.x) + (D.y - v.y) * (A.y - v.y)) * h0
  exact (mul_pos_iff_of_pos_left h1).1 (this ▸ mul_pos hn h2)

theorem turn_anti (v A B : Pt K) : turn v A B = - turn v B A := by simp only [turn]; ring
theorem turn_rotate (a b c : Pt K) : turn b c a = turn a b c := by simp only [turn]; ring

/-- Two angles with a common inner direction begin with the same direction, unless one begins inside
the other. -/
theorem same_start {v A B A' B' D : Pt K} (h1 : 0 < turn v A D) (h2 : 0 < turn v D B) (h3 : 0 < turn v A B)
    (h1' : 0 < turn v A' D) (h2' : 0 < turn v D B') (h3' : 0 < turn v A' B')
    (n1 : ¬ (0 < turn v A A' ∧ 0 < turn v A' B)) (n2 : ¬ (0 < turn v A' A ∧ 0 < turn v A B')) :
    turn v A A' = 0 ∧ 0 < (A.x - v.x) * (A'.x - v.x) + (A.y - v.y) * (A'.y - v.y) := by
  have h0 : turn v A A' = 0 := by
    rcases lt_trichotomy (turn v A A') 0 with h | h | h
    · exfalso
      have h' : 0 < turn v A' A := by rw [turn_anti]; linarith
      exact n2 ⟨h', cone2 h1' h2' h3' h' h1⟩
    · exact h
    · exact absurd ⟨h, cone2 h1 h2 h3 h h1'⟩ n1
  exact ⟨h0, ray2 h0 h1 h1'⟩

/-! ### Flat triangulations -/

section
variable {m : Heap} {L : Nat → Prop} {pos : Nat → Pt K} {e top : Otri} {a b c d : Nat}

theorem Tri3.dirs {x : Otri} {v A B : Nat} (ht : m.Tri3 L x v A B) :
    m.Dir L x A B ∧ m.Dir L (lprev x) v A ∧ m.Dir L (lnext x) B v := by
  rw [tri3_iff] at ht
  obtain ⟨h1, h2, h3, h4⟩ := ht
  refine ⟨⟨h1, h3, h4⟩, dir_iff.2 ⟨h1, ?_, ?_⟩, dir_iff.2 ⟨h1, ?_, ?_⟩⟩
  · rw [lnext_lprev]; exact h2
  · rw [lprev_lprev]; exact h3
  · rw [lnext_lnext]; exact h4
  · rw [lprev_lnext]; exact h2

theorem QuadAt.symm (q : QuadAt m L e top a b c d) : QuadAt m L top e b a d c where
  le := q.lt
  lt := q.le
  ne := q.ne.symm
  nbr := q.nbr'
  nbr' := q.nbr
  e0 := q.t0
  e1 := q.t1
  e2 := q.t2
  t0 := q.e0
  t1 := q.e1
  t2 := q.e2
  ab := q.ab.symm
  ac := q.bd
  ad := q.bc
  bc := q.ad
  bd := q.ac
  cd := q.cd.symm
  nodiag := by
    rintro ⟨x, hx⟩
    exact q.nodiag ⟨x, hx.symm⟩

/-- A strictly convex quadrilateral in a flat triangulation can be flipped. -/
theorem quad_of_convex (h : Linked m L) (f : Flat m L pos) (he : m.Dir L e a b) (hc : m.corner e = some c)
    (hn : m.nbr e ≠ (0, 0)) (hd : m.corner (m.nbr e) = some d)
    (v1 : 0 < turn (pos d) (pos c) (pos a)) (v2 : 0 < turn (pos c) (pos d) (pos b)) :
    QuadAt m L e (m.nbr e) a b c d := by
  obtain ⟨hl, hi, v, w, k1, k2⟩ := h.across he.1 hn
  have e1 := he.2.1.symm.trans k1.2.1
  have e2 := he.2.2.symm.trans k1.2.2
  cases e1; cases e2
  have T1 : m.Tri3 L e c a b := ⟨he.1, hc, he.2.1, he.2.2⟩
  have T2 : m.Tri3 L (m.nbr e) d b a := ⟨hl, hd, k2.2.1, k2.2.2⟩
  have c1 := f.ccw _ _ _ _ T1
  have c2 := f.ccw _ _ _ _ T2
  have z : ∀ p q : Pt K, turn p p q = 0 ∧ turn p q p = 0 ∧ turn q p p = 0 := by
    intro p q; refine ⟨?_, ?_, ?_⟩ <;> simp only [turn] <;> ring
  have hab : a ≠ b := by rintro rfl; rw [(z _ _).2.2] at c1; exact lt_irrefl _ c1
  have hac : a ≠ c := by rintro rfl; rw [(z _ _).1] at c1; exact lt_irrefl _ c1
  have hbc : b ≠ c := by rintro rfl; rw [(z _ _).2.1] at c1; exact lt_irrefl _ c1
  have had : a ≠ d := by rintro rfl; rw [(z _ _).2.1] at c2; exact lt_irrefl _ c2
  have hbd : b ≠ d := by rintro rfl; rw [(z _ _).1] at c2; exact lt_irrefl _ c2
  have hcd : c ≠ d := by rintro rfl; rw [(z _ _).1] at v1; exact lt_irrefl _ v1
  refine ⟨he.1, hl, ?_, rfl, hi, hc, he.2.1, he.2.2, hd, k2.2.1, k2.2.2, hab, hac, had, hbc, hbd, hcd, ?_⟩
  · intro hh
    rcases handle_cases e _ hh.symm with hh | hh | hh
    · rw [hh] at hd; rw [hc] at hd; cases hd; exact hcd rfl
    · rw [hh] at hd; have := he.2.1.symm.trans hd; cases this; exact had rfl
    · rw [hh] at hd; have := he.2.2.symm.trans hd; cases this; exact hbd rfl
  · intro hadj
    refine f.cone e c a b d T1 hadj ⟨?_, v2⟩
    rw [turn_rotate]; exact v1

variable (h : Linked m L) (f : Flat m L pos) (q : QuadAt m L e top a b c d)
include h f q

theorem QuadAt.tri_e : m.Tri3 L e c a b := ⟨q.le, q.e0, q.e1, q.e2⟩
theorem QuadAt.tri_t : m.Tri3 L top d b a := ⟨q.lt, q.t0, q.t1, q.t2⟩

/-- The corners of the new triangle `adc`. -/
theorem cone_new (v1 : 0 < turn (pos d) (pos c) (pos a)) (v2 : 0 < turn (pos c) (pos d) (pos b)) (w : Nat) :
    (m.Adj L a w → w ≠ b → ¬ (0 < turn (pos a) (pos d) (pos w) ∧ 0 < turn (pos a) (pos w) (pos c))) ∧
    (m.Adj L d w → ¬ (0 < turn (pos d) (pos c) (pos w) ∧ 0 < turn (pos d) (pos w) (pos a))) ∧
    (m.Adj L c w → ¬ (0 < turn (pos c) (pos a) (pos w) ∧ 0 < turn (pos c) (pos w) (pos d))) := by
  have T1 := q.tri_e h f
  have T2 := q.tri_t h f
  have T1a : m.Tri3 L (lnext e) a b c := tri3_iff.2 ⟨q.le, q.e1, by rw [lnext_lnext]; exact q.e2, by rw [lprev_lnext]; exact q.e0⟩
  have T2a : m.Tri3 L (lprev top) a d b := tri3_iff.2 ⟨q.lt, q.t2, by rw [lnext_lprev]; exact q.t0, by rw [lprev_lprev]; exact q.t1⟩
  have c1 := f.ccw _ _ _ _ T1
  have c2 := f.ccw _ _ _ _ T2
  refine ⟨?_, ?_, ?_⟩
  · rintro hw hb ⟨w1, w2⟩
    rcases lt_trichotomy (turn (pos a) (pos b) (pos w)) 0 with ht | ht | ht
    · exact f.cone _ _ _ _ w T2a hw ⟨w1, by rw [turn_anti]; linarith⟩
    · have hadb : 0 < turn (pos a) (pos d) (pos b) := f.ccw _ _ _ _ T2a
      have := ray1 ht w1 hadb
      exact hb (f.rays a b w ⟨e, Or.inl (Tri3.dirs T1).1⟩ hw ht this).symm
    · exact f.cone _ _ _ _ w T1a hw ⟨ht, w2⟩
  · rintro hw ⟨w1, w2⟩
    refine f.cone _ _ _ _ w T2 hw ⟨?_, w2⟩
    refine cone1 (C := pos c) (A := pos a) v1 ?_ c2 w1 w2
    have : turn (pos d) (pos b) (pos c) = turn (pos c) (pos d) (pos b) := by simp only [turn]; ring
    rw [this]; exact v2
  · rintro hw ⟨w1, w2⟩
    refine f.cone _ _ _ _ w T1 hw ⟨w1, ?_⟩
    refine cone2 (D := pos d) (A := pos a) ?_ v2 c1 w1 w2
    rw [turn_rotate]; exact v1

/-- The new edge does not run into another triangle. -/
theorem cone_old (v1 : 0 < turn (pos d) (pos c) (pos a)) (v2 : 0 < turn (pos c) (pos d) (pos b)) {x : Otri} {a' b' : Nat}
    (hx : m.Tri3 L x c a' b') (hne : x.1 ≠ e.1) :
    ¬ (0 < turn (pos c) (pos a') (pos d) ∧ 0 < turn (pos c) (pos d) (pos b')) := by
  rintro ⟨w1, w2⟩
  have T1 := q.tri_e h f
  have D1 := Tri3.dirs T1
  have D2 := Tri3.dirs hx
  have v1' : 0 < turn (pos c) (pos a) (pos d) := by rw [turn_rotate]; exact v1
  obtain ⟨s1, s2⟩ := same_start v1' v2 (f.ccw _ _ _ _ T1) w1 w2 (f.ccw _ _ _ _ hx)
    (f.cone _ _ _ _ a' T1 ⟨_, Or.inl D2.2.1⟩) (f.cone _ _ _ _ a hx ⟨_, Or.inl D1.2.1⟩)
  have := f.rays c a a' ⟨_, Or.inl D1.2.1⟩ ⟨_, Or.inl D2.2.1⟩ s1 s2
  subst this
  have := h.once _ _ _ _ D2.2.1 D1.2.1
  exact hne (by have := congrArg Prod.fst this; simpa using this)

/-- No other edge has the direction of the new one. -/
theorem ray_new (v1 : 0 < turn (pos d) (pos c) (pos a)) (v2 : 0 < turn (pos c) (pos d) (pos b)) {w : Nat}
    (hw : m.Adj L c w) (h0 : turn (pos c) (pos d) (pos w) = 0)
    (hp : 0 < ((pos d).x - (pos c).x) * ((pos w).x - (pos c).x) + ((pos d).y - (pos c).y) * ((pos w).y - (pos c).y)) :
    False := by
  have T1 := q.tri_e h f
  have v1' : 0 < turn (pos c) (pos a) (pos d) := by rw [turn_rotate]; exact v1
  refine f.cone _ _ _ _ w T1 hw ⟨?_, ?_⟩
  · have hn := norm_pos (ne_of_gt v1')
    have : ((pos d).x - (pos c).x) ^ 2 * turn (pos c) (pos a) (pos w) + ((pos d).y - (pos c).y) ^ 2 * turn (pos c) (pos a) (pos w) =
        turn (pos c) (pos a) (pos d) * (((pos d).x - (pos c).x) * ((pos w).x - (pos c).x) + ((pos d).y - (pos c).y) * ((pos w).y - (pos c).y)) := by
      simp only [turn] at h0 ⊢
      linear_combination (((pos a).x - (pos c).x) * ((pos d).x - (pos c).x) + ((pos a).y - (pos c).y) * ((pos d).y - (pos c).y)) * h0
    rw [← add_mul] at this
    exact (mul_pos_iff_of_pos_left hn).1 (this ▸ mul_pos v1' hp)
  · have hn := norm_pos (ne_of_gt v1')
    have : ((pos d).x - (pos c).x) ^ 2 * turn (pos c) (pos w) (pos b) + ((pos d).y - (pos c).y) ^ 2 * turn (pos c) (pos w) (pos b) =
        turn (pos c) (pos d) (pos b) * (((pos d).x - (pos c).x) * ((pos w).x - (pos c).x) + ((pos d).y - (pos c).y) * ((pos w).y - (pos c).y)) := by
      simp only [turn] at h0 ⊢
      linear_combination (-(((pos b).x - (pos c).x) * ((pos d).x - (pos c).x) + ((pos b).y - (pos c).y) * ((pos d).y - (pos c).y))) * h0
    rw [← add_mul] at this
    exact (mul_pos_iff_of_pos_left hn).1 (this ▸ mul_pos v2 hp)

omit f in
/-- The edges after the flip. -/
theorem flip_adj {cs : Bool} {v w : Nat} (hvw : (m.flip cs e).Adj L v w) :
    (m.Adj L v w ∧ ¬ (v = a ∧ w = b) ∧ ¬ (v = b ∧ w = a)) ∨ (v = c ∧ w = d) ∨ (v = d ∧ w = c) := by
  have hE : m.Dir L e a b := (Tri3.dirs ⟨q.le, q.e0, q.e1, q.e2⟩).1
  have hT : m.Dir L top b a := (Tri3.dirs ⟨q.lt, q.t0, q.t1, q.t2⟩).1
  have key : ∀ y v w, (m.flip cs e).Dir L y v w →
      (m.Adj L v w ∧ ¬ (v = a ∧ w = b) ∧ ¬ (v = b ∧ w = a)) ∨ (v = c ∧ w = d) ∨ (v = d ∧ w = c) := by
    intro y v w hy
    rw [flip_dir h q] at hy
    rcases hy with ⟨-, rfl, rfl⟩ | ⟨-, rfl, rfl⟩ | ⟨y1, y2, hy⟩
    · simp
    · simp
    · refine Or.inl ⟨⟨_, Or.inl hy⟩, ?_, ?_⟩
      · rintro ⟨rfl, rfl⟩
        exact cyc_ne' h q (Or.inl rfl) y1 (h.once _ _ _ _ hy hE)
      · rintro ⟨rfl, rfl⟩
        exact cyc_ne' h q (Or.inr rfl) y2 (h.once _ _ _ _ hy hT)
  obtain ⟨y, hy | hy⟩ := hvw
  · exact key y v w hy
  · rcases key y w v hy with ⟨⟨x, hx⟩, k1, k2⟩ | ⟨rfl, rfl⟩ | ⟨rfl, rfl⟩
    · exact Or.inl ⟨⟨x, hx.symm⟩, fun h => k2 ⟨h.2, h.1⟩, fun h => k1 ⟨h.2, h.1⟩⟩
    · simp
    · simp

omit f in
/-- The triangles after the flip. -/
theorem flip_tri {cs : Bool} {x : Otri} {v A B : Nat} (hx : (m.flip cs e).Tri3 L x v A B) :
    (m.Tri3 L x v A B ∧ x.1 ≠ e.1 ∧ x.1 ≠ top.1) ∨
    (v = a ∧ A = d ∧ B = c) ∨ (v = d ∧ A = c ∧ B = a) ∨ (v = c ∧ A = a ∧ B = d) ∨
    (v = b ∧ A = c ∧ B = d) ∨ (v = c ∧ A = d ∧ B = b) ∨ (v = d ∧ A = b ∧ B = c) := by
  obtain ⟨c1, c2, c3, c4, c5, c6, c7⟩ := flip_corner h q cs
  rw [tri3_iff] at hx
  obtain ⟨x1, x2, x3, x4⟩ := hx
  by_cases he : x.1 = e.1
  · right
    rcases handle_cases e x he with rfl | rfl | rfl
    · rw [c1] at x2; rw [c2] at x3; rw [c3] at x4; cases x2; cases x3; cases x4; simp
    · rw [lnext_lnext, c3] at x3; rw [lprev_lnext, c1] at x4; rw [c2] at x2; cases x2; cases x3; cases x4; simp
    · rw [lnext_lprev, c1] at x3; rw [lprev_lprev, c2] at x4; rw [c3] at x2; cases x2; cases x3; cases x4; simp
  · by_cases ht : x.1 = top.1
    · right
      rcases handle_cases top x ht with rfl | rfl | rfl
      · rw [c4] at x2; rw [c5] at x3; rw [c6] at x4; cases x2; cases x3; cases x4; simp
      · rw [lnext_lnext, c6] at x3; rw [lprev_lnext, c4] at x4; rw [c5] at x2; cases x2; cases x3; cases x4; simp
      · rw [lnext_lprev, c4] at x3; rw [lprev_lprev, c5] at x4; rw [c6] at x2; cases x2; cases x3; cases x4; simp
    · left
      rw [c7 _ he ht] at x2
      rw [c7 (lnext x) he ht] at x3
      rw [c7 (lprev x) he ht] at x4
      exact ⟨⟨x1, x2, x3, x4⟩, he, ht⟩

/-- A flip keeps the triangulation flat. -/
theorem flip_flat (cs : Bool) (v1 : 0 < turn (pos d) (pos c) (pos a)) (v2 : 0 < turn (pos c) (pos d) (pos b)) :
    Flat (m.flip cs e) L pos where
  ccw := by
    intro x v A B hx
    have r : ∀ p q r : Pt K, turn q r p = turn p q r := turn_rotate
    rcases flip_tri h q hx with ⟨hx, -, -⟩ | ⟨rfl, rfl, rfl⟩ | ⟨rfl, rfl, rfl⟩ | ⟨rfl, rfl, rfl⟩ | ⟨rfl, rfl, rfl⟩ |
      ⟨rfl, rfl, rfl⟩ | ⟨rfl, rfl, rfl⟩
    · exact f.ccw _ _ _ _ hx
    · rw [← r]; exact v1
    · exact v1
    · rw [r]; exact v1
    · rw [← r]; exact v2
    · exact v2
    · rw [r]; exact v2
  cone := by
    intro x v A B w hx hw
    have zz : ∀ p q : Pt K, ¬ (0 < turn p q q) := by intro p q; simp only [turn]; rw [not_lt]; exact le_of_eq (by ring)
    have N1 := fun w => cone_new h f q v1 v2 w
    have N2 := fun w => cone_new h f q.symm v2 v1 w
    rcases flip_adj h q hw with ⟨hw, n1, n2⟩ | ⟨rfl, rfl⟩ | ⟨rfl, rfl⟩
    · rcases flip_tri h q hx with ⟨hx, -, -⟩ | ⟨rfl, rfl, rfl⟩ | ⟨rfl, rfl, rfl⟩ | ⟨rfl, rfl, rfl⟩ | ⟨rfl, rfl, rfl⟩ |
        ⟨rfl, rfl, rfl⟩ | ⟨rfl, rfl, rfl⟩
      · exact f.cone _ _ _ _ _ hx hw
      · exact (N1 w).1 hw (fun hb => n1 ⟨rfl, hb⟩)
      · exact (N1 w).2.1 hw
      · exact (N1 w).2.2 hw
      · exact (N2 w).1 hw (fun hb => n2 ⟨rfl, hb⟩)
      · exact (N2 w).2.1 hw
      · exact (N2 w).2.2 hw
    · rcases flip_tri h q hx with ⟨hx, k1, k2⟩ | ⟨h1, h2, h3⟩ | ⟨h1, h2, h3⟩ | ⟨h1, h2, h3⟩ | ⟨h1, h2, h3⟩ |
        ⟨h1, h2, h3⟩ | ⟨h1, h2, h3⟩
      · exact cone_old h f q v1 v2 hx k1
      · exact absurd h1 q.ac.symm
      · exact absurd h1 q.cd
      · rw [h3]; exact fun k => zz _ _ k.2
      · exact absurd h1 q.bc.symm
      · rw [h2]; exact fun k => zz _ _ k.1
      · exact absurd h1 q.cd
    · rcases flip_tri h q hx with ⟨hx, k1, k2⟩ | ⟨h1, h2, h3⟩ | ⟨h1, h2, h3⟩ | ⟨h1, h2, h3⟩ | ⟨h1, h2, h3⟩ |
        ⟨h1, h2, h3⟩ | ⟨h1, h2, h3⟩
      · exact cone_old h f q.symm v2 v1 hx k2
      · exact absurd h1 q.ad.symm
      · rw [h2]; exact fun k => zz _ _ k.1
      · exact absurd h1 q.cd.symm
      · exact absurd h1 q.bd.symm
      · exact absurd h1 q.cd.symm
      · rw [h3]; exact fun k => zz _ _ k.2
  rays := by
    intro v w w' hw hw' h0 hp
    have sw : ∀ p q r : Pt K, turn p q r = 0 → turn p r q = 0 := by
      intro p q r hh; rw [turn_anti, hh, neg_zero]
    rcases flip_adj h q hw with ⟨hw, -, -⟩ | ⟨rfl, rfl⟩ | ⟨rfl, rfl⟩ <;>
      rcases flip_adj h q hw' with ⟨hw', -, -⟩ | ⟨h1, rfl⟩ | ⟨h1, rfl⟩
    · exact f.rays _ _ _ hw hw' h0 hp
    · subst h1
      exact (ray_new h f q v1 v2 hw (sw _ _ _ h0) (by linarith)).elim
    · subst h1
      exact (ray_new h f q.symm v2 v1 hw (sw _ _ _ h0) (by linarith)).elim
    · exact (ray_new h f q v1 v2 hw' h0 hp).elim
    · rfl
    · exact absurd h1 q.cd
    · exact (ray_new h f q.symm v2 v1 hw' h0 hp).elim
    · exact absurd h1.symm q.cd
    · rfl
end

end Delynoi.Tri
