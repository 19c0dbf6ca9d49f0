import Mathlib.Algebra.Order.Field.Basic
import Mathlib.Tactic.Ring
import Mathlib.Tactic.LinearCombination
import Mathlib.Tactic.Linarith
import Mathlib.Tactic.Positivity
import Verif.Model.Point
/-!
Helper lemmas: circles through a point `v` and the points of a fan around it.  All coordinates are
relative to `v`; a circle through `v` is given by its center.
-/
set_option linter.unusedSectionVars false
namespace Delynoi
variable {K : Type} [Field K] [LinearOrder K] [IsStrictOrderedRing K]

/-- Cross product of vectors. -/
def cr (a b : Pt K) : K := a.x * b.y - a.y * b.x

/-- Scalar product. -/
def dt (a b : Pt K) : K := a.x * b.x + a.y * b.y

/-- Power of the point `y` with respect to the circle through the origin with center `c`. -/
def pw (c y : Pt K) : K := dt y y - 2 * dt c y

theorem cr_self (a : Pt K) : cr a a = 0 := by unfold cr; ring

theorem cr_swap (a b : Pt K) : cr a b = -cr b a := by unfold cr; ring

theorem dt_pos {a : Pt K} (h : a ≠ ⟨0, 0⟩) : 0 < dt a a := by
  unfold dt
  by_cases hx : a.x = 0
  · by_cases hy : a.y = 0
    · exact absurd (Pt.ext hx hy) h
    · have : 0 < a.y * a.y := mul_self_pos.2 hy
      have : 0 ≤ a.x * a.x := mul_self_nonneg _
      linarith
  · have : 0 < a.x * a.x := mul_self_pos.2 hx
    have : 0 ≤ a.y * a.y := mul_self_nonneg _
    linarith

theorem ne_zero_of_cr {a b : Pt K} (h : cr a b ≠ 0) : a ≠ ⟨0, 0⟩ := by
  rintro rfl; apply h; unfold cr; simp

/-- Two circles through the origin and a common point `a`, and two points `b`, `t` on the same side
of the line through `a`: if `b` lies on the second circle and not inside the first, and `t` on the
first and not inside the second, then the circles are equal. -/
theorem center_eq {c c' a b t : Pt K} (h1 : pw c a = 0) (h2 : pw c' a = 0) (h3 : 0 ≤ pw c b)
    (h4 : pw c' b = 0) (h5 : pw c t = 0) (h6 : 0 ≤ pw c' t) (h : 0 < cr a b * cr a t) : c' = c := by
  have ha : a ≠ ⟨0, 0⟩ := ne_zero_of_cr (by rintro h0; rw [h0] at h; simp at h)
  have hb : cr a b ≠ 0 := by rintro h0; rw [h0] at h; simp at h
  have hd := dt_pos ha
  -- the difference of the centers is orthogonal to a
  have e1 : dt ⟨c'.x - c.x, c'.y - c.y⟩ a = 0 := by
    unfold pw at h1 h2
    unfold dt at h1 h2 ⊢
    simp only
    linear_combination (h1 - h2) / 2
  -- hence it is a multiple of a rotated
  have e2 : ∀ y : Pt K, dt a a * dt ⟨c'.x - c.x, c'.y - c.y⟩ y =
      cr a ⟨c'.x - c.x, c'.y - c.y⟩ * cr a y := by
    intro y
    unfold dt at e1 ⊢
    unfold cr
    simp only at e1 ⊢
    linear_combination (a.x * y.x + a.y * y.y) * e1
  have f1 : 0 ≤ dt ⟨c'.x - c.x, c'.y - c.y⟩ b := by
    have : 2 * dt ⟨c'.x - c.x, c'.y - c.y⟩ b = pw c b - pw c' b := by unfold pw dt; ring
    rw [h4] at this; linarith
  have f2 : dt ⟨c'.x - c.x, c'.y - c.y⟩ t ≤ 0 := by
    have : 2 * dt ⟨c'.x - c.x, c'.y - c.y⟩ t = pw c t - pw c' t := by unfold pw dt; ring
    rw [h5] at this; linarith
  have g1 : 0 ≤ cr a ⟨c'.x - c.x, c'.y - c.y⟩ * cr a b := by
    rw [← e2]; exact mul_nonneg hd.le f1
  have g2 : cr a ⟨c'.x - c.x, c'.y - c.y⟩ * cr a t ≤ 0 := by
    rw [← e2]; exact mul_nonpos_of_nonneg_of_nonpos hd.le f2
  have g3 : cr a ⟨c'.x - c.x, c'.y - c.y⟩ = 0 := by
    have h7 : (cr a ⟨c'.x - c.x, c'.y - c.y⟩ * cr a b) * (cr a ⟨c'.x - c.x, c'.y - c.y⟩ * cr a t) ≤ 0 :=
      mul_nonpos_of_nonneg_of_nonpos g1 g2
    have h8 : (cr a ⟨c'.x - c.x, c'.y - c.y⟩) ^ 2 * (cr a b * cr a t) ≤ 0 := by
      calc _ = _ := by ring
        _ ≤ 0 := h7
    by_contra hne
    have : 0 < (cr a ⟨c'.x - c.x, c'.y - c.y⟩) ^ 2 := by positivity
    have := mul_pos this h
    linarith
  have k1 : dt a a * (c'.x - c.x) = 0 := by
    have := e2 ⟨1, 0⟩
    rw [g3] at this
    unfold dt at this ⊢
    simp only at this
    linear_combination this
  have k2 : dt a a * (c'.y - c.y) = 0 := by
    have := e2 ⟨0, 1⟩
    rw [g3] at this
    unfold dt at this ⊢
    simp only at this
    linear_combination this
  refine Pt.ext ?_ ?_
  · rcases mul_eq_zero.1 k1 with h' | h'
    · exact absurd h' hd.ne'
    · linarith
  · rcases mul_eq_zero.1 k2 with h' | h'
    · exact absurd h' hd.ne'
    · linarith

/-- Two points of a circle through the origin in the same direction are equal. -/
theorem on_circle_eq {c a b : Pt K} (h1 : pw c a = 0) (h2 : pw c b = 0) (ha : a ≠ ⟨0, 0⟩)
    (hb : b ≠ ⟨0, 0⟩) (h : cr a b = 0) : a = b := by
  have da := dt_pos ha
  have db := dt_pos hb
  unfold pw at h1 h2
  have e1 : 2 * dt c a = dt a a := by linarith
  have e2 : 2 * dt c b = dt b b := by linarith
  -- dt a a * b = dt a b * a
  have px : dt a a * b.x = dt a b * a.x := by
    unfold dt; unfold cr at h; linear_combination (-a.y) * h
  have py : dt a a * b.y = dt a b * a.y := by
    unfold dt; unfold cr at h; linear_combination a.x * h
  have k1 : dt a a * dt b b = dt a b * dt a a := by
    rw [← e2]
    have : dt a a * (2 * dt c b) = dt a b * (2 * dt c a) := by
      unfold dt at px py ⊢
      linear_combination 2 * c.x * px + 2 * c.y * py
    rw [this, e1]
  have k2 : dt b b = dt a b := by
    have : dt a a * (dt b b - dt a b) = 0 := by rw [mul_sub, k1]; ring
    rcases mul_eq_zero.1 this with h' | h'
    · exact absurd h' da.ne'
    · linarith
  have k3 : dt a a = dt a b := by
    -- symmetric
    have qx : dt b b * a.x = dt a b * b.x := by
      unfold dt; unfold cr at h; linear_combination b.y * h
    have qy : dt b b * a.y = dt a b * b.y := by
      unfold dt; unfold cr at h; linear_combination (-b.x) * h
    have k1' : dt b b * dt a a = dt a b * dt b b := by
      rw [← e1]
      have : dt b b * (2 * dt c a) = dt a b * (2 * dt c b) := by
        unfold dt at qx qy ⊢
        linear_combination 2 * c.x * qx + 2 * c.y * qy
      rw [this, e2]
    have : dt b b * (dt a a - dt a b) = 0 := by rw [mul_sub, k1']; ring
    rcases mul_eq_zero.1 this with h' | h'
    · exact absurd h' db.ne'
    · linarith
  refine Pt.ext ?_ ?_
  · have : dt a a * (a.x - b.x) = 0 := by rw [mul_sub, px, k3]; ring
    rcases mul_eq_zero.1 this with h' | h'
    · exact absurd h' da.ne'
    · linarith
  · have : dt a a * (a.y - b.y) = 0 := by rw [mul_sub, py, k3]; ring
    rcases mul_eq_zero.1 this with h' | h'
    · exact absurd h' da.ne'
    · linarith

/-- A fan of `k` triangles around the origin with outer points `a 0 … a k` and centers `x 0 … x (k-1)`;
`e` is `1` for counter-clockwise order and `-1` for clockwise order. -/
structure GFan (e : K) (k : Nat) (a x : Nat → Pt K) : Prop where
  sgn : e = 1 ∨ e = -1
  pos : ∀ i < k, 0 < e * cr (a i) (a (i + 1))
  c0 : ∀ i < k, pw (x i) (a i) = 0
  c1 : ∀ i < k, pw (x i) (a (i + 1)) = 0
  emp : ∀ i < k, ∀ j ≤ k, 0 ≤ pw (x i) (a j)
  nov : ∀ i < k, ∀ j ≤ k, ¬ (0 < e * cr (a i) (a j) ∧ 0 < e * cr (a j) (a (i + 1)))
  inj : ∀ i j, i < j → j ≤ k → a i = a j → i = 0 ∧ j = k

namespace GFan
variable {e : K} {k : Nat} {a x : Nat → Pt K}

theorem ne_zero (h : GFan e k a x) (hk : 0 < k) {i : Nat} (hi : i ≤ k) : a i ≠ ⟨0, 0⟩ := by
  rcases Nat.lt_or_ge i k with hlt | hge
  · refine ne_zero_of_cr (b := a (i + 1)) ?_
    intro h0
    have := h.pos i hlt
    rw [h0] at this; simp at this
  · have : i = (k - 1) + 1 := by omega
    rw [this]
    refine ne_zero_of_cr (b := a (k - 1)) ?_
    intro h0
    have := h.pos (k - 1) (by omega)
    rw [cr_swap, h0] at this; simp at this

/-- One step along an empty circle with center `c`. -/
theorem step (h : GFan e k a x) {c : Pt K} (hc : ∀ j ≤ k, 0 ≤ pw c (a j)) {i t : Nat} (hi : i < k)
    (ht : t ≤ k) (h1 : pw c (a i) = 0) (h2 : pw c (a t) = 0) (h3 : 0 < e * cr (a i) (a t)) :
    x i = c ∧ pw c (a (i + 1)) = 0 ∧ (a (i + 1) = a t ∨ 0 < e * cr (a (i + 1)) (a t)) := by
  have hx : x i = c := by
    refine center_eq h1 (h.c0 i hi) (hc (i + 1) (by omega)) (h.c1 i hi) h2 (h.emp i hi t ht) ?_
    have := mul_pos (h.pos i hi) h3
    have he : e * e = 1 := by rcases h.sgn with rfl | rfl <;> ring
    calc 0 < (e * cr (a i) (a (i + 1))) * (e * cr (a i) (a t)) := this
      _ = (e * e) * (cr (a i) (a (i + 1)) * cr (a i) (a t)) := by ring
      _ = _ := by rw [he, one_mul]
  have hp : pw c (a (i + 1)) = 0 := by rw [← hx]; exact h.c1 i hi
  refine ⟨hx, hp, ?_⟩
  have hnov := h.nov i hi t ht
  have hle : ¬ 0 < e * cr (a t) (a (i + 1)) := fun hh => hnov ⟨h3, hh⟩
  have hge : 0 ≤ e * cr (a (i + 1)) (a t) := by
    rw [cr_swap] at hle
    have : e * -cr (a (i + 1)) (a t) = -(e * cr (a (i + 1)) (a t)) := by ring
    rw [this] at hle
    linarith
  rcases hge.lt_or_eq with hlt | heq
  · exact Or.inr hlt
  · left
    have h0 : cr (a (i + 1)) (a t) = 0 := by
      rcases mul_eq_zero.1 heq.symm with h' | h'
      · rcases h.sgn with rfl | rfl <;> simp at h'
      · exact h'
    exact on_circle_eq hp h2 (h.ne_zero (by omega) (by omega)) (h.ne_zero (by omega) ht) h0

/-- Several steps along an empty circle with center `c`, as long as the target is not reached. -/
theorem run (h : GFan e k a x) {c : Pt K} (hc : ∀ j ≤ k, 0 ≤ pw c (a j)) {i t : Nat}
    (ht : t ≤ k) (h1 : pw c (a i) = 0) (h2 : pw c (a t) = 0) (h3 : 0 < e * cr (a i) (a t)) :
    ∀ n, i + n ≤ k → (∀ s, 0 < s → s ≤ n → a (i + s) ≠ a t) →
      pw c (a (i + n)) = 0 ∧ 0 < e * cr (a (i + n)) (a t) ∧ ∀ s < n, x (i + s) = c := by
  intro n
  induction n with
  | zero => intro _ _; exact ⟨h1, h3, fun s hs => absurd hs (by omega)⟩
  | succ n ih =>
    intro hn hne
    obtain ⟨g1, g2, g3⟩ := ih (by omega) (fun s hs hs' => hne s hs (by omega))
    obtain ⟨s1, s2, s3⟩ := h.step hc (i := i + n) (by omega) ht g1 h2 g2
    refine ⟨s2, ?_, ?_⟩
    · rcases s3 with s3 | s3
      · exact absurd s3 (hne (n + 1) (by omega) (by omega))
      · exact s3
    · intro s hs
      rcases Nat.lt_or_ge s n with hlt | hge
      · exact g3 s hlt
      · have : s = n := by omega
        rw [this]; exact s1

/-- If two points lie on an empty circle and the second is ahead, all circles between are that
circle. -/
theorem between (h : GFan e k a x) {c : Pt K} (hc : ∀ j ≤ k, 0 ≤ pw c (a j)) {i t : Nat} (hit : i < t)
    (ht : t ≤ k) (h1 : pw c (a i) = 0) (h2 : pw c (a t) = 0) (h3 : 0 < e * cr (a i) (a t)) :
    ∀ l, i ≤ l → l < t → x l = c := by
  obtain ⟨g1, g2, g3⟩ := h.run hc ht h1 h2 h3 (t - i - 1) (by omega) (by
    intro s hs hs' heq
    have := h.inj (i + s) t (by omega) ht heq
    omega)
  have e1 : i + (t - i - 1) = t - 1 := by omega
  rw [e1] at g1 g2
  obtain ⟨s1, _, _⟩ := h.step hc (i := t - 1) (by omega) ht g1 h2 g2
  intro l hl hl'
  rcases Nat.lt_or_ge l (t - 1) with hlt | hge
  · have := g3 (l - i) (by omega)
    rwa [show i + (l - i) = l by omega] at this
  · have : l = t - 1 := by omega
    rw [this]; exact s1

/-- The same when the target is behind and the fan is open: the circle is that of the last triangle. -/
theorem toEnd (h : GFan e k a x) (hopen : a 0 ≠ a k) {c : Pt K} (hc : ∀ j ≤ k, 0 ≤ pw c (a j))
    {i t : Nat} (hti : t ≤ i) (hi : i ≤ k) (h1 : pw c (a i) = 0) (h2 : pw c (a t) = 0)
    (h3 : 0 < e * cr (a i) (a t)) :
    pw c (a k) = 0 ∧ 0 < e * cr (a k) (a t) ∧ ∀ l, i ≤ l → l < k → x l = c := by
  obtain ⟨g1, g2, g3⟩ := h.run hc (by omega) h1 h2 h3 (k - i) (by omega) (by
    intro s hs hs' heq
    obtain ⟨e1, e2⟩ := h.inj t (i + s) (by omega) (by omega) heq.symm
    rw [e1, e2] at heq
    exact hopen heq.symm)
  rw [show i + (k - i) = k by omega] at g1 g2
  refine ⟨g1, g2, fun l hl hl' => ?_⟩
  have := g3 (l - i) (by omega)
  rwa [show i + (l - i) = l by omega] at this

/-- The fan in the other direction. -/
theorem rev (h : GFan e k a x) : GFan (-e) k (fun i => a (k - i)) (fun i => x (k - 1 - i)) where
  sgn := by rcases h.sgn with rfl | rfl <;> simp
  pos := by
    intro i hi
    have := h.pos (k - 1 - i) (by omega)
    rw [show k - 1 - i + 1 = k - i by omega] at this
    show 0 < -e * cr (a (k - i)) (a (k - (i + 1)))
    rw [show k - (i + 1) = k - 1 - i by omega, cr_swap]
    calc 0 < e * cr (a (k - 1 - i)) (a (k - i)) := this
      _ = _ := by ring
  c0 := by
    intro i hi
    have := h.c1 (k - 1 - i) (by omega)
    rwa [show k - 1 - i + 1 = k - i by omega] at this
  c1 := by
    intro i hi
    have := h.c0 (k - 1 - i) (by omega)
    show pw (x (k - 1 - i)) (a (k - (i + 1))) = 0
    rwa [show k - (i + 1) = k - 1 - i by omega]
  emp := fun i hi j hj => h.emp (k - 1 - i) (by omega) (k - j) (by omega)
  nov := by
    rintro i hi j hj ⟨h1, h2⟩
    apply h.nov (k - 1 - i) (by omega) (k - j) (by omega)
    rw [show k - (i + 1) = k - 1 - i by omega] at h2
    rw [show k - 1 - i + 1 = k - i by omega]
    rw [cr_swap] at h1 h2
    constructor
    · calc 0 < _ := h2
        _ = _ := by ring
    · calc 0 < _ := h1
        _ = _ := by ring
  inj := by
    intro i j hij hj heq
    have := h.inj (k - j) (k - i) (by omega) (by omega) heq.symm
    omega

/-- Half of a vector: the middle of the edge to it. -/
theorem pw_half (a : Pt K) : pw (⟨a.x / 2, a.y / 2⟩ : Pt K) a = 0 := by unfold pw dt; ring

theorem sign_cases (h : GFan e k a x) {u w : Pt K} :
    0 < e * cr u w ∨ cr u w = 0 ∨ 0 < e * cr w u := by
  rcases lt_trichotomy (cr u w) 0 with h1 | h1 | h1
  · rcases h.sgn with rfl | rfl
    · right; right; rw [cr_swap]; linarith
    · left; linarith
  · exact Or.inr (Or.inl h1)
  · rcases h.sgn with rfl | rfl
    · left; linarith
    · right; right; rw [cr_swap]; linarith

theorem not_pos (h : GFan e k a x) {u w : Pt K} (hn : ¬ 0 < e * cr u w) :
    cr w u = 0 ∨ 0 < e * cr w u := by
  rcases h.sign_cases (u := u) (w := w) with h1 | h1 | h1
  · exact absurd h1 hn
  · left; rw [cr_swap, h1, neg_zero]
  · exact Or.inr h1

/-- If the first edge is not encroached, the center of the first triangle is on its side. -/
theorem startSide (h : GFan e k a x) (hk : 0 < k)
    (h0 : ∀ j ≤ k, 0 ≤ pw (⟨(a 0).x / 2, (a 0).y / 2⟩ : Pt K) (a j)) : 0 ≤ e * cr (a 0) (x 0) := by
  have hd := dt_pos (h.ne_zero hk (Nat.zero_le k))
  have e1 := h.c0 0 hk
  have e2 := h.c1 0 hk
  have e3 := h0 1 (by omega)
  have e4 := h.pos 0 hk
  simp only [Nat.zero_add] at e2 e4
  have key : 2 * dt (a 0) (a 0) * (pw (⟨(a 0).x / 2, (a 0).y / 2⟩ : Pt K) (a 1) - pw (x 0) (a 1)) =
      4 * (cr (a 0) (x 0) * cr (a 0) (a 1)) - 2 * pw (x 0) (a 0) * dt (a 0) (a 1) := by
    unfold pw dt cr; ring
  rw [e1, e2] at key
  have e5 : 0 ≤ cr (a 0) (x 0) * cr (a 0) (a 1) := by
    have := mul_nonneg hd.le e3
    linarith
  by_contra hn
  push Not at hn
  have := mul_neg_of_neg_of_pos hn e4
  have he : e * e = 1 := by rcases h.sgn with rfl | rfl <;> ring
  have e6 : e * cr (a 0) (x 0) * (e * cr (a 0) (a 1)) = (e * e) * (cr (a 0) (x 0) * cr (a 0) (a 1)) := by ring
  rw [e6, he, one_mul] at this
  linarith

/-- If the last edge is not encroached, the center of the last triangle is on its side. -/
theorem endSide (h : GFan e k a x) (hk : 0 < k)
    (h0 : ∀ j ≤ k, 0 ≤ pw (⟨(a k).x / 2, (a k).y / 2⟩ : Pt K) (a j)) :
    0 ≤ e * cr (x (k - 1)) (a k) := by
  have := h.rev.startSide hk (fun j hj => h0 (k - j) (by omega))
  simp only [Nat.sub_zero] at this
  rw [cr_swap]
  calc 0 ≤ _ := this
    _ = _ := by ring

/-- Open fan: centers that agree agree in between. -/
theorem open_interval (h : GFan e k a x) (hopen : a 0 ≠ a k)
    (h0 : ∀ j ≤ k, 0 ≤ pw (⟨(a 0).x / 2, (a 0).y / 2⟩ : Pt K) (a j))
    (h1 : ∀ j ≤ k, 0 ≤ pw (⟨(a k).x / 2, (a k).y / 2⟩ : Pt K) (a j))
    {i j : Nat} (hij : i < j) (hj : j < k) (hx : x i = x j) : ∀ l, i ≤ l → l ≤ j → x l = x i := by
  have hc := h.emp i (by omega)
  have p1 := h.c0 i (by omega)
  have p2 := h.c1 i (by omega)
  have p3 : pw (x i) (a j) = 0 := by rw [hx]; exact h.c0 j hj
  have p4 : pw (x i) (a (j + 1)) = 0 := by rw [hx]; exact h.c1 j hj
  have z : ∀ {n}, n ≤ k → a n ≠ ⟨0, 0⟩ := fun hn => h.ne_zero (by omega) hn
  by_cases hji : j = i + 1
  · intro l hl hl'
    rcases Nat.lt_or_ge i l with hlt | hge
    · rw [show l = j by omega, hx]
    · rw [show l = i by omega]
  rcases h.sign_cases (u := a (i + 1)) (w := a j) with hs | hs | hs
  · have := h.between hc (i := i + 1) (t := j) (by omega) (by omega) p2 p3 hs
    intro l hl hl'
    rcases Nat.lt_or_ge i l with hlt | hge
    · rcases Nat.lt_or_ge l j with hlt' | hge'
      · exact this l (by omega) hlt'
      · rw [show l = j by omega, hx]
    · rw [show l = i by omega]
  · have := on_circle_eq p2 p3 (z (by omega)) (z (by omega)) hs
    have := h.inj (i + 1) j (by omega) (by omega) this
    omega
  · exfalso
    have q1 : 0 < e * cr (a j) (a i) := by
      rcases h.not_pos (fun hh => h.nov i (by omega) j (by omega) ⟨hh, hs⟩) with hh | hh
      · have := on_circle_eq p3 p1 (z (by omega)) (z (by omega)) hh
        have := h.inj i j (by omega) (by omega) this.symm
        omega
      · exact hh
    have q2 : 0 < e * cr (a (j + 1)) (a i) := by
      rcases h.not_pos (fun hh => h.nov j (by omega) i (by omega) ⟨q1, hh⟩) with hh | hh
      · have := on_circle_eq p4 p1 (z (by omega)) (z (by omega)) hh
        obtain ⟨e1, e2⟩ := h.inj i (j + 1) (by omega) (by omega) this.symm
        rw [e1, e2] at this
        exact absurd this.symm hopen
      · exact hh
    obtain ⟨r1, r2, r3⟩ := h.toEnd hopen hc (i := j + 1) (t := i) (by omega) (by omega) p4 p1 q2
    have xk : x (k - 1) = x i := by
      rcases Nat.lt_or_ge (j + 1) k with hlt | hge
      · exact r3 (k - 1) (by omega) (by omega)
      · rw [show k - 1 = j by omega, hx]
    have hc' : ∀ s ≤ k, 0 ≤ pw (x i) (a (k - s)) := fun s _ => hc (k - s) (by omega)
    obtain ⟨s1, s2, s3⟩ := h.rev.toEnd (by simpa using hopen.symm) hc' (i := k - i) (t := 0) (by omega)
      (by omega) (by rw [show k - (k - i) = i by omega]; exact p1) (by simpa using r1) (by
        simp only [Nat.sub_zero]
        rw [show k - (k - i) = i by omega, cr_swap]
        calc 0 < _ := r2
          _ = _ := by ring)
    simp only [Nat.sub_self, Nat.sub_zero] at s1 s2
    have x0 : x 0 = x i := by
      rcases Nat.eq_zero_or_pos i with hi | hi
      · rw [hi]
      · have := s3 (k - 1) (by omega) (by omega)
        rwa [show k - 1 - (k - 1) = 0 by omega] at this
    have t1 := h.startSide (by omega) h0
    have t2 := h.endSide (by omega) h1
    rw [x0] at t1
    rw [xk] at t2
    have d0 : 0 < dt (x i) (a 0) := by
      have := dt_pos (z (Nat.zero_le k))
      unfold pw at s1
      linarith
    have dk : 0 < dt (x i) (a k) := by
      have := dt_pos (z (le_refl k))
      unfold pw at r1
      linarith
    have dc : 0 ≤ dt (x i) (x i) := by
      unfold dt
      have := mul_self_nonneg (x i).x
      have := mul_self_nonneg (x i).y
      linarith
    have dc' : 0 < dt (x i) (x i) := by
      refine dt_pos ?_
      intro h0'
      rw [h0'] at d0
      unfold dt at d0; simp at d0
    have key : (-e * cr (a 0) (a k)) * dt (x i) (x i) =
        -(dt (x i) (a k) * (e * cr (a 0) (x i))) - dt (x i) (a 0) * (e * cr (x i) (a k)) := by
      unfold dt cr; ring
    have l1 := mul_pos s2 dc'
    have l2 := mul_nonneg dk.le t1
    have l3 := mul_nonneg d0.le t2
    rw [key] at l1
    linarith

/-- Open fan: a center that is the middle of the first edge. -/
theorem open_first (h : GFan e k a x) (hopen : a 0 ≠ a k)
    (h0 : ∀ j ≤ k, 0 ≤ pw (⟨(a 0).x / 2, (a 0).y / 2⟩ : Pt K) (a j))
    (h1 : ∀ j ≤ k, 0 ≤ pw (⟨(a k).x / 2, (a k).y / 2⟩ : Pt K) (a j))
    {l : Nat} (hl : l < k) (hx : x l = ⟨(a 0).x / 2, (a 0).y / 2⟩) : ∀ s ≤ l, x s = x l := by
  have p0 : pw (x l) (a 0) = 0 := by rw [hx]; exact pw_half _
  have p1 := h.c0 l hl
  have p2 := h.c1 l hl
  have hc := h.emp l hl
  have z : ∀ {n}, n ≤ k → a n ≠ ⟨0, 0⟩ := fun hn => h.ne_zero (by omega) hn
  intro s hs
  rcases Nat.eq_zero_or_pos l with hl0 | hl0
  · rw [show s = l by omega]
  rcases h.sign_cases (u := a 0) (w := a l) with hh | hh | hh
  · rcases Nat.lt_or_ge s l with hlt | hge
    · exact h.between hc hl0 (by omega) p0 p1 hh s (by omega) hlt
    · rw [show s = l by omega]
  · have := on_circle_eq p0 p1 (z (by omega)) (z (by omega)) hh
    have := h.inj 0 l hl0 (by omega) this
    omega
  · exfalso
    have q2 : 0 < e * cr (a (l + 1)) (a 0) := by
      rcases h.not_pos (fun h' => h.nov l hl 0 (by omega) ⟨hh, h'⟩) with h' | h'
      · have := on_circle_eq p2 p0 (z (by omega)) (z (by omega)) h'
        obtain ⟨_, e2⟩ := h.inj 0 (l + 1) (by omega) (by omega) this.symm
        rw [e2] at this
        exact absurd this.symm hopen
      · exact h'
    obtain ⟨r1, r2, r3⟩ := h.toEnd hopen hc (i := l + 1) (t := 0) (by omega) (by omega) p2 p0 q2
    have xk : x (k - 1) = x l := by
      rcases Nat.lt_or_ge (l + 1) k with hlt | hge
      · exact r3 (k - 1) (by omega) (by omega)
      · rw [show k - 1 = l by omega]
    have t2 := h.endSide (by omega) h1
    rw [xk, hx] at t2
    have : e * cr (⟨(a 0).x / 2, (a 0).y / 2⟩ : Pt K) (a k) = -(e * cr (a k) (a 0)) / 2 := by
      unfold cr; ring
    rw [this] at t2
    linarith

/-- Open fan: a center that is the middle of the last edge. -/
theorem open_last (h : GFan e k a x) (hopen : a 0 ≠ a k)
    (h0 : ∀ j ≤ k, 0 ≤ pw (⟨(a 0).x / 2, (a 0).y / 2⟩ : Pt K) (a j))
    (h1 : ∀ j ≤ k, 0 ≤ pw (⟨(a k).x / 2, (a k).y / 2⟩ : Pt K) (a j))
    {l : Nat} (hl : l < k) (hx : x l = ⟨(a k).x / 2, (a k).y / 2⟩) :
    ∀ s, l ≤ s → s < k → x s = x l := by
  intro s hs hs'
  have := h.rev.open_first (by simpa using hopen.symm) (fun j hj => by simpa using h1 (k - j) (by omega))
    (fun j hj => by simpa using h0 (k - j) (by omega)) (l := k - 1 - l) (by omega) (by
      simp only [Nat.sub_zero]
      rw [show k - 1 - (k - 1 - l) = l by omega]; exact hx) (k - 1 - s) (by omega)
  rwa [show k - 1 - (k - 1 - s) = s by omega, show k - 1 - (k - 1 - l) = l by omega] at this

/-- Closed fan: centers that agree agree in between, on one of the two ways around. -/
theorem closed_interval (h : GFan e k a x) (hclosed : a 0 = a k) {i j : Nat} (hij : i < j) (hj : j < k)
    (hx : x i = x j) : (∀ l, i ≤ l → l ≤ j → x l = x i) ∨
      ((∀ l ≤ i, x l = x i) ∧ ∀ l, j ≤ l → l < k → x l = x i) := by
  have hc := h.emp i (by omega)
  have p1 := h.c0 i (by omega)
  have p2 := h.c1 i (by omega)
  have p3 : pw (x i) (a j) = 0 := by rw [hx]; exact h.c0 j hj
  have p4 : pw (x i) (a (j + 1)) = 0 := by rw [hx]; exact h.c1 j hj
  have z : ∀ {n}, n ≤ k → a n ≠ ⟨0, 0⟩ := fun hn => h.ne_zero (by omega) hn
  by_cases hji : j = i + 1
  · left
    intro l hl hl'
    rcases Nat.lt_or_ge i l with hlt | hge
    · rw [show l = j by omega, hx]
    · rw [show l = i by omega]
  rcases h.sign_cases (u := a (i + 1)) (w := a j) with hs | hs | hs
  · left
    have := h.between hc (i := i + 1) (t := j) (by omega) (by omega) p2 p3 hs
    intro l hl hl'
    rcases Nat.lt_or_ge i l with hlt | hge
    · rcases Nat.lt_or_ge l j with hlt' | hge'
      · exact this l (by omega) hlt'
      · rw [show l = j by omega, hx]
    · rw [show l = i by omega]
  · have := on_circle_eq p2 p3 (z (by omega)) (z (by omega)) hs
    have := h.inj (i + 1) j (by omega) (by omega) this
    omega
  · right
    have q1 : 0 < e * cr (a j) (a i) := by
      rcases h.not_pos (fun hh => h.nov i (by omega) j (by omega) ⟨hh, hs⟩) with hh | hh
      · have := on_circle_eq p3 p1 (z (by omega)) (z (by omega)) hh
        have := h.inj i j (by omega) (by omega) this.symm
        omega
      · exact hh
    rcases h.not_pos (fun hh => h.nov j (by omega) i (by omega) ⟨q1, hh⟩) with hh | q2
    · have := on_circle_eq p4 p1 (z (by omega)) (z (by omega)) hh
      obtain ⟨e1, e2⟩ := h.inj i (j + 1) (by omega) (by omega) this.symm
      refine ⟨fun l hl => by rw [show l = i by omega], fun l hl hl' => by rw [show l = j by omega, hx]⟩
    · rcases Nat.eq_zero_or_pos i with hi | hi
      · subst hi
        refine ⟨fun l hl => by rw [show l = 0 by omega], fun l hl hl' => ?_⟩
        rcases Nat.lt_or_ge j l with hlt | hge
        · rw [hclosed] at q2 p1
          exact h.between hc (i := j + 1) (t := k) (by omega) (le_refl k) p4 p1 q2 l (by omega) hl'
        · rw [show l = j by omega, hx]
      · obtain ⟨r1, r2, r3⟩ := h.run hc (t := i) (by omega) p4 p1 q2 (k - (j + 1)) (by omega) (by
          intro s hs hs' heq
          have := h.inj i (j + 1 + s) (by omega) (by omega) heq.symm
          omega)
        rw [show j + 1 + (k - (j + 1)) = k by omega, ← hclosed] at r1 r2
        constructor
        · intro l hl
          rcases Nat.lt_or_ge l i with hlt | hge
          · exact h.between hc (i := 0) (t := i) hi (by omega) r1 p1 r2 l (by omega) hlt
          · rw [show l = i by omega]
        · intro l hl hl'
          rcases Nat.lt_or_ge j l with hlt | hge
          · have := r3 (l - (j + 1)) (by omega)
            rwa [show j + 1 + (l - (j + 1)) = l by omega] at this
          · rw [show l = j by omega, hx]

end GFan
end Delynoi
