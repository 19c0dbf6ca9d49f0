import Verif.Proofs.TriEncroach3
import Mathlib.Algebra.Order.Archimedean.Basic
import Mathlib.Tactic.FieldSimp
import Mathlib.Tactic.Positivity
/-! # Encroached subsegments: where they are split -/
set_option linter.unusedSectionVars false
namespace Delynoi.Tri
variable {K : Type} [Field K] [LinearOrder K] [IsStrictOrderedRing K]

theorem doubleUp_spec {len : K} : ∀ (fuel : Nat) (p p' : K), doubleUp len fuel p = some p' → len ≤ 3 * p' ∧ ∃ n : ℕ, p' = p * 2 ^ n := by
  intro fuel
  induction fuel with
  | zero => intro p p' h; simp [doubleUp] at h
  | succ fuel ih =>
    intro p p' h
    simp only [doubleUp] at h
    split_ifs at h with c
    · obtain ⟨h1, n, h2⟩ := ih _ _ h
      exact ⟨h1, n + 1, by rw [h2, pow_succ]; ring⟩
    · cases h
      exact ⟨not_lt.1 c, 0, by simp⟩

theorem halveDown_spec {len : K} : ∀ (fuel : Nat) (p p' : K), halveDown len fuel p = some p' → len ≤ 3 * p →
    len ≤ 3 * p' ∧ 3 / 2 * p' ≤ len ∧ ∃ n : ℕ, p' * 2 ^ n = p := by
  intro fuel
  induction fuel with
  | zero => intro p p' h; simp [halveDown] at h
  | succ fuel ih =>
    intro p p' h h3
    simp only [halveDown] at h
    split_ifs at h with c
    · obtain ⟨h1, h2, n, h4⟩ := ih _ _ h (by linarith)
      exact ⟨h1, h2, n + 1, by rw [pow_succ, ← mul_assoc, h4]; ring⟩
    · cases h
      exact ⟨h3, not_lt.1 c, 0, by simp⟩

theorem doubleUp_ends {len : K} : ∀ (n fuel : Nat) (p : K), len ≤ 3 * (p * 2 ^ n) → n < fuel → ∃ p', doubleUp len fuel p = some p' := by
  intro n
  induction n with
  | zero =>
    intro fuel p h hf
    obtain ⟨fuel, rfl⟩ : ∃ k, fuel = k + 1 := ⟨fuel - 1, by omega⟩
    exact ⟨p, by simp only [doubleUp]; rw [if_neg (by simpa using h)]⟩
  | succ n ih =>
    intro fuel p h hf
    obtain ⟨fuel, rfl⟩ : ∃ k, fuel = k + 1 := ⟨fuel - 1, by omega⟩
    simp only [doubleUp]
    split_ifs
    · exact ih fuel (p * 2) (by rw [pow_succ] at h; linarith) (by omega)
    · exact ⟨p, rfl⟩

theorem halveDown_ends {len : K} : ∀ (n fuel : Nat) (p : K), 3 / 2 * p ≤ len * 2 ^ n → n < fuel → ∃ p', halveDown len fuel p = some p' := by
  intro n
  induction n with
  | zero =>
    intro fuel p h hf
    obtain ⟨fuel, rfl⟩ : ∃ k, fuel = k + 1 := ⟨fuel - 1, by omega⟩
    exact ⟨p, by simp only [halveDown]; rw [if_neg (by simpa using h)]⟩
  | succ n ih =>
    intro fuel p h hf
    obtain ⟨fuel, rfl⟩ : ∃ k, fuel = k + 1 := ⟨fuel - 1, by omega⟩
    simp only [halveDown]
    split_ifs
    · exact ih fuel (p * (1 / 2)) (by rw [pow_succ] at h; linarith) (by omega)
    · exact ⟨p, rfl⟩

theorem doubleUp_mono {len : K} : ∀ (f g : Nat) (p p' : K), f ≤ g → doubleUp len f p = some p' → doubleUp len g p = some p' := by
  intro f
  induction f with
  | zero => intro g p p' _ h; simp [doubleUp] at h
  | succ f ih =>
    intro g p p' hg h
    obtain ⟨g, rfl⟩ : ∃ k, g = k + 1 := ⟨g - 1, by omega⟩
    simp only [doubleUp] at h ⊢
    split_ifs at h ⊢
    · exact ih g _ _ (by omega) h
    · exact h

theorem pow_big [Archimedean K] (x : K) : ∃ n : ℕ, x ≤ 2 ^ n := by
  obtain ⟨n, hn⟩ := pow_unbounded_of_one_lt x (one_lt_two)
  exact ⟨n, le_of_lt hn⟩

/-- The loops end. -/
theorem splitRatio_ends [Archimedean K] (sqrt : K → K) (hsq : ∀ x, 0 < x → 0 < sqrt x) (p q : Pt K) (hpq : p ≠ q) (a b : Bool) :
    ∃ N, ∀ fuel ≥ N, ∃ t, splitRatio sqrt fuel p q a b = some t := by
  unfold splitRatio
  by_cases c : (a || b) = true
  · simp only [if_pos c]
    have hpos : 0 < (q.x - p.x) * (q.x - p.x) + (q.y - p.y) * (q.y - p.y) := by
      by_contra hle
      have h1 := mul_self_nonneg (q.x - p.x)
      have h2 := mul_self_nonneg (q.y - p.y)
      have e1 : q.x - p.x = 0 := mul_self_eq_zero.1 (by linarith)
      have e2 : q.y - p.y = 0 := mul_self_eq_zero.1 (by linarith)
      apply hpq
      rcases p with ⟨px, py⟩
      rcases q with ⟨qx, qy⟩
      simp only at e1 e2
      simp only [Pt.mk.injEq]
      exact ⟨by linarith, by linarith⟩
    have hlen := hsq _ hpos
    set len := sqrt ((q.x - p.x) * (q.x - p.x) + (q.y - p.y) * (q.y - p.y))
    obtain ⟨n, hn⟩ := pow_big len
    obtain ⟨p1, h1⟩ := doubleUp_ends (len := len) n (n + 1) 1 (by
      have : (0 : K) < 2 ^ n := by positivity
      linarith) (by omega)
    obtain ⟨k, hk⟩ := pow_big (3 / 2 * p1 / len)
    have hk' : 3 / 2 * p1 ≤ len * 2 ^ k := by
      rw [div_le_iff₀ hlen] at hk; linarith
    refine ⟨max (n + 1) (k + 1), fun fuel hf => ?_⟩
    have h1' := doubleUp_mono _ fuel _ _ (le_trans (le_max_left _ _) hf) h1
    obtain ⟨p2, h2⟩ := halveDown_ends (len := len) k fuel p1 hk' (lt_of_lt_of_le (by omega) (le_trans (le_max_right _ _) hf))
    simp only [h1', h2, Option.bind_eq_bind, Option.bind_some]
    cases b <;> simp
  · exact ⟨0, fun _ _ => ⟨1 / 2, if_neg c⟩⟩

/-- The ratio. -/
theorem splitRatio_spec {sqrt : K → K} {p q : Pt K} {a b : Bool} {fuel : Nat} {t : K}
    (hlen : 0 < sqrt ((q.x - p.x) * (q.x - p.x) + (q.y - p.y) * (q.y - p.y))) (h : splitRatio sqrt fuel p q a b = some t) :
    1 / 3 ≤ t ∧ t ≤ 2 / 3 ∧ (a = false → b = false → t = 1 / 2) ∧
    (a = true ∨ b = true → ∃ i j : ℕ, (if b = true then 1 - t else t) * sqrt ((q.x - p.x) * (q.x - p.x) + (q.y - p.y) * (q.y - p.y)) * 2 ^ i = 2 ^ j) := by
  unfold splitRatio at h
  by_cases c : (a || b) = true
  · simp only [if_pos c] at h
    set len := sqrt ((q.x - p.x) * (q.x - p.x) + (q.y - p.y) * (q.y - p.y))
    cases h1 : doubleUp len fuel 1 with
    | none => simp [h1] at h
    | some p1 =>
      cases h2 : halveDown len fuel p1 with
      | none => simp [h1, h2] at h
      | some p2 =>
        simp only [h1, h2, Option.bind_eq_bind, Option.bind_some] at h
        obtain ⟨k1, j, hj⟩ := doubleUp_spec _ _ _ h1
        obtain ⟨k2, k3, i, hi⟩ := halveDown_spec _ _ _ h2 k1
        have b1 : 1 / 3 ≤ p2 / len := by rw [le_div_iff₀ hlen]; linarith
        have b2 : p2 / len ≤ 2 / 3 := by rw [div_le_iff₀ hlen]; linarith
        have e : p2 / len * len * 2 ^ i = 2 ^ j := by
          rw [div_mul_cancel₀ _ (ne_of_gt hlen), hi, hj, one_mul]
        have nn : ¬ (a = false ∧ b = false) := by rintro ⟨rfl, rfl⟩; simp at c
        cases b with
        | false =>
          simp only [Bool.false_eq_true, if_false, Option.some.injEq] at h
          subst h
          exact ⟨b1, b2, fun h1 h2 => absurd ⟨h1, h2⟩ nn, fun _ => ⟨i, j, by simpa using e⟩⟩
        | true =>
          simp only [if_true, Option.some.injEq] at h
          subst h
          refine ⟨by linarith, by linarith, fun h1 h2 => absurd ⟨h1, h2⟩ nn, fun _ => ⟨i, j, ?_⟩⟩
          rw [if_pos rfl, sub_sub_cancel]; exact e
  · rw [if_neg c] at h
    cases h
    have ha : a = false ∧ b = false := by
      cases a <;> cases b <;> simp at c ⊢
    refine ⟨by norm_num, by norm_num, fun _ _ => rfl, ?_⟩
    rw [ha.1, ha.2]
    simp

/-- The refinement step changes nothing in exact arithmetic. -/
theorem splitPoint_eq (p q : Pt K) (t : K) : splitPoint p q t = ⟨p.x + t * (q.x - p.x), p.y + t * (q.y - p.y)⟩ := by
  unfold splitPoint
  have : Carve.ccwDet p q ⟨p.x + t * (q.x - p.x), p.y + t * (q.y - p.y)⟩ = 0 := by
    simp only [Carve.ccwDet]; ring
  simp only [this, ne_eq, not_true_eq_false, false_and, if_false]

theorem Amid.ne {a b p : Pt K} (h : Amid a b p) (hab : a ≠ b) : p ≠ a ∧ p ≠ b := by
  obtain ⟨t, t0, t1, hx, hy⟩ := h
  rcases a with ⟨ax, ay⟩
  rcases b with ⟨bx, b_y⟩
  rcases p with ⟨px, py⟩
  simp only at hx hy
  constructor
  · rintro h
    simp only [Pt.mk.injEq] at h
    apply hab
    simp only [Pt.mk.injEq]
    obtain ⟨h1, h2⟩ := h
    rw [h1] at hx; rw [h2] at hy
    have e1 : t * (bx - ax) = 0 := by linarith
    have e2 : t * (b_y - ay) = 0 := by linarith
    have n := ne_of_gt t0
    exact ⟨by have := (mul_eq_zero.1 e1).resolve_left n; linarith, by have := (mul_eq_zero.1 e2).resolve_left n; linarith⟩
  · rintro h
    simp only [Pt.mk.injEq] at h
    apply hab
    simp only [Pt.mk.injEq]
    obtain ⟨h1, h2⟩ := h
    rw [h1] at hx; rw [h2] at hy
    have e1 : (1 - t) * (bx - ax) = 0 := by linarith
    have e2 : (1 - t) * (b_y - ay) = 0 := by linarith
    have n : 1 - t ≠ 0 := by intro h0; linarith
    exact ⟨by have := (mul_eq_zero.1 e1).resolve_left n; linarith, by have := (mul_eq_zero.1 e2).resolve_left n; linarith⟩

section
variable {m : Heap} {L : Nat → Prop} {pos pos' : Nat → Pt K}

theorem Tri3.adj {x : Otri} {v a b : Nat} (T : m.Tri3 L x v a b) : m.Adj L v a ∧ m.Adj L a b ∧ m.Adj L b v :=
  ⟨⟨lprev x, Or.inl (Tri3.dirs T).2.1⟩, ⟨x, Or.inl (Tri3.dirs T).1⟩, ⟨lnext x, Or.inl (Tri3.dirs T).2.2⟩⟩

theorem Adj.symm {v w : Nat} (h : m.Adj L v w) : m.Adj L w v := by
  obtain ⟨x, hx⟩ := h; exact ⟨x, hx.symm⟩

theorem Flat.move (f : Flat m L pos) (hp : ∀ v w, m.Adj L v w → pos' v = pos v) : Flat m L pos' where
  ccw x v a b T := by
    obtain ⟨h1, h2, h3⟩ := Tri3.adj T
    rw [hp _ _ h1, hp _ _ h2, hp _ _ h3]; exact f.ccw _ _ _ _ T
  cone x v a b w T hw := by
    obtain ⟨h1, h2, h3⟩ := Tri3.adj T
    rw [hp _ _ h1, hp _ _ h2, hp _ _ h3, hp _ _ (Adj.symm hw)]; exact f.cone _ _ _ _ _ T hw
  rays v w w' h1 h2 := by
    rw [hp _ _ h1, hp _ _ (Adj.symm h1), hp _ _ (Adj.symm h2)]; exact f.rays _ _ _ h1 h2

theorem Settled.move {x : Otri} (hs : Settled true m L pos x) (hp : ∀ v w, m.Adj L v w → pos' v = pos v) : Settled true m L pos' x := by
  rcases hs with k | k | k
  · exact Or.inl k
  · exact Or.inr (Or.inl k)
  · refine Or.inr (Or.inr ?_)
    intro v a b d T1 T2 o
    obtain ⟨h1, h2, h3⟩ := Tri3.adj T1
    obtain ⟨h4, -, -⟩ := Tri3.adj T2
    rw [hp _ _ h1, hp _ _ h2, hp _ _ h3, hp _ _ h4]
    exact k v a b d T1 T2 o

theorem Encroached.move {x : Otri} (hs : Encroached m L pos' x) (hp : ∀ v w, m.Adj L v w → pos' v = pos v) : Encroached m L pos x := by
  obtain ⟨h0, v, a, b, T, hd⟩ := hs
  obtain ⟨h1, h2, h3⟩ := Tri3.adj T
  rw [hp _ _ h1, hp _ _ h2, hp _ _ h3] at hd
  exact ⟨h0, v, a, b, T, hd⟩

theorem HasSub.adj {v w : Nat} (h : HasSub m L v w) : m.Adj L v w := by
  obtain ⟨x, hx, -⟩ := h; exact ⟨x, hx⟩

theorem Cover.adj {v w : Nat} (h : Cover m L pos v w) : (∃ w', m.Adj L v w') ∧ ∃ v', m.Adj L w v' := by
  induction h with
  | edge h => exact ⟨⟨_, h.adj⟩, ⟨_, Adj.symm h.adj⟩⟩
  | join _ _ _ i1 i2 => exact ⟨i1.1, i2.2⟩

theorem Refined.mono {m' : Heap} {L' : Nat → Prop} (R : Refined m L pos m' L' pos') {v w : Nat} (h : Cover m L pos v w) : Cover m' L' pos' v w := by
  induction h with
  | edge h => exact R.cover _ _ h
  | join h1 h2 hm i1 i2 =>
    refine .join i1 i2 ?_
    obtain ⟨⟨_, a1⟩, ⟨_, a2⟩⟩ := h1.adj
    obtain ⟨-, ⟨_, a3⟩⟩ := h2.adj
    rw [R.place _ _ a1, R.place _ _ a2, R.place _ _ a3]
    exact hm

theorem Between.left (a b : Pt K) : Between a b a := ⟨0, le_refl _, zero_le_one, by simp [lineAt]⟩

theorem Between.right (a b : Pt K) : Between a b b := ⟨1, zero_le_one, le_refl _, by simp [lineAt]⟩

theorem Between.trans {a b c d p : Pt K} (h1 : Between a b c) (h2 : Between a b d) (h3 : Between c d p) : Between a b p := by
  obtain ⟨t, t0, t1, rfl⟩ := h1
  obtain ⟨u, u0, u1, rfl⟩ := h2
  obtain ⟨r, r0, r1, rfl⟩ := h3
  refine ⟨(1 - r) * t + r * u, ?_, ?_, ?_⟩
  · have := mul_nonneg (sub_nonneg.2 r1) t0
    have := mul_nonneg r0 u0
    linarith
  · have := mul_nonneg (sub_nonneg.2 r1) (sub_nonneg.2 t1)
    have := mul_nonneg r0 (sub_nonneg.2 u1)
    linarith
  · simp only [lineAt, Pt.mk.injEq]
    constructor <;> ring

theorem Refined.refl : Refined m L pos m L pos := ⟨fun _ _ _ => rfl, fun v w h => ⟨w, h⟩, fun _ _ h => .edge h,
  fun v w h => ⟨v, w, h, Between.left _ _, Between.right _ _⟩, fun v w h => Or.inl ⟨w, h⟩⟩

theorem Refined.trans {m' m'' : Heap} {L' L'' : Nat → Prop} {pos'' : Nat → Pt K} (R : Refined m L pos m' L' pos')
    (R' : Refined m' L' pos' m'' L'' pos'') : Refined m L pos m'' L'' pos'' where
  place v w h := by
    obtain ⟨w', h'⟩ := R.verts v w h
    rw [R'.place v w' h', R.place v w h]
  verts v w h := by
    obtain ⟨w', h'⟩ := R.verts v w h
    exact R'.verts v w' h'
  cover v w h := R'.mono (R.cover v w h)
  within v w h := by
    obtain ⟨a, b, h1, h2, h3⟩ := R'.within v w h
    obtain ⟨c, d, k1, k2, k3⟩ := R.within a b h1
    exact ⟨c, d, k1, k2.trans k3 h2, k2.trans k3 h3⟩
  added v w h := by
    rcases R'.added v w h with ⟨w', h'⟩ | ⟨a, b, h1, h2⟩
    · rw [R'.place v w' h']
      exact R.added v w' h'
    · obtain ⟨c, d, k1, k2, k3⟩ := R.within a b h1
      exact Or.inr ⟨c, d, k1, k2.trans k3 h2⟩

end
end Delynoi.Tri
