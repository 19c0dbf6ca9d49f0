import Verif.Proofs.TriInsert7
import Verif.Proofs.TriInsert8
/-! # Splitting an edge: geometry and subsegments -/
set_option linter.unusedSectionVars false
namespace Delynoi.Tri

section
variable {K : Type} [Field K] [LinearOrder K] [IsStrictOrderedRing K]

theorem Amid.symm {a b p : Pt K} (h : Amid a b p) : Amid b a p := by
  obtain ⟨t, t0, t1, hx, hy⟩ := h
  exact ⟨1 - t, by linarith, by linarith, by rw [hx]; ring, by rw [hy]; ring⟩

/-- Seen from an end, the point is in the direction of the other end. -/
theorem Amid.scale {a b p : Pt K} (h : Amid a b p) : ∃ t : K, 0 < t ∧ t < 1 ∧ (∀ c, turn a p c = t * turn a b c) ∧ (∀ c, turn a c p = t * turn a c b) ∧
    (∀ c : Pt K, (p.x - a.x) * (c.x - a.x) + (p.y - a.y) * (c.y - a.y) = t * ((b.x - a.x) * (c.x - a.x) + (b.y - a.y) * (c.y - a.y))) := by
  obtain ⟨t, t0, t1, hx, hy⟩ := h
  refine ⟨t, t0, t1, ?_, ?_, ?_⟩ <;> intro c <;> simp only [turn, hx, hy] <;> ring

/-- Collinear directions on different sides of a third are opposite. -/
theorem opposite {v b d x : Pt K} (h0 : turn v b d = 0) (h1 : 0 < turn v b x) (h2 : turn v d x < 0) :
    ¬ 0 < (b.x - v.x) * (d.x - v.x) + (b.y - v.y) * (d.y - v.y) := by
  intro hp
  have : ((d.x - v.x) ^ 2 + (d.y - v.y) ^ 2) * turn v b x = ((b.x - v.x) * (d.x - v.x) + (b.y - v.y) * (d.y - v.y)) * turn v d x := by
    simp only [turn] at h0 ⊢
    linear_combination ((d.x - v.x) * (x.x - v.x) + (d.y - v.y) * (x.y - v.y)) * h0
  have h3 : 0 ≤ ((d.x - v.x) ^ 2 + (d.y - v.y) ^ 2) * turn v b x := mul_nonneg (add_nonneg (sq_nonneg _) (sq_nonneg _)) h1.le
  have h4 := mul_neg_of_pos_of_neg hp h2
  linarith

variable {m : Heap} {L : Nat → Prop} {pos : Nat → Pt K}
variable {e : Otri} {nr nt nv b r l d : Nat} {tp : Bool} (h : Linked m L) (s : EdgeAt m L e nr nt nv b r l d tp)
include h s

theorem splitEdge_adj (cs : Bool) {v w : Nat} (hvw : (m.splitEdge cs nr nt nv e).Adj (WithE L nr nt tp) v w) :
    (m.Adj L v w ∧ v ≠ nv ∧ w ≠ nv ∧ ¬ (v = r ∧ w = l) ∧ ¬ (v = l ∧ w = r)) ∨
      (v = nv ∧ (w = b ∨ w = r ∨ w = l ∨ (tp = true ∧ w = d))) ∨ (w = nv ∧ (v = b ∨ v = r ∨ v = l ∨ (tp = true ∧ v = d))) := by
  obtain ⟨x, hx⟩ := hvw
  rw [(splitEdge_starred h s cs).dir, (splitEdge_starred h s cs).dir] at hx
  have fr := s.fresh
  have D := (Tri3.dirs s.tri).1
  have key : ∀ y p q, ¬ (y = e ∨ y = m.nbr e) → m.Dir L y p q → ¬ (p = r ∧ q = l) ∧ ¬ (p = l ∧ q = r) := by
    intro y p q hR hy
    refine ⟨?_, ?_⟩
    · rintro ⟨rfl, rfl⟩; exact hR (Or.inl (h.once _ _ _ _ hy D))
    · rintro ⟨rfl, rfl⟩; exact hR (Or.inr (h.complete _ _ _ _ D hy).symm)
  have ho' : ∀ {w x}, edgeOut m e nr nt b r l d tp w x → w = b ∨ w = r ∨ w = l ∨ (tp = true ∧ w = d) := by
    rintro w x (⟨rfl, -⟩ | ⟨rfl, -⟩ | ⟨h1, rfl, -⟩ | ⟨h1, rfl, -⟩) <;> simp [*]
  have hi' : ∀ {w x}, edgeIn m e nr nt b r l d tp w x → w = b ∨ w = r ∨ w = l ∨ (tp = true ∧ w = d) := by
    rintro w x (⟨rfl, -⟩ | ⟨rfl, -⟩ | ⟨h1, rfl, -⟩ | ⟨h1, rfl, -⟩) <;> simp [*]
  rcases hx with (⟨y, hR, -, hy⟩ | ⟨rfl, ho⟩ | ⟨rfl, ho⟩) | (⟨y, hR, -, hy⟩ | ⟨rfl, ho⟩ | ⟨rfl, ho⟩)
  · exact Or.inl ⟨⟨y, Or.inl hy⟩, fun h0 => (fr y w).1 (h0 ▸ hy), fun h0 => (fr y v).2 (h0 ▸ hy), key _ _ _ hR hy⟩
  · exact Or.inr (Or.inl ⟨rfl, ho' ho⟩)
  · exact Or.inr (Or.inr ⟨rfl, hi' ho⟩)
  · refine Or.inl ⟨⟨y, Or.inr hy⟩, fun h0 => (fr y w).2 (h0 ▸ hy), fun h0 => (fr y v).1 (h0 ▸ hy), ?_⟩
    obtain ⟨k1, k2⟩ := key _ _ _ hR hy
    exact ⟨fun hh => k2 ⟨hh.2, hh.1⟩, fun hh => k1 ⟨hh.2, hh.1⟩⟩
  · exact Or.inr (Or.inr ⟨rfl, ho' ho⟩)
  · exact Or.inr (Or.inl ⟨rfl, hi' ho⟩)

/-- The turns at the new vertex, below the edge. -/
theorem EdgeAt.turns (f : Flat m L pos) (hm : Amid (pos r) (pos l) (pos nv)) :
    turn (pos r) (pos l) (pos nv) = 0 ∧ 0 < turn (pos l) (pos b) (pos nv) ∧ 0 < turn (pos b) (pos r) (pos nv) ∧
    (tp = true → 0 < turn (pos r) (pos d) (pos nv) ∧ 0 < turn (pos d) (pos l) (pos nv)) := by
  have rot : ∀ p q r : Pt K, turn q r p = turn p q r := turn_rotate
  obtain ⟨t, t0, t1, s1, s2, -⟩ := hm.scale
  obtain ⟨u, u0, u1, r1, r2, -⟩ := hm.symm.scale
  obtain ⟨R1, R2, R3⟩ := s.toSplitAt.rots h
  refine ⟨?_, ?_, ?_, ?_⟩
  · rw [s2, turn_same, mul_zero]
  · rw [r2]; exact mul_pos u0 (f.ccw _ _ _ _ R3)
  · rw [← rot, s1]; have := f.ccw _ _ _ _ R2; exact mul_pos t0 this
  · intro ht
    have U := f.ccw _ _ _ _ (s.top ht).2.1
    refine ⟨?_, ?_⟩
    · rw [s2, ← rot]; exact mul_pos t0 U
    · rw [← rot, r1]; rw [← rot] at U; exact mul_pos u0 U

/-- The triangulation stays flat if the new vertex is on the edge. -/
theorem splitEdge_flat (cs : Bool) (f : Flat m L pos) (hm : Amid (pos r) (pos l) (pos nv)) :
    Flat (m.splitEdge cs nr nt nv e) (WithE L nr nt tp) pos := by
  obtain ⟨R1, R2, R3⟩ := s.toSplitAt.rots h
  have t1 := f.ccw _ _ _ _ R1
  have t2 := f.ccw _ _ _ _ R2
  have t3 := f.ccw _ _ _ _ R3
  obtain ⟨p1, p2, p3, p4⟩ := s.turns h f hm
  have rot : ∀ p q r : Pt K, turn q r p = turn p q r := turn_rotate
  have q1 : turn (pos nv) (pos r) (pos l) = 0 := by rw [← rot]; exact p1
  have q2 : 0 < turn (pos nv) (pos l) (pos b) := by rw [← rot]; exact p2
  have q3 : 0 < turn (pos nv) (pos b) (pos r) := by rw [← rot]; exact p3
  have p2' : 0 < turn (pos b) (pos nv) (pos l) := by rw [rot]; exact p2
  have p3' : 0 < turn (pos r) (pos nv) (pos b) := by rw [rot]; exact p3
  have z : ∀ v A : Pt K, turn v A A = 0 := turn_same
  have an : ∀ v A B : Pt K, turn v A B = - turn v B A := turn_anti
  obtain ⟨v1, v2, v3⟩ := s.toSplitAt.nv_ne h
  have v4 := s.nv_ne_d h
  have n1 := s.rl; have n2 := s.lb; have n3 := s.br
  obtain ⟨t, t0, -, s1, s2, s3⟩ := hm.scale
  obtain ⟨u, u0, -, r1, r2, r3⟩ := hm.symm.scale
  have top : tp = true → m.Tri3 L (m.nbr e) d l r ∧ m.Tri3 L (lnext (m.nbr e)) l r d ∧ m.Tri3 L (lprev (m.nbr e)) r d l ∧
      0 < turn (pos d) (pos l) (pos r) ∧ 0 < turn (pos l) (pos r) (pos d) ∧ 0 < turn (pos r) (pos d) (pos l) ∧
      0 < turn (pos nv) (pos r) (pos d) ∧ 0 < turn (pos nv) (pos d) (pos l) ∧ 0 < turn (pos d) (pos nv) (pos r) ∧
      0 < turn (pos l) (pos nv) (pos d) := by
    intro ht
    obtain ⟨a0, a1, a2, a3⟩ := tri3_iff.1 (s.top ht).2.1
    obtain ⟨c1, c2⟩ := p4 ht
    have U2 : m.Tri3 L (lnext (m.nbr e)) l r d := tri3_iff.2 ⟨a0, a2, by rw [lnext_lnext]; exact a3, by rw [lprev_lnext]; exact a1⟩
    have U3 : m.Tri3 L (lprev (m.nbr e)) r d l := tri3_iff.2 ⟨a0, a3, by rw [lnext_lprev]; exact a1, by rw [lprev_lprev]; exact a2⟩
    exact ⟨(s.top ht).2.1, U2, U3, f.ccw _ _ _ _ (s.top ht).2.1, f.ccw _ _ _ _ U2, f.ccw _ _ _ _ U3, by rw [← rot]; exact c1,
      by rw [← rot]; exact c2, by rw [rot]; exact c1, by rw [rot]; exact c2⟩
  have old : ∀ {v w}, v ≠ nv → (m.splitEdge cs nr nt nv e).Adj (WithE L nr nt tp) v w → w = nv ∨ m.Adj L v w := by
    intro v w hv hw
    rcases splitEdge_adj h s cs hw with ⟨hw, -⟩ | ⟨h0, -⟩ | ⟨h0, -⟩
    exacts [Or.inr hw, absurd h0 hv, Or.inl h0]
  have new : ∀ {w}, (m.splitEdge cs nr nt nv e).Adj (WithE L nr nt tp) nv w → w = b ∨ w = r ∨ w = l ∨ (tp = true ∧ w = d) := by
    intro w hw
    rcases splitEdge_adj h s cs hw with ⟨-, h0, -⟩ | ⟨-, h0⟩ | ⟨-, h0⟩
    · exact absurd rfl h0
    · exact h0
    · rcases h0 with h0 | h0 | h0 | ⟨ht, h0⟩
      exacts [absurd h0 v1, absurd h0 v2, absurd h0 v3, absurd h0 (v4 ht)]
  have rl : m.Adj L r l := ⟨_, Or.inl (Tri3.dirs s.tri).1⟩
  have lr : m.Adj L l r := ⟨_, Or.inr (Tri3.dirs s.tri).1⟩
  refine ⟨?_, ?_, ?_⟩
  · intro x v A B hx
    rcases splitEdge_tri h s cs hx with ⟨k, -⟩ | ⟨-, rfl, rfl, rfl⟩ | ⟨-, rfl, rfl, rfl⟩ | ⟨-, rfl, rfl, rfl⟩ | ⟨-, rfl, rfl, rfl⟩ |
      ⟨-, rfl, rfl, rfl⟩ | ⟨-, rfl, rfl, rfl⟩ | ⟨ht, k⟩
    · exact f.ccw _ _ _ _ k
    iterate 6 assumption
    obtain ⟨U1, U2, U3, w1, w2, w3, w4, w5, w6, w7⟩ := top ht
    obtain ⟨c1, c2⟩ := p4 ht
    rcases k with ⟨-, rfl, rfl, rfl⟩ | ⟨-, rfl, rfl, rfl⟩ | ⟨-, rfl, rfl, rfl⟩ | ⟨-, rfl, rfl, rfl⟩ | ⟨-, rfl, rfl, rfl⟩ | ⟨-, rfl, rfl, rfl⟩ <;>
      assumption
  · rintro x v A B w hx hw ⟨w1, w2⟩
    rcases splitEdge_tri h s cs hx with ⟨k, he, he'⟩ | ⟨-, rfl, rfl, rfl⟩ | ⟨-, rfl, rfl, rfl⟩ | ⟨-, rfl, rfl, rfl⟩ | ⟨-, rfl, rfl, rfl⟩ |
      ⟨-, rfl, rfl, rfl⟩ | ⟨-, rfl, rfl, rfl⟩ | ⟨ht, k⟩
    · rcases splitEdge_adj h s cs hw with ⟨hw, -, -⟩ | ⟨rfl, -⟩ | ⟨rfl, hv⟩
      · exact f.cone _ _ _ _ w k hw ⟨w1, w2⟩
      · exact (s.fresh _ _).1 (Tri3.dirs k).2.1
      · rcases hv with rfl | rfl | rfl | ⟨ht, rfl⟩
        · exact he (by rw [same_cone h f k R1 w1 w2 p3 p2'])
        · rw [s2] at w1; rw [s1] at w2
          exact f.cone _ _ _ _ l k rl ⟨(mul_pos_iff_of_pos_left t0).1 w1, (mul_pos_iff_of_pos_left t0).1 w2⟩
        · rw [r2] at w1; rw [r1] at w2
          exact f.cone _ _ _ _ r k lr ⟨(mul_pos_iff_of_pos_left u0).1 w1, (mul_pos_iff_of_pos_left u0).1 w2⟩
        · obtain ⟨U1, U2, U3, y1, y2, y3, y4, y5, y6, y7⟩ := top ht
          exact he' ht (by rw [same_cone h f k U1 w1 w2 (p4 ht).2 y6])
    · rcases old v1.symm hw with rfl | hw
      · rw [z] at w1; exact lt_irrefl _ w1
      · exact f.cone _ _ _ _ w R1 hw ⟨cone1' p2' p3.le t1 w1 w2, w2⟩
    · rcases new hw with rfl | rfl | rfl | ⟨ht, rfl⟩
      · rw [z] at w2; exact lt_irrefl _ w2
      · rw [an, q1] at w1; linarith
      · rw [z] at w1; exact lt_irrefl _ w1
      · obtain ⟨U1, U2, U3, y1, y2, y3, y4, y5, y6, y7⟩ := top ht
        rw [an] at w1; linarith
    · rcases old v3.symm hw with rfl | hw
      · rw [z] at w2; exact lt_irrefl _ w2
      · rw [r2] at w2
        exact f.cone _ _ _ _ w R3 hw ⟨w1, (mul_pos_iff_of_pos_left u0).1 w2⟩
    · rcases new hw with rfl | rfl | rfl | ⟨ht, rfl⟩
      · rw [z] at w1; exact lt_irrefl _ w1
      · rw [z] at w2; exact lt_irrefl _ w2
      · rw [an] at w1; linarith
      · obtain ⟨U1, U2, U3, y1, y2, y3, y4, y5, y6, y7⟩ := top ht
        rw [an] at w2; linarith
    · rcases old v1.symm hw with rfl | hw
      · rw [z] at w2; exact lt_irrefl _ w2
      · exact f.cone _ _ _ _ w R1 hw ⟨w1, cone2' p3 p2'.le t1 w1 w2⟩
    · rcases old v2.symm hw with rfl | hw
      · rw [z] at w1; exact lt_irrefl _ w1
      · rw [s1] at w1
        exact f.cone _ _ _ _ w R2 hw ⟨(mul_pos_iff_of_pos_left t0).1 w1, w2⟩
    · obtain ⟨U1, U2, U3, y1, y2, y3, y4, y5, y6, y7⟩ := top ht
      obtain ⟨c1, c2⟩ := p4 ht
      have v4 := v4 ht
      rcases k with ⟨-, rfl, rfl, rfl⟩ | ⟨-, rfl, rfl, rfl⟩ | ⟨-, rfl, rfl, rfl⟩ | ⟨-, rfl, rfl, rfl⟩ | ⟨-, rfl, rfl, rfl⟩ | ⟨-, rfl, rfl, rfl⟩
      · rcases old v4.symm hw with rfl | hw
        · rw [z] at w2; exact lt_irrefl _ w2
        · exact f.cone _ _ _ _ w U1 hw ⟨w1, cone2' c2 y6.le y1 w1 w2⟩
      · rcases old v3.symm hw with rfl | hw
        · rw [z] at w1; exact lt_irrefl _ w1
        · rw [r1] at w1
          exact f.cone _ _ _ _ w U2 hw ⟨(mul_pos_iff_of_pos_left u0).1 w1, w2⟩
      · rcases new hw with rfl | rfl | rfl | ⟨-, rfl⟩
        · rw [an] at w2; linarith
        · rw [an] at w1; linarith
        · rw [z] at w2; exact lt_irrefl _ w2
        · rw [z] at w1; exact lt_irrefl _ w1
      · rcases new hw with rfl | rfl | rfl | ⟨-, rfl⟩
        · rw [an] at w1; linarith
        · rw [z] at w1; exact lt_irrefl _ w1
        · rw [q1] at w1; exact lt_irrefl _ w1
        · rw [z] at w2; exact lt_irrefl _ w2
      · rcases old v2.symm hw with rfl | hw
        · rw [z] at w2; exact lt_irrefl _ w2
        · rw [s2] at w2
          exact f.cone _ _ _ _ w U3 hw ⟨w1, (mul_pos_iff_of_pos_left t0).1 w2⟩
      · rcases old v4.symm hw with rfl | hw
        · rw [z] at w1; exact lt_irrefl _ w1
        · exact f.cone _ _ _ _ w U1 hw ⟨cone1' y6 c2.le y1 w1 w2, w2⟩
  · have half : ∀ v w, m.Adj L v w → ¬ (v = r ∧ w = l) → ¬ (v = l ∧ w = r) → (v = b ∨ v = r ∨ v = l ∨ (tp = true ∧ v = d)) →
        turn (pos v) (pos nv) (pos w) = 0 →
        0 < ((pos nv).x - (pos v).x) * ((pos w).x - (pos v).x) + ((pos nv).y - (pos v).y) * ((pos w).y - (pos v).y) → False := by
      rintro v w hw hn hn' hv h0 hp
      rcases hv with rfl | rfl | rfl | ⟨ht, rfl⟩
      · exact ray_in f R1 hw p3 p2' h0 hp
      · rw [s1] at h0
        rw [s3] at hp
        exact hn ⟨rfl, (f.rays _ _ _ rl hw ((mul_eq_zero.1 h0).resolve_left (ne_of_gt t0)) ((mul_pos_iff_of_pos_left t0).1 hp)).symm⟩
      · rw [r1] at h0
        rw [r3] at hp
        exact hn' ⟨rfl, (f.rays _ _ _ lr hw ((mul_eq_zero.1 h0).resolve_left (ne_of_gt u0)) ((mul_pos_iff_of_pos_left u0).1 hp)).symm⟩
      · obtain ⟨U1, U2, U3, y1, y2, y3, y4, y5, y6, y7⟩ := top ht
        exact ray_in f U1 hw (p4 ht).2 y6 h0 hp
    have same : ∀ w w', (w = b ∨ w = r ∨ w = l ∨ (tp = true ∧ w = d)) → (w' = b ∨ w' = r ∨ w' = l ∨ (tp = true ∧ w' = d)) →
        turn (pos nv) (pos w) (pos w') = 0 →
        0 < ((pos w).x - (pos nv).x) * ((pos w').x - (pos nv).x) + ((pos w).y - (pos nv).y) * ((pos w').y - (pos nv).y) → w = w' := by
      intro w w' hw hw' h0 hp
      have h0' : turn (pos nv) (pos w') (pos w) = 0 := by rw [an, h0, neg_zero]
      have hp' : 0 < ((pos w').x - (pos nv).x) * ((pos w).x - (pos nv).x) + ((pos w').y - (pos nv).y) * ((pos w).y - (pos nv).y) := by
        rw [mul_comm _ ((pos w).x - (pos nv).x), mul_comm _ ((pos w).y - (pos nv).y)]; exact hp
      have q2' : turn (pos nv) (pos r) (pos b) < 0 := by rw [an]; linarith
      rcases hw with rfl | rfl | rfl | ⟨ht, rfl⟩
      · rcases hw' with rfl | rfl | rfl | ⟨ht, rfl⟩
        · rfl
        · exact absurd h0 (ne_of_gt q3)
        · exact absurd h0' (ne_of_gt q2)
        · obtain ⟨U1, U2, U3, y1, y2, y3, y4, y5, y6, y7⟩ := top ht
          exact absurd hp (opposite h0 (x := pos r) q3 (by rw [an]; linarith))
      · rcases hw' with rfl | rfl | rfl | ⟨ht, rfl⟩
        · exact absurd h0' (ne_of_gt q3)
        · rfl
        · exact absurd hp' (opposite h0' (x := pos b) q2 q2')
        · obtain ⟨U1, U2, U3, y1, y2, y3, y4, y5, y6, y7⟩ := top ht
          exact absurd h0 (ne_of_gt y4)
      · rcases hw' with rfl | rfl | rfl | ⟨ht, rfl⟩
        · exact absurd h0 (ne_of_gt q2)
        · exact absurd hp (opposite h0 (x := pos b) q2 q2')
        · rfl
        · obtain ⟨U1, U2, U3, y1, y2, y3, y4, y5, y6, y7⟩ := top ht
          exact absurd h0' (ne_of_gt y5)
      · obtain ⟨U1, U2, U3, y1, y2, y3, y4, y5, y6, y7⟩ := top ht
        rcases hw' with rfl | rfl | rfl | ⟨-, rfl⟩
        · exact absurd hp' (opposite h0' (x := pos r) q3 (by rw [an]; linarith))
        · exact absurd h0' (ne_of_gt y4)
        · exact absurd h0 (ne_of_gt y5)
        · rfl
    intro v w w' hw hw' h0 hp
    have h0' : turn (pos v) (pos w') (pos w) = 0 := by rw [an, h0, neg_zero]
    have hp' : 0 < ((pos w').x - (pos v).x) * ((pos w).x - (pos v).x) + ((pos w').y - (pos v).y) * ((pos w).y - (pos v).y) := by
      rw [mul_comm _ ((pos w).x - (pos v).x), mul_comm _ ((pos w).y - (pos v).y)]; exact hp
    rcases splitEdge_adj h s cs hw with ⟨ho, x1, x2, x3, x4⟩ | ⟨rfl, hv⟩ | ⟨rfl, hv⟩ <;>
      rcases splitEdge_adj h s cs hw' with ⟨ho', y1, y2, y3, y4⟩ | ⟨y0, hv'⟩ | ⟨y0, hv'⟩
    · exact f.rays v w w' ho ho' h0 hp
    · exact absurd y0 x1
    · subst y0
      exact (half v w ho x3 x4 hv' h0' hp').elim
    · exact absurd rfl y1
    · exact same _ _ hv hv' h0 hp
    · exact (by rcases hv' with h1 | h1 | h1 | ⟨ht, h1⟩; exacts [absurd h1 v1, absurd h1 v2, absurd h1 v3, absurd h1 (v4 ht)])
    · exact (half v w' ho' y3 y4 hv h0 hp).elim
    · exact (by rcases hv with h1 | h1 | h1 | ⟨ht, h1⟩; exacts [absurd (y0 ▸ h1) v1, absurd (y0 ▸ h1) v2, absurd (y0 ▸ h1) v3, absurd (y0 ▸ h1) (v4 ht)])
    · exact y0.symm

end

/-! ### Subsegments -/

section
variable {m : Heap} {L : Nat → Prop} {e : Otri} {nr nt nv b r l d : Nat} {tp : Bool} (h : Linked m L)
  (s : EdgeAt m L e nr nt nv b r l d tp)

/-- The mesh before subsegments are moved. -/
def edgeBase (m : Heap) (nr nt nv : Nat) (e : Otri) : Heap :=
  { (m.splitEdge false nr nt nv e) with nbr := m.nbr }

theorem splitEdge_sub_eq (ht : (m.nbr e).1 ≠ 0) : (m.splitEdge true nr nt nv e).sub =
    (((edgeBase m nr nt nv e).movesub (lprev e) (nr, 0)).movesub (lnext (m.nbr e)) (nt, 0)).sub ∧
    (m.splitEdge true nr nt nv e).stri = (((edgeBase m nr nt nv e).movesub (lprev e) (nr, 0)).movesub (lnext (m.nbr e)) (nt, 0)).stri := by
  have ht' : (m.sym e).1 ≠ 0 := ht
  simp only [Heap.splitEdge, Heap.bond, if_true, ht', ne_eq, not_false_eq_true]
  refine movesub_congr _ _ ?_ ?_
  · refine (movesub_congr _ _ ?_ ?_).1 <;> simp only [Heap.splitEdge, edgeBase, Heap.bond, Bool.false_eq_true, if_false, ht', ne_eq, not_false_eq_true, if_true] <;> rfl
  · refine (movesub_congr _ _ ?_ ?_).2 <;> simp only [Heap.splitEdge, edgeBase, Heap.bond, Bool.false_eq_true, if_false, ht', ne_eq, not_false_eq_true, if_true] <;> rfl

theorem splitEdge_sub_hull (ht : (m.nbr e).1 = 0) : (m.splitEdge true nr nt nv e).sub =
    ((edgeBase m nr nt nv e).movesub (lprev e) (nr, 0)).sub ∧
    (m.splitEdge true nr nt nv e).stri = ((edgeBase m nr nt nv e).movesub (lprev e) (nr, 0)).stri := by
  have ht' : (m.sym e).1 = 0 := ht
  simp only [Heap.splitEdge, Heap.bond, if_true, ht', ne_eq, not_true_eq_false, if_false]
  refine movesub_congr _ _ ?_ ?_ <;> simp only [Heap.splitEdge, edgeBase, Heap.bond, Bool.false_eq_true, if_false, ht', ne_eq, not_true_eq_false] <;> rfl

theorem edgeBase_sub (ht : (m.nbr e).1 ≠ 0) (x : Otri) :
    (edgeBase m nr nt nv e).sub x = if x.1 = nr then (0, false) else if x.1 = nt then (0, false) else m.sub x := by
  have ht' : (m.sym e).1 ≠ 0 := ht
  simp only [Heap.splitEdge, edgeBase, Heap.bond, Heap.setorg, Heap.setdest,
    Heap.setapex, Heap.maketriangle, Bool.false_eq_true, if_false, ht', ne_eq, not_false_eq_true, if_true]
  rfl
theorem edgeBase_sub_hull (ht : (m.nbr e).1 = 0) (x : Otri) :
    (edgeBase m nr nt nv e).sub x = if x.1 = nr then (0, false) else m.sub x := by
  have ht' : (m.sym e).1 = 0 := ht
  simp only [Heap.splitEdge, edgeBase, Heap.bond, Heap.setorg, Heap.setdest,
    Heap.setapex, Heap.maketriangle, Bool.false_eq_true, if_false, ht', ne_eq, not_true_eq_false]
  rfl
theorem edgeBase_stri : (edgeBase m nr nt nv e).stri = m.stri := by
  by_cases ht' : (m.sym e).1 = 0
  · simp only [Heap.splitEdge, edgeBase, Heap.bond, Heap.setorg, Heap.setdest,
      Heap.setapex, Heap.maketriangle, Bool.false_eq_true, if_false, ht', ne_eq, not_true_eq_false]
  · simp only [Heap.splitEdge, edgeBase, Heap.bond, Heap.setorg, Heap.setdest,
      Heap.setapex, Heap.maketriangle, Bool.false_eq_true, if_false, ht', ne_eq, not_false_eq_true, if_true]

include h s

theorem splitEdge_sub (g : Segmented m L) :
    (∀ y, L y.1 → (m.splitEdge true nr nt nv e).sub (edgeMap m e nr nt y) = m.sub y) ∧
    (∀ y, L y.1 → (m.sub y).1 ≠ 0 → (m.splitEdge true nr nt nv e).stri (m.sub y) = edgeMap m e nr nt y) ∧
    (m.splitEdge true nr nt nv e).sub (lprev e) = (0, false) ∧
    (m.splitEdge true nr nt nv e).sub (nr, 1) = (0, false) ∧ (m.splitEdge true nr nt nv e).sub (nr, 2) = (0, false) ∧
    (tp = true → (m.splitEdge true nr nt nv e).sub (lnext (m.nbr e)) = (0, false) ∧
      (m.splitEdge true nr nt nv e).sub (nt, 1) = (0, false) ∧ (m.splitEdge true nr nt nv e).sub (nt, 2) = (0, false)) ∧
    (∀ o : Osub, o.1 ≠ 0 → (∀ y, L y.1 → o ≠ m.sub y) → (m.splitEdge true nr nt nv e).stri o = m.stri o) := by
  have k1 := s.el
  have k2 := s.er
  have k3 := s.lr
  have k4 := s.top_ne h
  have k5 := s.topr h
  have k6 := s.topt h
  have f : ∀ (x : Otri) (p : Nat × Fin 3), x.1 ≠ p.1 → x ≠ p := fun x p hh h0 => hh (by rw [h0])
  have f5 : ∀ o : Fin 3, lprev e ≠ (nr, o) := fun o => f _ _ k1
  have f6 : ∀ o : Fin 3, lprev e ≠ (nt, o) := fun o => f _ _ k2
  have g5 : ∀ o : Fin 3, (nr, o) ≠ lprev e := fun o => (f5 o).symm
  have g6 : ∀ o : Fin 3, (nt, o) ≠ lprev e := fun o => (f6 o).symm
  have f7 : ∀ o : Fin 3, lnext (m.nbr e) ≠ (nr, o) := fun o => f _ _ k5
  have f8 : ∀ o : Fin 3, lnext (m.nbr e) ≠ (nt, o) := fun o => f _ _ k6
  have g7 : ∀ o : Fin 3, (nr, o) ≠ lnext (m.nbr e) := fun o => (f7 o).symm
  have g8 : ∀ o : Fin 3, (nt, o) ≠ lnext (m.nbr e) := fun o => (f8 o).symm
  have d1 : lprev e ≠ lnext (m.nbr e) := fun h0 => k4 (by have := congrArg Prod.fst h0; simpa using this.symm)
  have inj : ∀ y, L y.1 → (m.sub y).1 ≠ 0 → ∀ x, L x.1 → (m.sub y = m.sub x ↔ y = x) := by
    intro y hy hs x hx
    constructor
    · intro hh
      have h1 := g.back y hy hs
      have h2 := g.back x hx (hh ▸ hs)
      rw [hh, h2] at h1; exact h1.symm
    · rintro rfl; rfl
  cases tp with
  | false =>
    have ht := s.hull rfl
    have ht0 : (m.nbr e).1 = 0 := by rw [ht]
    have base := edgeBase_sub_hull (nr := nr) (nt := nt) (nv := nv) ht0
    have b1 : (edgeBase m nr nt nv e).sub (lprev e) = m.sub (lprev e) := by rw [base]; simp [k1]
    have b2 : ∀ o : Fin 3, (edgeBase m nr nt nv e).sub (nr, o) = (0, false) := by intro o; rw [base]; simp
    have S1 := movesub_sub (edgeBase m nr nt nv e) (lprev e) (nr, 0) (by rw [b1]; exact g.none _ s.tri.1) (b2 0)
    have hsub : ∀ x, (m.splitEdge true nr nt nv e).sub x = if x = (nr, 0) then m.sub (lprev e) else if x = lprev e then (0, false) else
        (edgeBase m nr nt nv e).sub x := by
      intro x
      rw [(splitEdge_sub_hull ht0).1, S1, b1]
      simp only [Function.update_apply]
    have live : ∀ y, L y.1 → y ≠ lnext (m.nbr e) := by
      rintro y hy rfl; rw [ht] at hy; exact h.dummy hy
    refine ⟨?_, ?_, ?_, ?_, ?_, ?_, ?_⟩
    · intro y hy
      have yr : y.1 ≠ nr := fun h0 => s.hnl (h0 ▸ hy)
      unfold edgeMap
      rw [hsub]
      by_cases e1 : y = lprev e
      · subst e1; simp
      simp only [e1, live y hy, if_false, f _ _ (show y.1 ≠ ((nr, 0) : Otri).1 from yr)]
      rw [base]; simp [yr]
    · intro y hy hs
      rw [(splitEdge_sub_hull ht0).2, movesub_stri _ _ _ _ hs, b1, edgeBase_stri, g.back y hy hs]
      have i2 := inj y hy hs (lprev e) s.tri.1
      unfold edgeMap
      simp only [i2, live y hy, if_false]
    · rw [hsub]; simp [f5]
    · rw [hsub]; simp [g5, b2]
    · rw [hsub]; simp [g5, b2]
    · simp
    · intro o ho hn
      rw [(splitEdge_sub_hull ht0).2, movesub_stri _ _ _ _ ho, b1, edgeBase_stri, if_neg (hn (lprev e) s.tri.1)]
  | true =>
    have ht0 := s.top0 h rfl
    have hlt := (s.top rfl).2.1.1
    have base := edgeBase_sub (nr := nr) (nt := nt) (nv := nv) ht0
    have b1 : (edgeBase m nr nt nv e).sub (lprev e) = m.sub (lprev e) := by rw [base]; simp [k1, k2]
    have b3 : (edgeBase m nr nt nv e).sub (lnext (m.nbr e)) = m.sub (lnext (m.nbr e)) := by rw [base]; simp [k5, k6]
    have b2 : ∀ o : Fin 3, (edgeBase m nr nt nv e).sub (nr, o) = (0, false) := by intro o; rw [base]; simp
    have b4 : ∀ o : Fin 3, (edgeBase m nr nt nv e).sub (nt, o) = (0, false) := by intro o; rw [base]; simp
    have S1 := movesub_sub (edgeBase m nr nt nv e) (lprev e) (nr, 0) (by rw [b1]; exact g.none _ s.tri.1) (b2 0)
    have s2 : ((edgeBase m nr nt nv e).movesub (lprev e) (nr, 0)).sub (lnext (m.nbr e)) = m.sub (lnext (m.nbr e)) := by
      rw [S1]; simp [Function.update_apply, d1.symm, f7, b3]
    have s3 : ((edgeBase m nr nt nv e).movesub (lprev e) (nr, 0)).sub (nt, 0) = (0, false) := by
      rw [S1]; simp [Function.update_apply, g6, k3.symm, b4]
    have S2 := movesub_sub ((edgeBase m nr nt nv e).movesub (lprev e) (nr, 0)) (lnext (m.nbr e)) (nt, 0) (by rw [s2]; exact g.none _ hlt) s3
    have hsub : ∀ x, (m.splitEdge true nr nt nv e).sub x = if x = (nt, 0) then m.sub (lnext (m.nbr e)) else if x = lnext (m.nbr e) then (0, false) else
        if x = (nr, 0) then m.sub (lprev e) else if x = lprev e then (0, false) else (edgeBase m nr nt nv e).sub x := by
      intro x
      rw [(splitEdge_sub_eq ht0).1, S2, s2, S1, b1]
      simp only [Function.update_apply]
    refine ⟨?_, ?_, ?_, ?_, ?_, ?_, ?_⟩
    · intro y hy
      have yr : y.1 ≠ nr := fun h0 => s.hnl (h0 ▸ hy)
      have yt : y.1 ≠ nt := fun h0 => s.hnr (h0 ▸ hy)
      unfold edgeMap
      rw [hsub]
      by_cases e1 : y = lprev e
      · subst e1; simp [k3, g7]
      by_cases e2 : y = lnext (m.nbr e)
      · subst e2; simp [d1.symm]
      simp only [e1, e2, if_false, f _ _ (show y.1 ≠ ((nr, 0) : Otri).1 from yr), f _ _ (show y.1 ≠ ((nt, 0) : Otri).1 from yt)]
      rw [base]; simp [yr, yt]
    · intro y hy hs
      rw [(splitEdge_sub_eq ht0).2, movesub_stri _ _ _ _ hs, movesub_stri _ _ _ _ hs, s2, b1, edgeBase_stri, g.back y hy hs]
      have i1 := inj y hy hs (lprev e) s.tri.1
      have i2 := inj y hy hs (lnext (m.nbr e)) hlt
      unfold edgeMap
      simp only [i1, i2]
      by_cases e1 : y = lprev e
      · subst e1; simp [d1]
      · simp [e1]
    · rw [hsub]; simp [f6, d1, f5]
    · rw [hsub]; simp [k3, g7, g5, b2]
    · rw [hsub]; simp [k3, g7, g5, b2]
    · intro _
      refine ⟨?_, ?_, ?_⟩
      · rw [hsub]; simp [f8]
      · rw [hsub]; simp [k3.symm, g8, g6, b4]
      · rw [hsub]; simp [k3.symm, g8, g6, b4]
    · intro o ho hn
      rw [(splitEdge_sub_eq ht0).2, movesub_stri _ _ _ _ ho, movesub_stri _ _ _ _ ho, s2, b1, edgeBase_stri, if_neg (hn (lnext (m.nbr e)) hlt), if_neg (hn (lprev e) s.tri.1)]

theorem splitEdge_segmented (g : Segmented m L) : Segmented (m.splitEdge true nr nt nv e) (WithE L nr nt tp) := by
  obtain ⟨a1, a2, a3, a4, a5, a6, -⟩ := splitEdge_sub h s g
  obtain ⟨b1, b2, b3, b4, b5⟩ := splitEdge_nbr h s true
  obtain ⟨m1, m2, m3, m4, m5, m6⟩ := edgeMap_eq h s
  have st := splitEdge_starred h s true
  refine segmented_of_map h g (edgeMap m e nr nt) st.dummy m6 b5 a1 a2 ?_
  intro x hx
  by_cases he : x.1 = e.1
  · rcases handle_cases e x he with rfl | rfl | rfl
    · exact Or.inl ⟨x, s.tri.1, m1.symm⟩
    · exact Or.inl ⟨lnext e, s.tri.1, m2.symm⟩
    · exact Or.inr ⟨a3, fun _ => by rw [b2]; exact a5⟩
  by_cases hT : tp = true ∧ x.1 = (m.nbr e).1
  · obtain ⟨ht, hT⟩ := hT
    have hl := (s.top ht).2.1.1
    rcases handle_cases (m.nbr e) x hT with rfl | rfl | rfl
    · exact Or.inl ⟨_, hl, (m4 ht).1.symm⟩
    · exact Or.inr ⟨(a6 ht).1, fun _ => by rw [(b4 ht).2.1]; exact (a6 ht).2.1⟩
    · exact Or.inl ⟨lprev (m.nbr e), hl, (m4 ht).2.2.symm⟩
  have hT' : tp = true → x.1 ≠ (m.nbr e).1 := fun ht h0 => hT ⟨ht, h0⟩
  obtain ⟨t, o⟩ := x
  rcases hx with hx | hx | ⟨ht, hx⟩
  · exact Or.inl ⟨(t, o), hx, (m5 (t, o) hx he hT').symm⟩
  · simp only at hx; subst hx
    rcases (by decide : ∀ o : Fin 3, o = 0 ∨ o = 1 ∨ o = 2) o with rfl | rfl | rfl
    · exact Or.inl ⟨lprev e, s.tri.1, m3.symm⟩
    · refine Or.inr ⟨a4, fun hl => ?_⟩
      cases tp with
      | false => rw [b3 rfl] at hl; exact absurd hl st.dummy
      | true => rw [(b4 rfl).2.2.2]; exact (a6 rfl).2.2
    · exact Or.inr ⟨a5, fun _ => by rw [b1]; exact a3⟩
  · simp only at hx; subst hx
    rcases (by decide : ∀ o : Fin 3, o = 0 ∨ o = 1 ∨ o = 2) o with rfl | rfl | rfl
    · exact Or.inl ⟨lnext (m.nbr e), (s.top ht).2.1.1, (m4 ht).2.1.symm⟩
    · exact Or.inr ⟨(a6 ht).2.1, fun _ => by rw [(b4 ht).1]; exact (a6 ht).1⟩
    · exact Or.inr ⟨(a6 ht).2.2, fun _ => by rw [(b4 ht).2.2.1]; exact a4⟩

theorem splitEdge_keeps (g : Segmented m L) (h0 : (m.sub e).1 = 0) : KeepsSubs m L (m.splitEdge true nr nt nv e) (WithE L nr nt tp) := by
  intro x v w hx hs
  refine ⟨edgeMap m e nr nt x, ((splitEdge_starred h s true).dir _ _ _).2 (Or.inl ⟨x, ?_, rfl, hx⟩), (splitEdge_sub h s g).1 x hx.1⟩
  rintro (rfl | rfl)
  · exact hs h0
  · exact hs (g.neither e s.tri.1 hx.1 h0)

end
end Delynoi.Tri
