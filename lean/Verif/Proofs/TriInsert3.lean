import Verif.Proofs.TriInsert2
/-! # Splitting a triangle: geometry and subsegments -/
set_option linter.unusedSectionVars false
namespace Delynoi.Tri

section
variable {K : Type} [Field K] [LinearOrder K] [IsStrictOrderedRing K]

theorem cone2' {v A B D W : Pt K} (h1 : 0 < turn v A D) (h2 : 0 ≤ turn v D B) (h3 : 0 < turn v A B)
    (h4 : 0 < turn v A W) (h5 : 0 < turn v W D) : 0 < turn v W B := by
  have : turn v A D * turn v W B = turn v W D * turn v A B + turn v A W * turn v D B := by
    simp only [turn]; ring
  exact (mul_pos_iff_of_pos_left h1).1 (this ▸ add_pos_of_pos_of_nonneg (mul_pos h5 h3) (mul_nonneg h4.le h2))

theorem cone1' {v A B C W : Pt K} (h1 : 0 < turn v C A) (h2 : 0 ≤ turn v B C) (h3 : 0 < turn v B A)
    (h4 : 0 < turn v C W) (h5 : 0 < turn v W A) : 0 < turn v B W := by
  have : turn v C A * turn v B W = turn v W A * turn v B C + turn v C W * turn v B A := by
    simp only [turn]; ring
  exact (mul_pos_iff_of_pos_left h1).1 (this ▸ add_pos_of_nonneg_of_pos (mul_nonneg h5.le h2) (mul_pos h4 h3))

theorem turn_same (v A : Pt K) : turn v A A = 0 := by simp only [turn]; ring

variable {m : Heap} {L : Nat → Prop} {pos : Nat → Pt K}

/-- Triangles at a vertex with a common inner direction are the same. -/
theorem same_cone (h : Linked m L) (f : Flat m L pos) {x y : Otri} {v A B A' B' : Nat} (hx : m.Tri3 L x v A B)
    (hy : m.Tri3 L y v A' B') {p : Pt K} (h1 : 0 < turn (pos v) (pos A) p) (h2 : 0 < turn (pos v) p (pos B))
    (h3 : 0 < turn (pos v) (pos A') p) (h4 : 0 < turn (pos v) p (pos B')) : x = y := by
  have D1 := Tri3.dirs hx
  have D2 := Tri3.dirs hy
  obtain ⟨s1, s2⟩ := same_start h1 h2 (f.ccw _ _ _ _ hx) h3 h4 (f.ccw _ _ _ _ hy)
    (f.cone _ _ _ _ A' hx ⟨_, Or.inl D2.2.1⟩) (f.cone _ _ _ _ A hy ⟨_, Or.inl D1.2.1⟩)
  have := f.rays v A A' ⟨_, Or.inl D1.2.1⟩ ⟨_, Or.inl D2.2.1⟩ s1 s2
  subst this
  have := h.once _ _ _ _ D2.2.1 D1.2.1
  have := congrArg lnext this
  simpa using this.symm

/-- No edge has a direction that is inside a triangle. -/
theorem ray_in (f : Flat m L pos) {x : Otri} {v A B w : Nat} (hx : m.Tri3 L x v A B) (hw : m.Adj L v w) {p : Pt K}
    (v1 : 0 < turn (pos v) (pos A) p) (v2 : 0 < turn (pos v) p (pos B)) (h0 : turn (pos v) p (pos w) = 0)
    (hp : 0 < (p.x - (pos v).x) * ((pos w).x - (pos v).x) + (p.y - (pos v).y) * ((pos w).y - (pos v).y)) : False := by
  refine f.cone _ _ _ _ w hx hw ⟨?_, ?_⟩
  · have hn := norm_pos (ne_of_gt v1)
    have : (p.x - (pos v).x) ^ 2 * turn (pos v) (pos A) (pos w) + (p.y - (pos v).y) ^ 2 * turn (pos v) (pos A) (pos w) =
        turn (pos v) (pos A) p * ((p.x - (pos v).x) * ((pos w).x - (pos v).x) + (p.y - (pos v).y) * ((pos w).y - (pos v).y)) := by
      simp only [turn] at h0 ⊢
      linear_combination (((pos A).x - (pos v).x) * (p.x - (pos v).x) + ((pos A).y - (pos v).y) * (p.y - (pos v).y)) * h0
    rw [← add_mul] at this
    exact (mul_pos_iff_of_pos_left hn).1 (this ▸ mul_pos v1 hp)
  · have hn := norm_pos (ne_of_gt v1)
    have : (p.x - (pos v).x) ^ 2 * turn (pos v) (pos w) (pos B) + (p.y - (pos v).y) ^ 2 * turn (pos v) (pos w) (pos B) =
        turn (pos v) p (pos B) * ((p.x - (pos v).x) * ((pos w).x - (pos v).x) + (p.y - (pos v).y) * ((pos w).y - (pos v).y)) := by
      simp only [turn] at h0 ⊢
      linear_combination (-(((pos B).x - (pos v).x) * (p.x - (pos v).x) + ((pos B).y - (pos v).y) * (p.y - (pos v).y))) * h0
    rw [← add_mul] at this
    exact (mul_pos_iff_of_pos_left hn).1 (this ▸ mul_pos v2 hp)

section
variable {e : Otri} {nl nr nv b r l : Nat} (h : Linked m L) (s : SplitAt m L e nl nr nv b r l)
include h s

theorem SplitAt.rots : m.Tri3 L e b r l ∧ m.Tri3 L (lnext e) r l b ∧ m.Tri3 L (lprev e) l b r := by
  obtain ⟨t0, t1, t2, t3⟩ := tri3_iff.1 s.tri
  exact ⟨s.tri, tri3_iff.2 ⟨t0, t2, by rw [lnext_lnext]; exact t3, by rw [lprev_lnext]; exact t1⟩,
    tri3_iff.2 ⟨t0, t3, by rw [lnext_lprev]; exact t1, by rw [lprev_lprev]; exact t2⟩⟩

theorem splitTriangle_adj (cs : Bool) {v w : Nat} (hvw : (m.splitTriangle cs nl nr nv e).Adj (With L nl nr) v w) :
    (m.Adj L v w ∧ v ≠ nv ∧ w ≠ nv) ∨ (v = nv ∧ (w = b ∨ w = r ∨ w = l)) ∨ (w = nv ∧ (v = b ∨ v = r ∨ v = l)) := by
  obtain ⟨x, hx⟩ := hvw
  rw [(splitTriangle_starred h s cs).dir, (splitTriangle_starred h s cs).dir] at hx
  have fr := s.fresh
  rcases hx with (⟨y, -, -, hy⟩ | ⟨rfl, ho⟩ | ⟨rfl, ho⟩) | (⟨y, -, -, hy⟩ | ⟨rfl, ho⟩ | ⟨rfl, ho⟩)
  · exact Or.inl ⟨⟨y, Or.inl hy⟩, fun h0 => (fr y w).1 (h0 ▸ hy), fun h0 => (fr y v).2 (h0 ▸ hy)⟩
  · refine Or.inr (Or.inl ⟨rfl, ?_⟩); rcases ho with ⟨h0, -⟩ | ⟨h0, -⟩ | ⟨h0, -⟩ <;> simp [h0]
  · refine Or.inr (Or.inr ⟨rfl, ?_⟩); rcases ho with ⟨h0, -⟩ | ⟨h0, -⟩ | ⟨h0, -⟩ <;> simp [h0]
  · exact Or.inl ⟨⟨y, Or.inr hy⟩, fun h0 => (fr y w).2 (h0 ▸ hy), fun h0 => (fr y v).1 (h0 ▸ hy)⟩
  · refine Or.inr (Or.inr ⟨rfl, ?_⟩); rcases ho with ⟨h0, -⟩ | ⟨h0, -⟩ | ⟨h0, -⟩ <;> simp [h0]
  · refine Or.inr (Or.inl ⟨rfl, ?_⟩); rcases ho with ⟨h0, -⟩ | ⟨h0, -⟩ | ⟨h0, -⟩ <;> simp [h0]

/-- The triangulation stays flat if the new vertex is inside the triangle. -/
theorem splitTriangle_flat (cs : Bool) (f : Flat m L pos) (p1 : 0 < turn (pos r) (pos l) (pos nv)) (p2 : 0 < turn (pos l) (pos b) (pos nv))
    (p3 : 0 < turn (pos b) (pos r) (pos nv)) : Flat (m.splitTriangle cs nl nr nv e) (With L nl nr) pos := by
  obtain ⟨R1, R2, R3⟩ := s.rots h
  have t1 := f.ccw _ _ _ _ R1
  have t2 := f.ccw _ _ _ _ R2
  have t3 := f.ccw _ _ _ _ R3
  have rot : ∀ p q r : Pt K, turn q r p = turn p q r := turn_rotate
  have q1 : 0 < turn (pos nv) (pos r) (pos l) := by rw [← rot]; exact p1
  have q2 : 0 < turn (pos nv) (pos l) (pos b) := by rw [← rot]; exact p2
  have q3 : 0 < turn (pos nv) (pos b) (pos r) := by rw [← rot]; exact p3
  have p1' : 0 < turn (pos l) (pos nv) (pos r) := by rw [rot]; exact p1
  have p2' : 0 < turn (pos b) (pos nv) (pos l) := by rw [rot]; exact p2
  have p3' : 0 < turn (pos r) (pos nv) (pos b) := by rw [rot]; exact p3
  have z : ∀ v A : Pt K, turn v A A = 0 := turn_same
  have an : ∀ v A B : Pt K, turn v A B = - turn v B A := turn_anti
  obtain ⟨v1, v2, v3⟩ := s.nv_ne h
  have n1 := s.rl; have n2 := s.lb; have n3 := s.br
  have old : ∀ {v w}, v ≠ nv → (m.splitTriangle cs nl nr nv e).Adj (With L nl nr) v w → w = nv ∨ m.Adj L v w := by
    intro v w hv hw
    rcases splitTriangle_adj h s cs hw with ⟨hw, -, -⟩ | ⟨h0, -⟩ | ⟨h0, -⟩
    exacts [Or.inr hw, absurd h0 hv, Or.inl h0]
  have new : ∀ {w}, (m.splitTriangle cs nl nr nv e).Adj (With L nl nr) nv w → w = b ∨ w = r ∨ w = l := by
    intro w hw
    rcases splitTriangle_adj h s cs hw with ⟨-, h0, -⟩ | ⟨-, h0⟩ | ⟨-, h0⟩
    · exact absurd rfl h0
    · exact h0
    · rcases h0 with h0 | h0 | h0
      exacts [absurd h0 v1, absurd h0 v2, absurd h0 v3]
  refine ⟨?_, ?_, ?_⟩
  · intro x v A B hx
    rcases splitTriangle_tri h s cs hx with ⟨k, -⟩ | ⟨-, rfl, rfl, rfl⟩ | ⟨-, rfl, rfl, rfl⟩ | ⟨-, rfl, rfl, rfl⟩ | ⟨-, rfl, rfl, rfl⟩ |
      ⟨-, rfl, rfl, rfl⟩ | ⟨-, rfl, rfl, rfl⟩ | ⟨-, rfl, rfl, rfl⟩ | ⟨-, rfl, rfl, rfl⟩ | ⟨-, rfl, rfl, rfl⟩
    · exact f.ccw _ _ _ _ k
    all_goals assumption
  · rintro x v A B w hx hw ⟨w1, w2⟩
    rcases splitTriangle_tri h s cs hx with ⟨k, he⟩ | ⟨-, rfl, rfl, rfl⟩ | ⟨-, rfl, rfl, rfl⟩ | ⟨-, rfl, rfl, rfl⟩ | ⟨-, rfl, rfl, rfl⟩ |
      ⟨-, rfl, rfl, rfl⟩ | ⟨-, rfl, rfl, rfl⟩ | ⟨-, rfl, rfl, rfl⟩ | ⟨-, rfl, rfl, rfl⟩ | ⟨-, rfl, rfl, rfl⟩
    · rcases splitTriangle_adj h s cs hw with ⟨hw, -, -⟩ | ⟨rfl, -⟩ | ⟨rfl, hv⟩
      · exact f.cone _ _ _ _ w k hw ⟨w1, w2⟩
      · exact (s.fresh _ _).1 (Tri3.dirs k).2.1
      · rcases hv with rfl | rfl | rfl
        · exact he (by rw [same_cone h f k R1 w1 w2 p3 p2'])
        · exact he (by rw [same_cone h f k R2 w1 w2 p1 p3']; rfl)
        · exact he (by rw [same_cone h f k R3 w1 w2 p2 p1']; rfl)
    · rcases new hw with rfl | rfl | rfl
      · rw [an] at w1; linarith
      · rw [z] at w1; exact lt_irrefl _ w1
      · rw [z] at w2; exact lt_irrefl _ w2
    · rcases old v2.symm hw with rfl | hw
      · rw [z] at w2; exact lt_irrefl _ w2
      · exact f.cone _ _ _ _ w R2 hw ⟨w1, cone2' p1 p3'.le t2 w1 w2⟩
    · rcases old v3.symm hw with rfl | hw
      · rw [z] at w1; exact lt_irrefl _ w1
      · exact f.cone _ _ _ _ w R3 hw ⟨cone1' p1' p2.le t3 w1 w2, w2⟩
    · rcases new hw with rfl | rfl | rfl
      · rw [z] at w2; exact lt_irrefl _ w2
      · rw [an] at w1; linarith
      · rw [z] at w1; exact lt_irrefl _ w1
    · rcases old v3.symm hw with rfl | hw
      · rw [z] at w2; exact lt_irrefl _ w2
      · exact f.cone _ _ _ _ w R3 hw ⟨w1, cone2' p2 p1'.le t3 w1 w2⟩
    · rcases old v1.symm hw with rfl | hw
      · rw [z] at w1; exact lt_irrefl _ w1
      · exact f.cone _ _ _ _ w R1 hw ⟨cone1' p2' p3.le t1 w1 w2, w2⟩
    · rcases new hw with rfl | rfl | rfl
      · rw [z] at w1; exact lt_irrefl _ w1
      · rw [z] at w2; exact lt_irrefl _ w2
      · rw [an] at w1; linarith
    · rcases old v1.symm hw with rfl | hw
      · rw [z] at w2; exact lt_irrefl _ w2
      · exact f.cone _ _ _ _ w R1 hw ⟨w1, cone2' p3 p2'.le t1 w1 w2⟩
    · rcases old v2.symm hw with rfl | hw
      · rw [z] at w1; exact lt_irrefl _ w1
      · exact f.cone _ _ _ _ w R2 hw ⟨cone1' p3' p1.le t2 w1 w2, w2⟩
  · intro v w w' hw hw' h0 hp
    have h0' : turn (pos v) (pos w') (pos w) = 0 := by rw [an, h0, neg_zero]
    have hp' : 0 < ((pos w').x - (pos v).x) * ((pos w).x - (pos v).x) + ((pos w').y - (pos v).y) * ((pos w).y - (pos v).y) := by
      rw [mul_comm _ ((pos w).x - (pos v).x), mul_comm _ ((pos w).y - (pos v).y)]; exact hp
    rcases splitTriangle_adj h s cs hw with ⟨ho, x1, x2⟩ | ⟨rfl, hv⟩ | ⟨rfl, hv⟩ <;>
      rcases splitTriangle_adj h s cs hw' with ⟨ho', y1, y2⟩ | ⟨y0, hv'⟩ | ⟨y0, hv'⟩
    · exact f.rays v w w' ho ho' h0 hp
    · exact absurd y0 x1
    · exfalso
      subst y0
      rcases hv' with rfl | rfl | rfl
      · exact ray_in f R1 ho p3 p2' h0' hp'
      · exact ray_in f R2 ho p1 p3' h0' hp'
      · exact ray_in f R3 ho p2 p1' h0' hp'
    · exact absurd rfl y1
    · rcases hv with rfl | rfl | rfl <;> rcases hv' with rfl | rfl | rfl <;> first | rfl | (exfalso; linarith) | (exfalso; rw [an] at h0; linarith)
    · rcases hv with rfl | rfl | rfl <;> rcases hv' with h1 | h1 | h1 <;> omega
    · exfalso
      rcases hv with rfl | rfl | rfl
      · exact ray_in f R1 ho' p3 p2' h0 hp
      · exact ray_in f R2 ho' p1 p3' h0 hp
      · exact ray_in f R3 ho' p2 p1' h0 hp
    · rcases hv with h1 | h1 | h1 <;> omega
    · exact y0.symm

end
end

/-! ### Subsegments -/

/-- Subsegments move with their edges. -/
theorem segmented_of_map {m m' : Heap} {L L' : Nat → Prop} (h : Linked m L) (g : Segmented m L) (ψ : Otri → Otri)
    (h0 : ¬ L' 0) (hz : ψ (0, 0) = (0, 0)) 
    (nbr : ∀ y, L y.1 → m'.nbr (ψ y) = ψ (m.nbr y)) (sub : ∀ y, L y.1 → m'.sub (ψ y) = m.sub y)
    (stri : ∀ y, L y.1 → (m.sub y).1 ≠ 0 → m'.stri (m.sub y) = ψ y)
    (cover : ∀ x, L' x.1 → (∃ y, L y.1 ∧ x = ψ y) ∨ (m'.sub x = (0, false) ∧ (L' (m'.nbr x).1 → m'.sub (m'.nbr x) = (0, false)))) :
    Segmented m' L' := by
  have back : ∀ y, L y.1 → L' (m'.nbr (ψ y)).1 → L (m.nbr y).1 := by
    intro y hy hl
    rw [nbr y hy] at hl
    by_cases hn : m.nbr y = (0, 0)
    · rw [hn, hz] at hl; exact absurd hl h0
    · exact (h.across hy hn).1
  refine ⟨?_, ?_, ?_, ?_, ?_⟩
  · intro x hx hs
    rcases cover x hx with ⟨y, hy, rfl⟩ | ⟨h1, -⟩
    · rw [sub y hy] at hs ⊢; exact stri y hy hs
    · rw [h1] at hs; exact absurd rfl hs
  · intro x hx hs
    rcases cover x hx with ⟨y, hy, rfl⟩ | ⟨h1, -⟩
    · rw [sub y hy] at hs ⊢; exact g.none y hy hs
    · exact h1
  · intro x hx hl hs
    rcases cover x hx with ⟨y, hy, rfl⟩ | ⟨h1, -⟩
    · have hl' := back y hy hl
      rw [sub y hy] at hs ⊢
      rw [nbr y hy, sub _ hl']; exact g.both y hy hl' hs
    · rw [h1] at hs; exact absurd rfl hs
  · intro x hx hl hs
    rcases cover x hx with ⟨y, hy, rfl⟩ | ⟨h1, h2⟩
    · have hl' := back y hy hl
      rw [sub y hy] at hs
      rw [nbr y hy, sub _ hl']; exact g.neither y hy hl' hs
    · rw [h2 hl]
  · intro x x' hx hx' hs he
    rcases cover x hx with ⟨y, hy, rfl⟩ | ⟨h1, -⟩
    · rcases cover x' hx' with ⟨y', hy', rfl⟩ | ⟨h2, -⟩
      · rw [sub y hy] at hs
        rw [sub y hy, sub y' hy'] at he
        rw [nbr y hy]
        rcases g.same y y' hy hy' hs he with k | k
        · left; rw [k]
        · right; rw [k]
      · rw [h2] at he; exact absurd he hs
    · rw [h1] at hs; exact absurd rfl hs

theorem movesub_pos {m : Heap} {x : Otri} (y : Otri) (hs : (m.sub x).1 ≠ 0) : m.movesub x y = (m.tsdissolve x).tsbond y (m.sub x) := by
  simp only [Heap.movesub, Heap.tspivot, hs, ne_eq, not_false_eq_true, if_true]
theorem movesub_neg {m : Heap} {x : Otri} (y : Otri) (hs : (m.sub x).1 = 0) : m.movesub x y = m := by
  simp only [Heap.movesub, Heap.tspivot, hs, ne_eq, not_true_eq_false, if_false]

theorem movesub_congr {m m' : Heap} (x y : Otri) (h1 : m.sub = m'.sub) (h2 : m.stri = m'.stri) :
    (m.movesub x y).sub = (m'.movesub x y).sub ∧ (m.movesub x y).stri = (m'.movesub x y).stri := by
  by_cases hs : (m.sub x).1 = 0
  · rw [movesub_neg y hs, movesub_neg y (by rw [← h1]; exact hs)]; exact ⟨h1, h2⟩
  · rw [movesub_pos y hs, movesub_pos y (by rw [← h1]; exact hs)]
    simp only [Heap.tsbond, Heap.tsdissolve, h1, h2, and_self]

theorem movesub_sub (m : Heap) (x y : Otri) (hn : (m.sub x).1 = 0 → m.sub x = (0, false)) (hy : m.sub y = (0, false)) :
    (m.movesub x y).sub = Function.update (Function.update m.sub x (0, false)) y (m.sub x) := by
  by_cases hs : (m.sub x).1 = 0
  · rw [movesub_neg y hs]
    funext z
    simp only [Function.update_apply]
    split_ifs with h1 h2
    · rw [h1, hy, hn hs]
    · rw [h2, hn hs]
    · rfl
  · rw [movesub_pos y hs]; rfl

theorem movesub_stri (m : Heap) (x y : Otri) (o : Osub) (ho : o.1 ≠ 0) :
    (m.movesub x y).stri o = if o = m.sub x then y else m.stri o := by
  by_cases hs : (m.sub x).1 = 0
  · rw [movesub_neg y hs, if_neg (by rintro rfl; exact ho hs)]
  · rw [movesub_pos y hs]
    simp only [Heap.tsbond, Heap.tsdissolve, Function.update_apply]

section
variable {m : Heap} {L : Nat → Prop} {e : Otri} {nl nr nv b r l : Nat} (h : Linked m L) (s : SplitAt m L e nl nr nv b r l)

/-- The mesh before subsegments are moved. -/
def splitBase (m : Heap) (nl nr nv : Nat) (e : Otri) : Heap :=
  { (m.splitTriangle false nl nr nv e) with nbr := m.nbr }

theorem splitTriangle_sub_eq : (m.splitTriangle true nl nr nv e).sub =
    (((splitBase m nl nr nv e).movesub (lnext e) (nl, 0)).movesub (lprev e) (nr, 0)).sub ∧
    (m.splitTriangle true nl nr nv e).stri = (((splitBase m nl nr nv e).movesub (lnext e) (nl, 0)).movesub (lprev e) (nr, 0)).stri := by
  simp only [Heap.splitTriangle, Heap.bond, if_true]
  obtain ⟨k1, k2⟩ := movesub_congr (m := ((((((((m.maketriangle nl).maketriangle nr).setorg (nl, 0)
    (((m.maketriangle nl).maketriangle nr).dest e)).setdest (nl, 0) (((m.maketriangle nl).maketriangle nr).apex e)).setapex
    (nl, 0) (some nv)).setorg (nr, 0) (((m.maketriangle nl).maketriangle nr).apex e)).setdest
    (nr, 0) (((m.maketriangle nl).maketriangle nr).org e)).setapex (nr, 0) (some nv)).setapex e (some nv))
    (m' := splitBase m nl nr nv e) (lnext e) (nl, 0) (by
      simp only [Heap.splitTriangle, splitBase, Heap.bond, Bool.false_eq_true, if_false]) (by
      simp only [Heap.splitTriangle, splitBase, Heap.bond, Bool.false_eq_true, if_false])
  exact movesub_congr _ _ k1 k2

theorem splitBase_sub (x : Otri) : (splitBase m nl nr nv e).sub x = if x.1 = nr then (0, false) else if x.1 = nl then (0, false) else m.sub x := by
  simp only [Heap.splitTriangle, splitBase, Heap.bond, Heap.setorg, Heap.setdest,
    Heap.setapex, Heap.maketriangle, Bool.false_eq_true, if_false]
  rfl
theorem splitBase_stri : (splitBase m nl nr nv e).stri = m.stri := by
  simp only [Heap.splitTriangle, splitBase, Heap.bond, Heap.setorg, Heap.setdest,
    Heap.setapex, Heap.maketriangle, Bool.false_eq_true, if_false]

include s

theorem splitTriangle_sub (g : Segmented m L) :
    (∀ y, L y.1 → (m.splitTriangle true nl nr nv e).sub (splitMap e nl nr y) = m.sub y) ∧
    (∀ y, L y.1 → (m.sub y).1 ≠ 0 → (m.splitTriangle true nl nr nv e).stri (m.sub y) = splitMap e nl nr y) ∧
    (m.splitTriangle true nl nr nv e).sub (lnext e) = (0, false) ∧ (m.splitTriangle true nl nr nv e).sub (lprev e) = (0, false) ∧
    (m.splitTriangle true nl nr nv e).sub (nl, 1) = (0, false) ∧ (m.splitTriangle true nl nr nv e).sub (nl, 2) = (0, false) ∧
    (m.splitTriangle true nl nr nv e).sub (nr, 1) = (0, false) ∧ (m.splitTriangle true nl nr nv e).sub (nr, 2) = (0, false) := by
  have k1 := s.el
  have k2 := s.er
  have k3 := s.lr
  have f : ∀ (x : Otri) (p : Nat × Fin 3), x.1 ≠ p.1 → x ≠ p := fun x p hh h0 => hh (by rw [h0])
  have d1 := lnext_ne_lprev e
  have b1 : (splitBase m nl nr nv e).sub (lnext e) = m.sub (lnext e) := by rw [splitBase_sub]; simp [k1, k2]
  have b2 : (splitBase m nl nr nv e).sub (lprev e) = m.sub (lprev e) := by rw [splitBase_sub]; simp [k1, k2]
  have b3 : ∀ o : Fin 3, (splitBase m nl nr nv e).sub (nl, o) = (0, false) := by intro o; rw [splitBase_sub]; simp
  have b4 : ∀ o : Fin 3, (splitBase m nl nr nv e).sub (nr, o) = (0, false) := by intro o; rw [splitBase_sub]; simp
  have f3 : ∀ o : Fin 3, lnext e ≠ (nl, o) := fun o => f _ _ k1
  have f4 : ∀ o : Fin 3, lnext e ≠ (nr, o) := fun o => f _ _ k2
  have f5 : ∀ o : Fin 3, lprev e ≠ (nl, o) := fun o => f _ _ k1
  have f6 : ∀ o : Fin 3, lprev e ≠ (nr, o) := fun o => f _ _ k2
  have g3 : ∀ o : Fin 3, (nl, o) ≠ lnext e := fun o => (f3 o).symm
  have g4 : ∀ o : Fin 3, (nr, o) ≠ lnext e := fun o => (f4 o).symm
  have g5 : ∀ o : Fin 3, (nl, o) ≠ lprev e := fun o => (f5 o).symm
  have g6 : ∀ o : Fin 3, (nr, o) ≠ lprev e := fun o => (f6 o).symm
  have S1 := movesub_sub (splitBase m nl nr nv e) (lnext e) (nl, 0) (by rw [b1]; exact g.none _ s.tri.1) (b3 0)
  have s2 : ((splitBase m nl nr nv e).movesub (lnext e) (nl, 0)).sub (lprev e) = m.sub (lprev e) := by
    rw [S1]; simp [Function.update_apply, d1.symm, f5, b2]
  have s3 : ((splitBase m nl nr nv e).movesub (lnext e) (nl, 0)).sub (nr, 0) = (0, false) := by
    rw [S1]; simp [Function.update_apply, g4, k3.symm, b4]
  have S2 := movesub_sub ((splitBase m nl nr nv e).movesub (lnext e) (nl, 0)) (lprev e) (nr, 0) (by rw [s2]; exact g.none _ s.tri.1) s3
  have hsub : ∀ x, (m.splitTriangle true nl nr nv e).sub x = if x = (nr, 0) then m.sub (lprev e) else if x = lprev e then (0, false) else
      if x = (nl, 0) then m.sub (lnext e) else if x = lnext e then (0, false) else (splitBase m nl nr nv e).sub x := by
    intro x
    rw [splitTriangle_sub_eq.1, S2, s2, S1, b1]
    simp only [Function.update_apply]
  refine ⟨?_, ?_, ?_, ?_, ?_, ?_, ?_, ?_⟩
  · intro y hy
    have yl : y.1 ≠ nl := fun h0 => s.hnl (h0 ▸ hy)
    have yr : y.1 ≠ nr := fun h0 => s.hnr (h0 ▸ hy)
    unfold splitMap
    rw [hsub]
    by_cases e1 : y = lnext e
    · subst e1; simp [k3, g5]
    by_cases e2 : y = lprev e
    · subst e2; simp [d1.symm]
    simp only [e1, e2, if_false, f _ _ (show y.1 ≠ ((nr, 0) : Otri).1 from yr), f _ _ (show y.1 ≠ ((nl, 0) : Otri).1 from yl)]
    rw [splitBase_sub]; simp [yl, yr]
  · intro y hy hs
    have inj : ∀ x, L x.1 → (m.sub y = m.sub x ↔ y = x) := by
      intro x hx
      constructor
      · intro hh
        have h1 := g.back y hy hs
        have h2 := g.back x hx (hh ▸ hs)
        rw [hh, h2] at h1; exact h1.symm
      · rintro rfl; rfl
    rw [splitTriangle_sub_eq.2, movesub_stri _ _ _ _ hs, movesub_stri _ _ _ _ hs, s2, b1, splitBase_stri, g.back y hy hs]
    have i1 := inj (lnext e) s.tri.1
    have i2 := inj (lprev e) s.tri.1
    unfold splitMap
    simp only [i1, i2]
    by_cases e1 : y = lnext e
    · subst e1; simp [d1]
    · simp [e1]
  · rw [hsub]; simp [f4, d1, f3]
  · rw [hsub]; simp [f6]
  · rw [hsub]; simp [k3, g5, g3, b3]
  · rw [hsub]; simp [k3, g5, g3, b3]
  · rw [hsub]; simp [k3.symm, g6, g4, b4]
  · rw [hsub]; simp [k3.symm, g6, g4, b4]

include h

theorem splitTriangle_segmented (g : Segmented m L) : Segmented (m.splitTriangle true nl nr nv e) (With L nl nr) := by
  obtain ⟨a1, a2, a3, a4, a5, a6, a7, a8⟩ := splitTriangle_sub s g
  obtain ⟨b1, b2, b3, b4, b5, b6, b7⟩ := splitTriangle_nbr h s true
  have st := splitTriangle_starred h s true
  have e0 := s.e0 h
  have z1 : ((0, 0) : Otri) ≠ lnext e := fun h0 => e0 (congrArg Prod.fst h0).symm
  have z2 : ((0, 0) : Otri) ≠ lprev e := fun h0 => e0 (congrArg Prod.fst h0).symm
  refine segmented_of_map h g (splitMap e nl nr) st.dummy (by simp [splitMap, z1, z2]) b7 a1 a2 ?_
  · intro x hx
    by_cases he : x.1 = e.1
    · rcases handle_cases e x he with rfl | rfl | rfl
      · exact Or.inl ⟨x, s.tri.1, by simp [splitMap, (lnext_ne x).symm, (lprev_ne x).symm]⟩
      · exact Or.inr ⟨a3, fun _ => by rw [b4]; exact a6⟩
      · exact Or.inr ⟨a4, fun _ => by rw [b6]; exact a7⟩
    obtain ⟨t, o⟩ := x
    rcases hx with hx | hx | hx
    · left
      refine ⟨(t, o), hx, ?_⟩
      have k1 : (t, o) ≠ lnext e := fun h0 => he (by rw [h0]; rfl)
      have k2 : (t, o) ≠ lprev e := fun h0 => he (by rw [h0]; rfl)
      simp [splitMap, k1, k2]
    · simp only at hx; subst hx
      rcases (by decide : ∀ o : Fin 3, o = 0 ∨ o = 1 ∨ o = 2) o with rfl | rfl | rfl
      · exact Or.inl ⟨lnext e, s.tri.1, by simp [splitMap]⟩
      · exact Or.inr ⟨a5, fun _ => by rw [b1]; exact a8⟩
      · exact Or.inr ⟨a6, fun _ => by rw [b3]; exact a3⟩
    · simp only at hx; subst hx
      rcases (by decide : ∀ o : Fin 3, o = 0 ∨ o = 1 ∨ o = 2) o with rfl | rfl | rfl
      · exact Or.inl ⟨lprev e, s.tri.1, by simp [splitMap, (lnext_ne_lprev e).symm]⟩
      · exact Or.inr ⟨a7, fun _ => by rw [b5]; exact a4⟩
      · exact Or.inr ⟨a8, fun _ => by rw [b2]; exact a5⟩

theorem splitTriangle_keeps (g : Segmented m L) : KeepsSubs m L (m.splitTriangle true nl nr nv e) (With L nl nr) := by
  intro x v w hx _
  exact ⟨splitMap e nl nr x, ((splitTriangle_starred h s true).dir _ _ _).2 (Or.inl ⟨x, not_false, rfl, hx⟩),
    (splitTriangle_sub s g).1 x hx.1⟩

end
end Delynoi.Tri
