import Verif.Proofs.TriInsert5
/-! # Inserting a vertex in a triangle; Delaunay triangulations stay Delaunay -/
set_option linter.unusedSectionVars false
namespace Delynoi.Tri
variable {K : Type} [Field K] [LinearOrder K] [IsStrictOrderedRing K]

section
variable {m : Heap} {L : Nat → Prop} {e : Otri} {nl nr nv b r l : Nat} {pos : Nat → Pt K}

theorem splitTriangle_ring (h : Linked m L) (s : SplitAt m L e nl nr nv b r l) (cs : Bool) :
    Ring (m.splitTriangle cs nl nr nv e) (With L nl nr) nv r [e, (nl, 0), (nr, 0)] := by
  obtain ⟨c1, c2, c3, c4, c5, c6, c7, c8, c9, c10⟩ := splitTriangle_corner s cs
  obtain ⟨v1, v2, v3⟩ := s.nv_ne h
  have l1 : lnext ((nl, 0) : Otri) = (nl, 1) := rfl
  have l2 : lprev ((nl, 0) : Otri) = (nl, 2) := rfl
  have l3 : lnext ((nr, 0) : Otri) = (nr, 1) := rfl
  have l4 : lprev ((nr, 0) : Otri) = (nr, 2) := rfl
  refine ⟨?_, ?_, ?_, ?_, ?_⟩
  · intro x
    constructor
    · intro hx
      simp only [List.mem_cons, List.not_mem_nil, or_false] at hx
      rcases hx with rfl | rfl | rfl
      exacts [⟨Or.inl s.tri.1, c1⟩, ⟨Or.inr (Or.inl rfl), c4⟩, ⟨Or.inr (Or.inr rfl), c7⟩]
    · rintro ⟨hl, hx⟩
      by_cases he : x.1 = e.1
      · rcases handle_cases e x he with rfl | rfl | rfl
        · simp
        · rw [c2] at hx; cases hx; exact absurd rfl v2
        · rw [c3] at hx; cases hx; exact absurd rfl v3
      by_cases h1 : x.1 = nl
      · obtain ⟨t, o⟩ := x
        simp only at h1; subst h1
        rcases (by decide : ∀ o : Fin 3, o = 0 ∨ o = 1 ∨ o = 2) o with rfl | rfl | rfl
        · simp
        · rw [c5] at hx; cases hx; exact absurd rfl v3
        · rw [c6] at hx; cases hx; exact absurd rfl v1
      by_cases h2 : x.1 = nr
      · obtain ⟨t, o⟩ := x
        simp only at h2; subst h2
        rcases (by decide : ∀ o : Fin 3, o = 0 ∨ o = 1 ∨ o = 2) o with rfl | rfl | rfl
        · simp
        · rw [c8] at hx; cases hx; exact absurd rfl v1
        · rw [c9] at hx; cases hx; exact absurd rfl v2
      exfalso
      rw [c10 x he h1 h2] at hx
      have hl : L x.1 := by rcases hl with hl | hl | hl; exacts [hl, absurd hl h1, absurd hl h2]
      obtain ⟨w, hw⟩ := h.corners x.1 hl (lprev x).2
      refine (s.fresh (lnext x) w).2 (dir_iff.2 ⟨hl, ?_, ?_⟩)
      · rw [lnext_lnext]; exact hw
      · rw [lprev_lnext]; exact hx
  · have f : ∀ (x : Otri) (p : Nat × Fin 3), x.1 ≠ p.1 → x ≠ p := fun x p hh h0 => hh (by rw [h0])
    simp [f e (nl, 0) s.el, f e (nr, 0) s.er, s.lr]
  · simp [l1, l2, l3, c3, c5, c6, c8]
  · intro x hx; simp at hx; subst hx; exact c2
  · intro x hx; simp at hx; subst hx; rw [l4]; exact Or.inl c9

theorem splitTriangle_lone (h : Linked m L) (s : SplitAt m L e nl nr nv b r l) (cs : Bool) (v w : Nat) :
    Lone (m.splitTriangle cs nl nr nv e) (With L nl nr) v w ↔ Lone m L v w := by
  have st := splitTriangle_starred h s cs
  have key : ∀ v w, (∃ x, (m.splitTriangle cs nl nr nv e).Dir (With L nl nr) x v w) ↔
      (∃ x, m.Dir L x v w) ∨ (v = nv ∧ (w = b ∨ w = r ∨ w = l)) ∨ (w = nv ∧ (v = b ∨ v = r ∨ v = l)) := by
    intro v w
    constructor
    · rintro ⟨x, hx⟩
      rcases (st.dir _ _ _).1 hx with ⟨y, -, -, hy⟩ | ⟨k, hk⟩ | ⟨k, hk⟩
      · exact Or.inl ⟨y, hy⟩
      · refine Or.inr (Or.inl ⟨k, ?_⟩); rcases hk with ⟨hk, -⟩ | ⟨hk, -⟩ | ⟨hk, -⟩ <;> simp [hk]
      · refine Or.inr (Or.inr ⟨k, ?_⟩); rcases hk with ⟨hk, -⟩ | ⟨hk, -⟩ | ⟨hk, -⟩ <;> simp [hk]
    · obtain ⟨T0, T1, T2, -⟩ := splitTriangle_tris h s cs
      rintro (⟨y, hy⟩ | ⟨rfl, rfl | rfl | rfl⟩ | ⟨rfl, rfl | rfl | rfl⟩)
      · exact ⟨_, (st.dir _ _ _).2 (Or.inl ⟨y, not_false, rfl, hy⟩)⟩
      · exact ⟨_, (Tri3.dirs T2).2.1⟩
      · exact ⟨_, (Tri3.dirs T0).2.1⟩
      · exact ⟨_, (Tri3.dirs T1).2.1⟩
      · exact ⟨_, (Tri3.dirs T1).2.2⟩
      · exact ⟨_, (Tri3.dirs T2).2.2⟩
      · exact ⟨_, (Tri3.dirs T0).2.2⟩
  have fr := st.fresh
  unfold Lone
  rw [← not_exists, ← not_exists, key v w, key w v]
  constructor
  · rintro ⟨k | ⟨rfl, k⟩ | ⟨rfl, k⟩, k2⟩
    · exact ⟨k, fun hh => k2 (Or.inl hh)⟩
    · exact absurd (Or.inr (Or.inr ⟨rfl, k⟩)) k2
    · exact absurd (Or.inr (Or.inl ⟨rfl, k⟩)) k2
  · rintro ⟨⟨x, hx⟩, k2⟩
    refine ⟨Or.inl ⟨x, hx⟩, ?_⟩
    rintro (hh | ⟨rfl, -⟩ | ⟨rfl, -⟩)
    · exact k2 hh
    · exact (fr x v).2 hx
    · exact (fr x w).1 hx

theorem splitTriangle_keeps_back (h : Linked m L) (s : SplitAt m L e nl nr nv b r l) (g : Segmented m L) :
    KeepsSubs (m.splitTriangle true nl nr nv e) (With L nl nr) m L := by
  obtain ⟨a1, a2, a3, a4, a5, a6, a7, a8⟩ := splitTriangle_sub s g
  intro x v w hx hs
  rcases ((splitTriangle_starred h s true).dir _ _ _).1 hx with ⟨y, -, rfl, hy⟩ | ⟨-, ⟨-, rfl⟩ | ⟨-, rfl⟩ | ⟨-, rfl⟩⟩ | ⟨-, ⟨-, rfl⟩ | ⟨-, rfl⟩ | ⟨-, rfl⟩⟩
  · exact ⟨y, hy, (a1 y hy.1).symm⟩
  · rw [a6] at hs; exact absurd rfl hs
  · rw [a8] at hs; exact absurd rfl hs
  · rw [a4] at hs; exact absurd rfl hs
  · rw [a3] at hs; exact absurd rfl hs
  · rw [a5] at hs; exact absurd rfl hs
  · rw [a7] at hs; exact absurd rfl hs

/-- The insertion in a triangle. -/
theorem insertIn_spec (cs : Bool) (h : Linked m L) (f : Flat m L pos) (g : cs = true → Segmented m L) (s : SplitAt m L e nl nr nv b r l)
    (p1 : 0 < turn (pos r) (pos l) (pos nv)) (p2 : 0 < turn (pos l) (pos b) (pos nv)) (p3 : 0 < turn (pos b) (pos r) (pos nv))
    (ts : List Nat) (hts : ∀ t, L t → t ∈ ts) (fuel : Nat) (hf : 2 * ts.length < fuel) (W : Nat → Prop)
    (hW : ∀ a b d, (∃ y, m.Tri3 L y d b a) → ∀ o, sqDist o (pos d) = sqDist o (pos b) → sqDist o (pos d) = sqDist o (pos a) →
      sqDist o (pos nv) < sqDist o (pos d) → W d) :
    ∃ m' x, insertAt cs pos nv nl nr fuel m .inTriangle e = .ok (some (m', x)) ∧
      Legalized cs (m.splitTriangle cs nl nr nv e) (With L nl nr) pos nv (fun v A B => ∃ y, m.Tri3 L y v A B) (m.Adj L) W m' x := by
  obtain ⟨c1, c2, c3, -⟩ := splitTriangle_corner s cs
  obtain ⟨R1, R2, R3⟩ := s.rots h
  have hpos : 0 < ts.length := List.length_pos_of_mem (hts _ s.tri.1)
  obtain ⟨v1, v2, v3⟩ := s.nv_ne h
  have t1 := f.ccw _ _ _ _ R1
  have inside : ∀ o, sqDist o (pos b) = sqDist o (pos r) → sqDist o (pos b) = sqDist o (pos l) → sqDist o (pos nv) < sqDist o (pos b) := by
    intro o o1 o2
    have := power_weights (d := pos nv) o1 o2
    have q1 := sqDist_nonneg' (pos b) (pos nv)
    have q2 := sqDist_nonneg' (pos r) (pos nv)
    have q3 := sqDist_nonneg' (pos l) (pos nv)
    have q : 0 < sqDist (pos b) (pos nv) := by
      rcases q1.lt_or_eq with q1 | q1
      · exact q1
      · exfalso
        unfold sqDist at q1
        have hx : (pos b).x - (pos nv).x = 0 := by nlinarith [sq_nonneg ((pos b).x - (pos nv).x), sq_nonneg ((pos b).y - (pos nv).y)]
        have hy : (pos b).y - (pos nv).y = 0 := by nlinarith [sq_nonneg ((pos b).x - (pos nv).x), sq_nonneg ((pos b).y - (pos nv).y)]
        have : turn (pos l) (pos b) (pos nv) = 0 := by
          unfold turn
          rw [show (pos nv).y = (pos b).y by linarith, show (pos nv).x = (pos b).x by linarith]; ring
        linarith
    have : 0 < turn (pos b) (pos r) (pos l) * (sqDist o (pos b) - sqDist o (pos nv)) := by
      rw [← this]
      have := mul_pos p1 q
      have := mul_nonneg p2.le q2
      have := mul_nonneg p3.le q3
      linarith
    have := (mul_pos_iff_of_pos_left t1).1 this
    linarith
  obtain ⟨m', x, h1, h2⟩ := legalize_spec cs (With L nl nr) pos nv r (fun v A B => ∃ y, m.Tri3 L y v A B) (m.Adj L) W hW (ts ++ [nl, nr])
    (by
      rintro t (ht | rfl | rfl)
      · exact List.mem_append_left _ (hts t ht)
      · simp
      · simp) fuel (m.splitTriangle cs nl nr nv e) e r l [] [(nl, 0), (nr, 0)] ((splitTriangle_starred h s cs).linked h)
    (splitTriangle_flat h s cs f p1 p2 p3) (by rintro rfl; exact splitTriangle_segmented h s (g rfl)) (splitTriangle_ring h s cs) c2 c3
    (by simp)
    (by
      intro y v A B hy
      rcases splitTriangle_tri h s cs hy with ⟨k, -⟩ | k
      · exact Or.inr (Or.inr (Or.inr ⟨y, k⟩))
      · rcases k with ⟨-, k, -⟩ | ⟨-, -, -, k⟩ | ⟨-, -, k, -⟩ | ⟨-, k, -⟩ | ⟨-, -, -, k⟩ | ⟨-, -, k, -⟩ | ⟨-, k, -⟩ | ⟨-, -, -, k⟩ | ⟨-, -, k, -⟩ <;>
          simp [k])
    (by
      intro v w hv
      rcases splitTriangle_adj h s cs hv with ⟨k, -, -⟩ | ⟨k, -⟩ | ⟨k, -⟩
      exacts [Or.inr (Or.inr k), Or.inl k, Or.inr (Or.inl k)])
    (by
      intro v hv
      obtain ⟨o, o1, o2⟩ := exists_center (ne_of_gt t1)
      have key : v = b ∨ v = r ∨ v = l := by
        rcases splitTriangle_adj h s cs hv with ⟨-, k, -⟩ | ⟨-, k⟩ | ⟨-, k⟩
        · exact absurd rfl k
        · exact k
        · rcases k with k | k | k
          exacts [absurd k v1, absurd k v2, absurd k v3]
      rcases key with rfl | rfl | rfl
      · exact hW _ _ _ ⟨_, R1⟩ o o1 o2 (inside o o1 o2)
      · exact hW _ _ _ ⟨_, R2⟩ o (by rw [← o1, o2]) o1.symm (by rw [← o1]; exact inside o o1 o2)
      · exact hW _ _ _ ⟨_, R3⟩ o o2.symm (by rw [← o2, o1]) (by rw [← o2]; exact inside o o1 o2))
    (by simp only [List.nil_append, List.length_append, List.length_cons, List.length_nil]; omega)
  refine ⟨m', x, ?_, h2⟩
  have e1 : (m.splitTriangle cs nl nr nv e).org e = some r := c2
  have e2 : (m.splitTriangle cs nl nr nv e).dest e = some l := c3
  simp only [insertAt, legalizeFrom, e1, e2, h1, Outcome.bind_ok]

theorem insertIn_inserted (cs : Bool) (h : Linked m L) (f : Flat m L pos) (g : cs = true → Segmented m L) (s : SplitAt m L e nl nr nv b r l)
    (p1 : 0 < turn (pos r) (pos l) (pos nv)) (p2 : 0 < turn (pos l) (pos b) (pos nv)) (p3 : 0 < turn (pos b) (pos r) (pos nv))
    (ts : List Nat) (hts : ∀ t, L t → t ∈ ts) (fuel : Nat) (hf : 2 * ts.length < fuel) :
    ∃ m' x, insertAt cs pos nv nl nr fuel m .inTriangle e = .ok (some (m', x)) ∧ Inserted cs m L pos nv m' (With L nl nr) x ∧
      (cs = true → Segmented m' (With L nl nr) ∧ KeepsSubs m L m' (With L nl nr) ∧ KeepsSubs m' (With L nl nr) m L) ∧
      m'.Adj (With L nl nr) nv b ∧ m'.Adj (With L nl nr) nv r ∧ m'.Adj (With L nl nr) nv l ∧
      ∀ v w, Lone m' (With L nl nr) v w ↔ Lone m L v w := by
  obtain ⟨m', x, h1, h2⟩ := insertIn_spec cs h f g s p1 p2 p3 ts hts fuel hf (fun _ => True) (fun _ _ _ _ _ _ _ _ => trivial)
  obtain ⟨T0, T1, T2, -⟩ := splitTriangle_tris h s cs
  refine ⟨m', x, h1, ⟨h2.linked, h2.flat, h2.found, h2.settled, h2.tri, h2.adj, ?_⟩, ?_, h2.star _ ⟨_, Or.inl (Tri3.dirs T2).2.1⟩,
    h2.star _ ⟨_, Or.inl (Tri3.dirs T0).2.1⟩, h2.star _ ⟨_, Or.inl (Tri3.dirs T1).2.1⟩,
    fun v w => (h2.lone v w).trans (splitTriangle_lone h s cs v w)⟩
  · rintro v w ⟨y, hy⟩
    refine h2.verts v w ⟨splitMap e nl nr y, ?_⟩
    have := (splitTriangle_starred h s cs).dir
    rcases hy with hy | hy
    · exact Or.inl ((this _ _ _).2 (Or.inl ⟨y, not_false, rfl, hy⟩))
    · exact Or.inr ((this _ _ _).2 (Or.inl ⟨y, not_false, rfl, hy⟩))
  · rintro rfl
    exact ⟨(h2.seg rfl).1, (splitTriangle_keeps h s (g rfl)).trans (h2.seg rfl).2.1,
      (h2.seg rfl).2.2.trans (splitTriangle_keeps_back h s (g rfl))⟩

end

/-! ### Delaunay -/

section
variable {m : Heap} {L : Nat → Prop} {pos : Nat → Pt K} {nv : Nat}

/-- There is a circle through the new vertex and `v` without a vertex inside. -/
def Reached (m : Heap) (L : Nat → Prop) (pos : Nat → Pt K) (nv v : Nat) : Prop :=
  ∃ o, sqDist o (pos nv) = sqDist o (pos v) ∧ ∀ w w', m.Adj L w w' → sqDist o (pos v) ≤ sqDist o (pos w)

/-- The circle shrinks towards `v` until it passes through the new vertex. -/
theorem reached_of_inside (h : EmptyCircles m L pos) (a b d : Nat) (ht : ∃ y, m.Tri3 L y d b a) (o : Pt K)
    (o1 : sqDist o (pos d) = sqDist o (pos b)) (o2 : sqDist o (pos d) = sqDist o (pos a)) (hin : sqDist o (pos nv) < sqDist o (pos d)) :
    Reached m L pos nv d := by
  obtain ⟨y, hy⟩ := ht
  have hem := h y d b a hy o o1 o2
  unfold Reached
  generalize pos d = v at *
  generalize pos nv = p at *
  set q : K := 2 * ((o.x - v.x) * (p.x - v.x) + (o.y - v.y) * (p.y - v.y)) with hq
  have hlt : sqDist v p < q := by
    have : sqDist o p - sqDist o v = sqDist v p - q := by rw [hq]; simp only [sqDist]; ring
    linarith
  have h0 := sqDist_nonneg' v p
  have q0 : 0 < q := lt_of_le_of_lt h0 hlt
  set t := sqDist v p / q with htd
  have ht : t * q = sqDist v p := div_mul_cancel₀ _ (ne_of_gt q0)
  have t0 : 0 ≤ t := div_nonneg h0 q0.le
  have t1 : t ≤ 1 := (div_le_one q0).2 hlt.le
  refine ⟨⟨v.x + t * (o.x - v.x), v.y + t * (o.y - v.y)⟩, ?_, ?_⟩
  · rw [hq] at ht
    simp only [sqDist] at ht ⊢
    linear_combination -ht
  · intro w w' hw
    have h1 := hem w w' hw
    have h2 := sqDist_nonneg' v (pos w)
    have : sqDist (⟨v.x + t * (o.x - v.x), v.y + t * (o.y - v.y)⟩ : Pt K) (pos w) - sqDist (⟨v.x + t * (o.x - v.x), v.y + t * (o.y - v.y)⟩ : Pt K) v =
        t * (sqDist o (pos w) - sqDist o v) + (1 - t) * sqDist v (pos w) := by
      simp only [sqDist]; ring
    have h3 := mul_nonneg t0 (sub_nonneg.2 h1)
    have h4 := mul_nonneg (sub_nonneg.2 t1) h2
    linarith

/-- An edge that is a chord of an empty circle is locally Delaunay. -/
theorem chord_delaunay {a b p d o o' : Pt K} (ha : sqDist o a = sqDist o b) (hp : sqDist o a = sqDist o p) (hab : sqDist o' a = sqDist o' b)
    (hp' : sqDist o' a ≤ sqDist o' p) (hd' : sqDist o' a ≤ sqDist o' d) (t1 : 0 < turn p a b) (t2 : 0 < turn d b a) :
    sqDist o a ≤ sqDist o d := by
  have key : (sqDist o' p - sqDist o p - (sqDist o' a - sqDist o a)) * turn d b a = - (sqDist o' d - sqDist o d - (sqDist o' a - sqDist o a)) * turn p a b := by
    simp only [sqDist, turn] at *
    linear_combination ((p.x - a.x) * (d.y - a.y) - (p.y - a.y) * (d.x - a.x)) * (hab - ha)
  have h1 : 0 ≤ (sqDist o' p - sqDist o p - (sqDist o' a - sqDist o a)) * turn d b a := mul_nonneg (by linarith) t2.le
  rw [key] at h1
  have := (mul_nonneg_iff_of_pos_right t1).1 h1
  linarith

/-- Being locally Delaunay is symmetric. -/
theorem delaunay_symm {a b p d o o' : Pt K} (t1 : 0 < turn p a b) (t2 : 0 < turn d b a) (hb : sqDist o a = sqDist o b) (hp : sqDist o a = sqDist o p)
    (hb' : sqDist o' b = sqDist o' a) (hd' : sqDist o' b = sqDist o' d) (h : sqDist o' b ≤ sqDist o' p) : sqDist o a ≤ sqDist o d := by
  have e1 := power_weights (o := o) (a := p) (b := a) (c := b) (d := d) hp.symm (by rw [← hp, hb])
  have e2 := power_weights (o := o') (a := d) (b := b) (c := a) (d := p) hd'.symm (by rw [← hd', hb'])
  have e3 : turn a b d * sqDist p d + turn b p d * sqDist a d + turn p a d * sqDist b d =
      turn b a p * sqDist d p + turn a d p * sqDist b p + turn d b p * sqDist a p := by
    simp only [turn, sqDist]; ring
  rw [e3, e2] at e1
  have h1 : turn d b a * (sqDist o' d - sqDist o' p) ≤ 0 := mul_nonpos_of_nonneg_of_nonpos t2.le (by linarith)
  rw [e1] at h1
  have := nonpos_of_mul_nonpos_right h1 t1
  linarith

/-- If the triangulation was Delaunay and is legalized, all its edges are locally Delaunay. -/
theorem Legalized.delaunay {m1 m' : Heap} {L' : Nat → Prop} {x : Otri} (he : EmptyCircles m L pos)
    (hl : Legalized false m1 L' pos nv (fun v A B => ∃ y, m.Tri3 L y v A B) (m.Adj L) (Reached m L pos nv) m' x) (y : Otri) :
    LocallyDelaunay m' L' pos y := by
  intro p a b d T1 T2 o o1 o2
  have c1 := hl.flat.ccw _ _ _ _ T1
  have c2 := hl.flat.ccw _ _ _ _ T2
  have n0 : ∀ {z : Otri}, L' z.1 → z ≠ (0, 0) := fun hz h0 => hl.linked.dummy (by rw [h0] at hz; exact hz)
  obtain ⟨A1, A2, A3⟩ := Tri3.dirs T1
  obtain ⟨B1, B2, B3⟩ := Tri3.dirs T2
  have back : m'.nbr (m'.nbr y) = y := hl.linked.complete _ _ _ _ B1 A1
  obtain ⟨a1, a2, a3⟩ := hl.flat.distinct T1
  obtain ⟨b1, b2, b3⟩ := hl.flat.distinct T2
  have ab : m'.Adj L' a b := ⟨_, Or.inl A1⟩
  have ba : m'.Adj L' b a := ⟨_, Or.inl B1⟩
  have pa : m'.Adj L' p a := ⟨_, Or.inl A2⟩
  have db : m'.Adj L' d b := ⟨_, Or.inl B2⟩
  by_cases hp : p = nv
  · subst hp
    rcases hl.settled y T1.1 T1.2.1 with ⟨h0, -⟩ | h0 | h0
    · exact absurd h0 (by decide)
    · exact absurd h0 (n0 T2.1)
    · exact h0 _ _ _ _ T1 T2 o o1 o2
  by_cases hd : d = nv
  · subst hd
    rcases hl.settled (m'.nbr y) T2.1 T2.2.1 with ⟨h0, -⟩ | h0 | h0
    · exact absurd h0 (by decide)
    · rw [back] at h0; exact absurd h0 (n0 T1.1)
    · obtain ⟨o', k1, k2⟩ := exists_center (ne_of_gt c2)
      have := h0 _ _ _ _ T2 (by rw [back]; exact T1) o' (by rw [← k1, k2]) k1.symm
      exact delaunay_symm c1 c2 o1 o2 (by rw [← k1, k2]) k1.symm this
  have old : ∀ {v w}, v ≠ nv → m'.Adj L' v w → w ≠ nv → m.Adj L v w := by
    intro v w hv hvw hw
    rcases hl.adj _ _ hvw with h0 | h0 | h0
    exacts [absurd h0 hv, absurd h0 hw, h0]
  -- the other corners are old vertices
  have pv : ∃ w', m.Adj L p w' := by
    by_cases ha : a = nv
    · exact ⟨b, old hp ⟨_, Or.inr A3⟩ (by rw [← ha]; exact a2.symm)⟩
    · exact ⟨a, old hp pa ha⟩
  have dv : ∃ w', m.Adj L d w' := by
    by_cases hb : b = nv
    · exact ⟨a, old hd ⟨_, Or.inr B3⟩ (by rw [← hb]; exact a2)⟩
    · exact ⟨b, old hd db hb⟩
  obtain ⟨pw, hpw⟩ := pv
  obtain ⟨dw, hdw⟩ := dv
  by_cases ha : a = nv
  · subst ha
    obtain ⟨o', r1, r2⟩ := hl.spokes b ab
    exact chord_delaunay o1 o2 r1 (by rw [r1]; exact r2 _ _ hpw) (by rw [r1]; exact r2 _ _ hdw) c1 c2
  by_cases hb : b = nv
  · subst hb
    obtain ⟨o', r1, r2⟩ := hl.spokes a ba
    exact chord_delaunay o1 o2 r1.symm (r2 _ _ hpw) (r2 _ _ hdw) c1 c2
  obtain ⟨y', hy'⟩ : ∃ y', m.Tri3 L y' p a b := by
    rcases hl.tri _ _ _ _ T1 with h0 | h0 | h0 | h0
    exacts [absurd h0 hp, absurd h0 ha, absurd h0 hb, h0]
  rw [o2]
  exact he y' p a b hy' o o2.symm (by rw [← o2, o1]) d _ hdw

end
end Delynoi.Tri
