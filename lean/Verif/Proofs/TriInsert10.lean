import Verif.Proofs.TriInsert9
import Verif.Proofs.TriSegment4
/-! # Inserting a vertex on an edge -/
set_option linter.unusedSectionVars false
namespace Delynoi.Tri
variable {K : Type} [Field K] [LinearOrder K] [IsStrictOrderedRing K]
variable {m : Heap} {L : Nat → Prop} {pos : Nat → Pt K}

section
variable {m' : Heap}
theorem Linked.congr (h : Linked m L) (e1 : m'.corner = m.corner) (e2 : m'.nbr = m.nbr) : Linked m' L where
  dummy := h.dummy
  corners := by rw [e1]; exact h.corners
  once := fun x y v w hx hy => h.once x y v w ((dir_congr e1).1 hx) ((dir_congr e1).1 hy)
  links := by
    intro x hx
    rw [e2]
    rcases h.links x hx with h0 | ⟨v, w, h1, h2⟩
    · exact Or.inl h0
    · exact Or.inr ⟨v, w, (dir_congr e1).2 h1, (dir_congr e1).2 h2⟩
  complete := fun x y v w hx hy => by rw [e2]; exact h.complete x y v w ((dir_congr e1).1 hx) ((dir_congr e1).1 hy)

theorem Flat.congr (f : Flat m L pos) (e1 : m'.corner = m.corner) : Flat m' L pos where
  ccw := fun x v a b hx => f.ccw x v a b ((tri3_congr e1).1 hx)
  cone := fun x v a b w hx hw => f.cone x v a b w ((tri3_congr e1).1 hx) ((adj_congr e1).1 hw)
  rays := fun v w w' hw hw' => f.rays v w w' ((adj_congr e1).1 hw) ((adj_congr e1).1 hw')

theorem Ring.congr {nv first : Nat} {S : List Otri} (R : Ring m L nv first S) (e1 : m'.corner = m.corner) (e2 : m'.nbr = m.nbr) : Ring m' L nv first S := by
  refine ⟨?_, R.nodup, ?_, ?_, ?_⟩
  · rw [e1]; exact R.mem
  · rw [e1]; exact R.chain
  · rw [e1]; exact R.start
  · rw [e1, e2]; exact R.stop

theorem Flat.proper (h : Linked m L) (f : Flat m L pos) : Proper m L := by
  intro t ht o o' he
  obtain ⟨v, A, B, T⟩ := h.tri (x := (t, o)) ht
  obtain ⟨n1, n2, n3⟩ := f.distinct T
  obtain ⟨-, t1, t2, t3⟩ := tri3_iff.1 T
  rcases handle_cases (t, o) (t, o') rfl with h0 | h0 | h0
  · exact (congrArg Prod.snd h0).symm
  · rw [h0, t1, t2] at he; cases he; exact absurd rfl n1
  · rw [h0, t1, t3] at he; cases he; exact absurd rfl n3
end

section
variable {e : Otri} {nr nt nv b r l d : Nat} {tp : Bool} (h : Linked m L) (s : EdgeAt m L e nr nt nv b r l d tp)
include h s

/-- The new vertex is inside the circle of both triangles. -/
theorem EdgeAt.inside (f : Flat m L pos) (hm : Amid (pos r) (pos l) (pos nv)) :
    (∀ o, sqDist o (pos b) = sqDist o (pos r) → sqDist o (pos b) = sqDist o (pos l) → sqDist o (pos nv) < sqDist o (pos b)) ∧
    (tp = true → ∀ o, sqDist o (pos d) = sqDist o (pos l) → sqDist o (pos d) = sqDist o (pos r) → sqDist o (pos nv) < sqDist o (pos d)) := by
  have hrl : 0 < sqDist (pos r) (pos l) := by
    rcases (sqDist_nonneg' (pos r) (pos l)).lt_or_eq with h0 | h0
    · exact h0
    · exfalso
      unfold sqDist at h0
      have hx : (pos r).x - (pos l).x = 0 := by nlinarith [sq_nonneg ((pos r).x - (pos l).x), sq_nonneg ((pos r).y - (pos l).y)]
      have hy : (pos r).y - (pos l).y = 0 := by nlinarith [sq_nonneg ((pos r).x - (pos l).x), sq_nonneg ((pos r).y - (pos l).y)]
      have := f.ccw _ _ _ _ s.tri
      unfold turn at this
      rw [show (pos r).y = (pos l).y by linarith, show (pos r).x = (pos l).x by linarith] at this
      ring_nf at this; exact lt_irrefl _ this
  obtain ⟨t, t0, t1, hx, hy⟩ := hm
  have key : ∀ o : Pt K, sqDist o (pos r) = sqDist o (pos l) → sqDist o (pos nv) < sqDist o (pos r) := by
    intro o ho
    have e1 : sqDist o (pos r) - sqDist o (pos nv) = t * (1 - t) * sqDist (pos r) (pos l) + t * (sqDist o (pos r) - sqDist o (pos l)) := by
      simp only [sqDist, hx, hy]; ring
    have := mul_pos (mul_pos t0 (sub_pos.2 t1)) hrl
    rw [ho, sub_self, mul_zero, add_zero] at e1
    linarith
  refine ⟨fun o o1 o2 => ?_, fun _ o o1 o2 => ?_⟩
  · rw [o1]; exact key o (by rw [← o1, o2])
  · rw [o2]; exact key o (by rw [← o2, o1])

/-- The loop after the edge has been split (and perhaps its subsegment). -/
theorem legalizeEdge_spec (cs cs' : Bool) (f : Flat m L pos) (hm : Amid (pos r) (pos l) (pos nv)) (ts : List Nat) (hts : ∀ t, L t → t ∈ ts) (fuel : Nat)
    (hf : 2 * ts.length < fuel) (W : Nat → Prop)
    (hW : ∀ a b d, (∃ y, m.Tri3 L y d b a) → ∀ o, sqDist o (pos d) = sqDist o (pos b) → sqDist o (pos d) = sqDist o (pos a) →
      sqDist o (pos nv) < sqDist o (pos d) → W d) {m1 : Heap} (e1 : m1.corner = (m.splitEdge cs' nr nt nv e).corner)
    (e2 : m1.nbr = (m.splitEdge cs' nr nt nv e).nbr) (g : cs = true → Segmented m1 (WithE L nr nt tp)) :
    ∃ m' x, legalizeFrom cs pos nv fuel m1 (lnext e) = .ok (m', x) ∧
      Legalized cs m1 (WithE L nr nt tp) pos nv (fun v A B => ∃ y, m.Tri3 L y v A B) (m.Adj L) W m' x := by
  obtain ⟨c1, c2, c3, -⟩ := splitEdge_corner h s cs'
  obtain ⟨R1, R2, R3⟩ := s.toSplitAt.rots h
  obtain ⟨i1, i2⟩ := s.inside h f hm
  have hpos : 0 < ts.length := List.length_pos_of_mem (hts _ s.tri.1)
  have hpos2 : tp = true → 2 ≤ ts.length := by
    intro ht
    have hn : [e.1, (m.nbr e).1].Nodup := by simp [(s.top_ne h).symm]
    have := (hn.subperm (l₂ := ts) (by
      intro t ht'
      simp only [List.mem_cons, List.not_mem_nil, or_false] at ht'
      rcases ht' with rfl | rfl
      · exact hts _ s.tri.1
      · exact hts _ (s.top ht).2.1.1)).length_le
    simpa using this
  obtain ⟨v1, v2, v3⟩ := s.toSplitAt.nv_ne h
  have v4 := s.nv_ne_d h
  have t1 := f.ccw _ _ _ _ R1
  obtain ⟨m', x, h1, h2⟩ := legalize_spec cs (WithE L nr nt tp) pos nv l (fun v A B => ∃ y, m.Tri3 L y v A B) (m.Adj L) W hW
    (ts ++ nr :: if tp = true then [nt] else [])
    (by
      rintro t (ht | rfl | ⟨ht, rfl⟩)
      · exact List.mem_append_left _ (hts t ht)
      · simp
      · simp [ht]) fuel m1 (lnext e) l b [] ((nr, 0) :: if tp = true then [(nt, 0), lprev (m.nbr e)] else [])
    (((splitEdge_starred h s cs').linked h).congr e1 e2)
    ((splitEdge_flat h s cs' f hm).congr e1) g ((splitEdge_ring h s cs').congr e1 e2) (by rw [e1, lnext_lnext]; exact c3) (by rw [e1, lprev_lnext]; exact c1)
    (by simp)
    (by
      intro y v A B hy
      rw [tri3_congr e1] at hy
      rcases splitEdge_tri h s cs' hy with ⟨k, -⟩ | k
      · exact Or.inr (Or.inr (Or.inr ⟨y, k⟩))
      · rcases k with ⟨-, -, k, -⟩ | ⟨-, k, -⟩ | ⟨-, -, -, k⟩ | ⟨-, k, -⟩ | ⟨-, -, -, k⟩ | ⟨-, -, k, -⟩ | ⟨-, ⟨-, -, -, k⟩ | ⟨-, -, k, -⟩ | ⟨-, k, -⟩ |
          ⟨-, k, -⟩ | ⟨-, -, -, k⟩ | ⟨-, -, k, -⟩⟩ <;> simp [k])
    (by
      intro v w hv
      rw [adj_congr e1] at hv
      rcases splitEdge_adj h s cs' hv with ⟨k, -⟩ | ⟨k, -⟩ | ⟨k, -⟩
      exacts [Or.inr (Or.inr k), Or.inl k, Or.inr (Or.inl k)])
    (by
      intro v hv
      rw [adj_congr e1] at hv
      obtain ⟨o, o1, o2⟩ := exists_center (ne_of_gt t1)
      have key : v = b ∨ v = r ∨ v = l ∨ (tp = true ∧ v = d) := by
        rcases splitEdge_adj h s cs' hv with ⟨-, k, -⟩ | ⟨-, k⟩ | ⟨-, k⟩
        · exact absurd rfl k
        · exact k
        · rcases k with k | k | k | ⟨ht, k⟩
          exacts [absurd k v1, absurd k v2, absurd k v3, absurd k (v4 ht)]
      rcases key with rfl | rfl | rfl | ⟨ht, rfl⟩
      · exact hW _ _ _ ⟨_, R1⟩ o o1 o2 (i1 o o1 o2)
      · exact hW _ _ _ ⟨_, R2⟩ o (by rw [← o1, o2]) o1.symm (by rw [← o1]; exact i1 o o1 o2)
      · exact hW _ _ _ ⟨_, R3⟩ o o2.symm (by rw [← o2, o1]) (by rw [← o2]; exact i1 o o1 o2)
      · have U := (s.top ht).2.1
        obtain ⟨o, o1, o2⟩ := exists_center (ne_of_gt (f.ccw _ _ _ _ U))
        exact hW _ _ _ ⟨_, U⟩ o o1 o2 (i2 ht o o1 o2))
    (by
      cases tp with
      | false => simp; omega
      | true =>
        have := hpos2 rfl
        simp; omega)
  refine ⟨m', x, ?_, h2⟩
  have k1 : m1.org (lnext e) = some l := by show m1.corner (lnext (lnext e)) = _; rw [e1, lnext_lnext]; exact c3
  have k2 : m1.dest (lnext e) = some b := by show m1.corner (lprev (lnext e)) = _; rw [e1, lprev_lnext]; exact c1
  simp only [legalizeFrom, k1, k2, h1]

theorem splitEdge_star (cs : Bool) {m1 : Heap} (e1 : m1.corner = (m.splitEdge cs nr nt nv e).corner) :
    m1.Adj (WithE L nr nt tp) nv b ∧ m1.Adj (WithE L nr nt tp) nv r ∧ m1.Adj (WithE L nr nt tp) nv l ∧ (tp = true → m1.Adj (WithE L nr nt tp) nv d) := by
  obtain ⟨T0, T1, T2, -⟩ := splitEdge_tris h s cs
  refine ⟨⟨_, Or.inl ((dir_congr e1).2 (Tri3.dirs T1).2.1)⟩, ⟨_, Or.inr ((dir_congr e1).2 (Tri3.dirs T1).2.2)⟩,
    ⟨_, Or.inl ((dir_congr e1).2 (Tri3.dirs T0).1)⟩, fun ht => ⟨_, Or.inr ((dir_congr e1).2 (Tri3.dirs (T2 ht).2).2.2)⟩⟩

theorem splitEdge_verts (cs : Bool) {m1 : Heap} (e1 : m1.corner = (m.splitEdge cs nr nt nv e).corner) {v w : Nat} (hv : m.Adj L v w) :
    ∃ w', m1.Adj (WithE L nr nt tp) v w' := by
  have st := splitEdge_starred h s cs
  obtain ⟨k1, k2, k3, k4⟩ := splitEdge_star h s cs e1
  have sw : ∀ {p q}, m1.Adj (WithE L nr nt tp) p q → m1.Adj (WithE L nr nt tp) q p := by
    rintro p q ⟨x, hx⟩; exact ⟨x, hx.symm⟩
  have D := (Tri3.dirs s.tri).1
  have key : ∀ y p q, m.Dir L y p q → (∃ w', m1.Adj (WithE L nr nt tp) p w') ∧ ∃ w', m1.Adj (WithE L nr nt tp) q w' := by
    intro y p q hy
    have ends : ∀ {y p q}, m.Dir L y p q → (y = e ∨ y = m.nbr e) → (p = r ∧ q = l) ∨ (p = l ∧ q = r) := by
      rintro y p q hy (rfl | rfl)
      · have i1 := hy.2.1.symm.trans D.2.1
        have i2 := hy.2.2.symm.trans D.2.2
        cases i1; cases i2; exact Or.inl ⟨rfl, rfl⟩
      · have hn : m.nbr e ≠ (0, 0) := fun h0 => h.dummy (by have := hy.1; rw [h0] at this; exact this)
        obtain ⟨-, -, v, w, j1, j2⟩ := h.across s.tri.1 hn
        have i1 := j1.2.1.symm.trans D.2.1
        have i2 := j1.2.2.symm.trans D.2.2
        have i3 := hy.2.1.symm.trans j2.2.1
        have i4 := hy.2.2.symm.trans j2.2.2
        cases i1; cases i2; cases i3; cases i4; exact Or.inr ⟨rfl, rfl⟩
    by_cases hR : y = e ∨ y = m.nbr e
    · rcases ends hy hR with ⟨rfl, rfl⟩ | ⟨rfl, rfl⟩
      · exact ⟨⟨_, sw k2⟩, ⟨_, sw k3⟩⟩
      · exact ⟨⟨_, sw k3⟩, ⟨_, sw k2⟩⟩
    · have := (dir_congr e1).2 ((st.dir _ _ _).2 (Or.inl ⟨y, hR, rfl, hy⟩))
      exact ⟨⟨_, _, Or.inl this⟩, ⟨_, _, Or.inr this⟩⟩
  obtain ⟨y, hy | hy⟩ := hv
  · exact (key _ _ _ hy).1
  · exact (key _ _ _ hy).2

theorem splitEdge_keeps_back (g : Segmented m L) (h0 : (m.sub e).1 = 0) : KeepsSubs (m.splitEdge true nr nt nv e) (WithE L nr nt tp) m L := by
  obtain ⟨a1, a2, a3, a4, a5, a6, -⟩ := splitEdge_sub h s g
  obtain ⟨m1, m2, m3, m4, m5, m6⟩ := edgeMap_eq h s
  intro x v w hx hs
  rcases ((splitEdge_starred h s true).dir _ _ _).1 hx with ⟨y, -, rfl, hy⟩ | ⟨-, ⟨-, rfl⟩ | ⟨-, rfl⟩ | ⟨ht, -, rfl⟩ | ⟨ht, -, rfl⟩⟩ |
    ⟨-, ⟨-, rfl⟩ | ⟨-, rfl⟩ | ⟨ht, -, rfl⟩ | ⟨ht, -, rfl⟩⟩
  · exact ⟨y, hy, (a1 y hy.1).symm⟩
  · have := a1 x s.tri.1
    rw [m1] at this; rw [this] at hs; exact absurd h0 hs
  · rw [a5] at hs; exact absurd rfl hs
  · rw [(a6 ht).1] at hs; exact absurd rfl hs
  · rw [(a6 ht).2.2] at hs; exact absurd rfl hs
  · rw [a3] at hs; exact absurd rfl hs
  · rw [a4] at hs; exact absurd rfl hs
  · have := a1 (m.nbr e) (s.top ht).2.1.1
    rw [(m4 ht).1] at this; rw [this] at hs
    exact absurd (g.neither e s.tri.1 (s.top ht).2.1.1 h0) hs
  · rw [(a6 ht).2.1] at hs; exact absurd rfl hs

theorem splitEdge_lone (cs : Bool) {m1 : Heap} (e1 : m1.corner = (m.splitEdge cs nr nt nv e).corner) (v w : Nat) :
    Lone m1 (WithE L nr nt tp) v w ↔
      (Lone m L v w ∧ ¬ (v = r ∧ w = l)) ∨ (m.nbr e = (0, 0) ∧ ((v = nv ∧ w = l) ∨ (v = r ∧ w = nv))) := by
  have st := splitEdge_starred h s cs
  have D := (Tri3.dirs s.tri).1
  have htp : tp = true ↔ m.nbr e ≠ (0, 0) := by
    cases tp with
    | true => exact ⟨fun _ => (s.top rfl).1, fun _ => rfl⟩
    | false => exact ⟨fun hh => absurd hh (by simp), fun hh => absurd (s.hull rfl) hh⟩
  have D2 : tp = true → m.Dir L (m.nbr e) l r := fun ht => (Tri3.dirs (s.top ht).2.1).1
  have n2 : tp = false → ∀ x, ¬ m.Dir L x l r := by
    intro ht x hx
    have := h.complete _ _ _ _ D hx
    rw [s.hull ht] at this
    rw [← this] at hx
    exact h.dummy hx.1
  have hR : ∀ y p q, m.Dir L y p q → ((y = e ∨ y = m.nbr e) ↔ (p = r ∧ q = l) ∨ (p = l ∧ q = r)) := by
    intro y p q hy
    constructor
    · rintro (rfl | rfl)
      · have i1 := hy.2.1.symm.trans D.2.1
        have i2 := hy.2.2.symm.trans D.2.2
        cases i1; cases i2; exact Or.inl ⟨rfl, rfl⟩
      · have hn : m.nbr e ≠ (0, 0) := fun h0 => h.dummy (by have := hy.1; rw [h0] at this; exact this)
        have D2 := D2 (htp.2 hn)
        have i1 := hy.2.1.symm.trans D2.2.1
        have i2 := hy.2.2.symm.trans D2.2.2
        cases i1; cases i2; exact Or.inr ⟨rfl, rfl⟩
    · rintro (⟨rfl, rfl⟩ | ⟨rfl, rfl⟩)
      · exact Or.inl (h.once _ _ _ _ hy D)
      · exact Or.inr (h.complete _ _ _ _ D hy).symm
  have key : ∀ v w, (∃ x, m1.Dir (WithE L nr nt tp) x v w) ↔
      ((∃ x, m.Dir L x v w) ∧ ¬ ((v = r ∧ w = l) ∨ (v = l ∧ w = r))) ∨
      (v = nv ∧ (w = l ∨ w = b ∨ (tp = true ∧ (w = d ∨ w = r)))) ∨ (w = nv ∧ (v = b ∨ v = r ∨ (tp = true ∧ (v = l ∨ v = d)))) := by
    intro v w
    constructor
    · rintro ⟨x, hx⟩
      rcases (st.dir _ _ _).1 ((dir_congr e1).1 hx) with ⟨y, hn, -, hy⟩ | ⟨k, hk⟩ | ⟨k, hk⟩
      · exact Or.inl ⟨⟨y, hy⟩, fun hh => hn ((hR y _ _ hy).2 hh)⟩
      · refine Or.inr (Or.inl ⟨k, ?_⟩); rcases hk with ⟨hk, -⟩ | ⟨hk, -⟩ | ⟨ht, hk, -⟩ | ⟨ht, hk, -⟩ <;> simp [hk, *]
      · refine Or.inr (Or.inr ⟨k, ?_⟩); rcases hk with ⟨hk, -⟩ | ⟨hk, -⟩ | ⟨ht, hk, -⟩ | ⟨ht, hk, -⟩ <;> simp [hk, *]
    · have mk : ∀ {x}, (m.splitEdge cs nr nt nv e).Dir (WithE L nr nt tp) x v w → ∃ x, m1.Dir (WithE L nr nt tp) x v w :=
        fun hx => ⟨_, (dir_congr e1).2 hx⟩
      rintro (⟨⟨y, hy⟩, hn⟩ | ⟨rfl, hk⟩ | ⟨rfl, hk⟩)
      · exact mk ((st.dir _ _ _).2 (Or.inl ⟨y, fun hh => hn ((hR y _ _ hy).1 hh), rfl, hy⟩))
      · rcases hk with rfl | rfl | ⟨ht, rfl | rfl⟩
        · exact mk ((st.dir _ _ _).2 (Or.inr (Or.inl ⟨rfl, Or.inl ⟨rfl, rfl⟩⟩)))
        · exact mk ((st.dir _ _ _).2 (Or.inr (Or.inl ⟨rfl, Or.inr (Or.inl ⟨rfl, rfl⟩)⟩)))
        · exact mk ((st.dir _ _ _).2 (Or.inr (Or.inl ⟨rfl, Or.inr (Or.inr (Or.inl ⟨ht, rfl, rfl⟩))⟩)))
        · exact mk ((st.dir _ _ _).2 (Or.inr (Or.inl ⟨rfl, Or.inr (Or.inr (Or.inr ⟨ht, rfl, rfl⟩))⟩)))
      · rcases hk with rfl | rfl | ⟨ht, rfl | rfl⟩
        · exact mk ((st.dir _ _ _).2 (Or.inr (Or.inr ⟨rfl, Or.inl ⟨rfl, rfl⟩⟩)))
        · exact mk ((st.dir _ _ _).2 (Or.inr (Or.inr ⟨rfl, Or.inr (Or.inl ⟨rfl, rfl⟩)⟩)))
        · exact mk ((st.dir _ _ _).2 (Or.inr (Or.inr ⟨rfl, Or.inr (Or.inr (Or.inl ⟨ht, rfl, rfl⟩))⟩)))
        · exact mk ((st.dir _ _ _).2 (Or.inr (Or.inr ⟨rfl, Or.inr (Or.inr (Or.inr ⟨ht, rfl, rfl⟩))⟩)))
  have fr := st.fresh
  obtain ⟨v1, v2, v3⟩ := s.toSplitAt.nv_ne h
  have rl := s.rl
  have lb := s.lb
  have br := s.br
  unfold Lone
  rw [← not_exists, ← not_exists, key v w, key w v]
  constructor
  · rintro ⟨⟨⟨x, hx⟩, k⟩ | ⟨rfl, k⟩ | ⟨rfl, k⟩, k2⟩
    · left
      refine ⟨⟨⟨x, hx⟩, fun hh => k2 (Or.inl ⟨hh, fun k' => k ?_⟩)⟩, fun k' => k (Or.inl k')⟩
      rcases k' with ⟨k1, k3⟩ | ⟨k1, k3⟩
      · exact Or.inr ⟨k3, k1⟩
      · exact Or.inl ⟨k3, k1⟩
    · right
      have ht : ¬ tp = true := by
        intro ht
        refine k2 (Or.inr (Or.inr ⟨rfl, ?_⟩))
        rcases k with rfl | rfl | ⟨-, rfl | rfl⟩ <;> simp [ht]
      refine ⟨by_contra fun hh => ht (htp.2 hh), Or.inl ⟨rfl, ?_⟩⟩
      rcases k with rfl | rfl | ⟨ht', -⟩
      · rfl
      · exact absurd (Or.inr (Or.inr ⟨rfl, Or.inl rfl⟩)) k2
      · exact absurd ht' ht
    · right
      have ht : ¬ tp = true := by
        intro ht
        refine k2 (Or.inr (Or.inl ⟨rfl, ?_⟩))
        rcases k with rfl | rfl | ⟨-, rfl | rfl⟩ <;> simp [ht]
      refine ⟨by_contra fun hh => ht (htp.2 hh), Or.inr ⟨?_, rfl⟩⟩
      rcases k with rfl | rfl | ⟨ht', -⟩
      · exact absurd (Or.inr (Or.inl ⟨rfl, Or.inr (Or.inl rfl)⟩)) k2
      · rfl
      · exact absurd ht' ht
  · rintro (⟨⟨⟨x, hx⟩, k⟩, n⟩ | ⟨h0, ⟨rfl, rfl⟩ | ⟨rfl, rfl⟩⟩)
    · refine ⟨Or.inl ⟨⟨x, hx⟩, ?_⟩, ?_⟩
      · rintro (k' | ⟨rfl, rfl⟩)
        · exact n k'
        · exact k ⟨_, D⟩
      · rintro (⟨k', -⟩ | ⟨rfl, -⟩ | ⟨rfl, -⟩)
        · exact k k'
        · exact (fr x v).2 hx
        · exact (fr x w).1 hx
    · have ht : ¬ tp = true := fun ht => htp.1 ht h0
      refine ⟨Or.inr (Or.inl ⟨rfl, Or.inl rfl⟩), ?_⟩
      rintro (⟨⟨x, hx⟩, -⟩ | ⟨k, -⟩ | ⟨-, k | k | ⟨k, -⟩⟩)
      · exact (fr x _).2 hx
      · exact v3 k.symm
      · exact lb k
      · exact rl k.symm
      · exact ht k
    · have ht : ¬ tp = true := fun ht => htp.1 ht h0
      refine ⟨Or.inr (Or.inr ⟨rfl, Or.inr (Or.inl rfl)⟩), ?_⟩
      rintro (⟨⟨x, hx⟩, -⟩ | ⟨-, k | k | ⟨k, -⟩⟩ | ⟨k, -⟩)
      · exact (fr x _).1 hx
      · exact rl k
      · exact br k.symm
      · exact ht k
      · exact v2 k.symm

/-- The insertion on an edge without a subsegment. -/
theorem insertEdge_inserted (cs : Bool) (f : Flat m L pos) (g : cs = true → Segmented m L ∧ (m.sub e).1 = 0) (hm : Amid (pos r) (pos l) (pos nv))
    (ts : List Nat) (hts : ∀ t, L t → t ∈ ts) (fuel : Nat) (hf : 2 * ts.length < fuel) (i : Located) (hi : i = .onEdge ∨ i = .outside) :
    ∃ m' x, insertAt cs pos nv nr nt fuel m i e = .ok (some (m', x)) ∧ Inserted cs m L pos nv m' (WithE L nr nt tp) x ∧
      (cs = true → Segmented m' (WithE L nr nt tp) ∧ KeepsSubs m L m' (WithE L nr nt tp) ∧ KeepsSubs m' (WithE L nr nt tp) m L) ∧
      m'.Adj (WithE L nr nt tp) nv b ∧ m'.Adj (WithE L nr nt tp) nv r ∧ m'.Adj (WithE L nr nt tp) nv l ∧
      (tp = true → m'.Adj (WithE L nr nt tp) nv d) ∧
      ∀ v w, Lone m' (WithE L nr nt tp) v w ↔
        (Lone m L v w ∧ ¬ (v = r ∧ w = l)) ∨ (m.nbr e = (0, 0) ∧ ((v = nv ∧ w = l) ∨ (v = r ∧ w = nv))) := by
  obtain ⟨m', x, h1, h2⟩ := legalizeEdge_spec h s cs cs f hm ts hts fuel hf (fun _ => True) (fun _ _ _ _ _ _ _ _ => trivial) rfl rfl
    (by rintro rfl; exact splitEdge_segmented h s (g rfl).1)
  obtain ⟨k1, k2, k3, k4⟩ := splitEdge_star h s cs rfl
  refine ⟨m', x, ?_, ⟨h2.linked, h2.flat, h2.found, h2.settled, h2.tri, h2.adj, ?_⟩, ?_, h2.star _ k1, h2.star _ k2, h2.star _ k3,
    fun ht => h2.star _ (k4 ht), fun v w => (h2.lone v w).trans (splitEdge_lone h s cs rfl v w)⟩
  · have hc : ¬ (cs = true ∧ (m.tspivot e).1 ≠ 0) := fun hh => hh.2 (g hh.1).2
    rcases hi with rfl | rfl <;> simp only [insertAt, if_neg hc, h1, Outcome.bind_ok]
  · intro v w hv
    obtain ⟨w', hw'⟩ := splitEdge_verts h s cs rfl hv
    exact h2.verts _ _ hw'
  · rintro rfl
    exact ⟨(h2.seg rfl).1, (splitEdge_keeps h s (g rfl).1 (g rfl).2).trans (h2.seg rfl).2.1,
      (h2.seg rfl).2.2.trans (splitEdge_keeps_back h s (g rfl).1 (g rfl).2)⟩

end
end Delynoi.Tri
