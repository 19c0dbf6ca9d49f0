import Verif.Proofs.TriInsert3
import Mathlib.Data.List.Nodup
/-! # The loop around the new vertex -/
set_option linter.unusedSectionVars false
namespace Delynoi.Tri

section
variable {K : Type} [Field K] [LinearOrder K] [IsStrictOrderedRing K]

/-- Three points that are not on a line are on a circle. -/
theorem exists_center {a b c : Pt K} (h : turn a b c ≠ 0) :
    ∃ o : Pt K, sqDist o a = sqDist o b ∧ sqDist o a = sqDist o c := by
  have h2 : 2 * turn a b c ≠ 0 := mul_ne_zero two_ne_zero h
  have hu := div_mul_cancel₀ (sqDist a b * (c.y - a.y) - sqDist a c * (b.y - a.y)) h2
  have hv := div_mul_cancel₀ (sqDist a c * (b.x - a.x) - sqDist a b * (c.x - a.x)) h2
  generalize (sqDist a b * (c.y - a.y) - sqDist a c * (b.y - a.y)) / (2 * turn a b c) = u at hu
  generalize (sqDist a c * (b.x - a.x) - sqDist a b * (c.x - a.x)) / (2 * turn a b c) = v at hv
  refine ⟨⟨a.x + u, a.y + v⟩, mul_left_cancel₀ h2 ?_, mul_left_cancel₀ h2 ?_⟩
  · simp only [sqDist, turn] at hu hv ⊢
    linear_combination 2 * (b.x - a.x) * hu + 2 * (b.y - a.y) * hv
  · simp only [sqDist, turn] at hu hv ⊢
    linear_combination 2 * (c.x - a.x) * hu + 2 * (c.y - a.y) * hv

theorem incircleDet_eq {o a b c d : Pt K} (h1 : sqDist o a = sqDist o b) (h2 : sqDist o a = sqDist o c) :
    incircleDet a b c d = turn a b c * (sqDist o a - sqDist o d) := by
  rw [← power_weights h1 h2]
  simp only [incircleDet, turn, sqDist]; ring

end

/-- The triangles around the new vertex, from the first to the last. -/
structure Ring (m : Heap) (L : Nat → Prop) (nv first : Nat) (S : List Otri) : Prop where
  mem : ∀ x, x ∈ S ↔ L x.1 ∧ m.corner x = some nv
  nodup : S.Nodup
  chain : S.IsChain (fun x y => m.corner (lprev x) = m.corner (lnext y))
  start : ∀ x, S.head? = some x → m.corner (lnext x) = some first
  stop : ∀ x, S.getLast? = some x → m.corner (lprev x) = some first ∨ m.nbr (lnext x) = (0, 0)

section
variable {K : Type} [Field K] [LinearOrder K] [IsStrictOrderedRing K]
variable {m : Heap} {L : Nat → Prop} {pos : Nat → Pt K} {nv first : Nat}

theorem Flat.distinct (f : Flat m L pos) {x : Otri} {v A B : Nat} (hx : m.Tri3 L x v A B) : v ≠ A ∧ A ≠ B ∧ v ≠ B := by
  have := f.ccw _ _ _ _ hx
  refine ⟨?_, ?_, ?_⟩ <;> rintro rfl <;> simp only [turn] at this <;> ring_nf at this <;> exact lt_irrefl _ this

theorem Linked.tri (h : Linked m L) {x : Otri} (hx : L x.1) : ∃ v A B, m.Tri3 L x v A B := by
  obtain ⟨v, hv⟩ := h.corners x.1 hx x.2
  obtain ⟨A, hA⟩ := h.corners x.1 hx (x.2 + 1)
  obtain ⟨B, hB⟩ := h.corners x.1 hx (x.2 + 2)
  exact ⟨v, A, B, hx, hv, hA, hB⟩

/-- A triangle has the new vertex once. -/
theorem Ring.fst_inj (h : Linked m L) (f : Flat m L pos) {x y : Otri} (hx : L x.1 ∧ m.corner x = some nv) (hy : L y.1 ∧ m.corner y = some nv)
    (he : x.1 = y.1) : x = y := by
  obtain ⟨v, A, B, ht⟩ := h.tri hy.1
  obtain ⟨n1, n2, n3⟩ := f.distinct ht
  obtain ⟨-, t1, t2, t3⟩ := tri3_iff.1 ht
  rw [hy.2] at t1; cases t1
  have hx2 := hx.2
  rcases handle_cases y x he with rfl | rfl | rfl
  · rfl
  · rw [t2] at hx2; cases hx2; exact absurd rfl n1
  · rw [t3] at hx2; cases hx2; exact absurd rfl n3

theorem Ring.length_le (h : Linked m L) (f : Flat m L pos) {S : List Otri} (R : Ring m L nv first S) {ts : List Nat} (hts : ∀ t, L t → t ∈ ts) :
    S.length ≤ ts.length := by
  have hn : (S.map Prod.fst).Nodup := by
    refine List.Nodup.map_on ?_ R.nodup
    intro x hx y hy he
    exact Ring.fst_inj h f ((R.mem x).1 hx) ((R.mem y).1 hy) he
  have hs : S.map Prod.fst ⊆ ts := by
    intro t ht
    obtain ⟨x, hx, rfl⟩ := List.mem_map.1 ht
    exact hts _ ((R.mem x).1 hx).1
  have := (hn.subperm hs).length_le
  simpa using this

/-- The next triangle of the ring. -/
theorem Ring.step (h : Linked m L) {dn td : List Otri} {e y : Otri} (R : Ring m L nv first (dn ++ e :: y :: td)) :
    m.nbr (lnext e) = lprev y ∧ m.corner (lprev e) = m.corner (lnext y) ∧ m.corner (lprev e) ≠ some first := by
  have he := (R.mem e).1 (by simp)
  have hy := (R.mem y).1 (by simp)
  have hc : m.corner (lprev e) = m.corner (lnext y) := by
    have := R.chain
    rw [List.isChain_append] at this
    have := this.2.1
    rw [List.isChain_cons_cons] at this
    exact this.1
  obtain ⟨b, hb⟩ := h.corners e.1 he.1 (lprev e).2
  have hb : m.corner (lprev e) = some b := hb
  have d1 : m.Dir L (lnext e) b nv := dir_iff.2 ⟨he.1, by rw [lnext_lnext]; exact hb, by rw [lprev_lnext]; exact he.2⟩
  have d2 : m.Dir L (lprev y) nv b := dir_iff.2 ⟨hy.1, by rw [lnext_lprev]; exact hy.2, by rw [lprev_lprev, ← hc]; exact hb⟩
  refine ⟨h.complete _ _ _ _ d1 d2, hc, ?_⟩
  intro hf
  obtain ⟨z, hz⟩ : ∃ z, (dn ++ e :: y :: td).head? = some z := by cases dn <;> simp
  have hz1 := R.start z hz
  have hz2 := (R.mem z).1 (List.mem_of_mem_head? hz)
  have d3 : m.Dir L (lprev z) nv first := dir_iff.2 ⟨hz2.1, by rw [lnext_lprev]; exact hz2.2, by rw [lprev_lprev]; exact hz1⟩
  rw [hb] at hf; cases hf
  have := congrArg lnext (h.once _ _ _ _ d3 d2)
  simp only [lnext_lprev] at this
  subst this
  have nd := R.nodup
  cases dn with
  | nil =>
    simp only [List.nil_append, List.head?_cons, Option.some.injEq] at hz
    subst hz
    simp at nd
  | cons q dn =>
    simp only [List.cons_append, List.head?_cons, Option.some.injEq] at hz
    subst hz
    simp at nd

end

/-! ### A flip in the ring -/

section
variable {m : Heap} {L : Nat → Prop} {e top : Otri} {a b c d : Nat} (h : Linked m L) (q : QuadAt m L e top a b c d)
include h q

theorem QuadAt.apex_iff (x : Otri) (hx : m.corner x = some c) (hl : x.1 = e.1 ∨ x.1 = top.1) : x = e := by
  rcases hl with hl | hl
  · rcases handle_cases e x hl with rfl | rfl | rfl
    · rfl
    · rw [q.e1] at hx; cases hx; exact absurd rfl q.ac
    · rw [q.e2] at hx; cases hx; exact absurd rfl q.bc
  · rcases handle_cases top x hl with rfl | rfl | rfl
    · rw [q.t0] at hx; cases hx; exact absurd rfl q.cd
    · rw [q.t1] at hx; cases hx; exact absurd rfl q.bc
    · rw [q.t2] at hx; cases hx; exact absurd rfl q.ac

theorem Ring.flip (cs : Bool) {first : Nat} {dn td : List Otri} (R : Ring m L c first (dn ++ e :: td)) :
    Ring (m.flip cs e) L c first (dn ++ lprev e :: lnext top :: td) := by
  obtain ⟨c1, c2, c3, c4, c5, c6, c7⟩ := flip_corner h q cs
  have nd := R.nodup
  have out : ∀ x, x ∈ dn ∨ x ∈ td → x.1 ≠ e.1 ∧ x.1 ≠ top.1 := by
    intro x hx
    have hm := (R.mem x).1 (by simp; tauto)
    have hne : x ≠ e := by
      rintro rfl
      rw [List.nodup_append] at nd
      rcases hx with hx | hx
      · exact nd.2.2 x hx x (by simp) rfl
      · have := nd.2.1; simp at this; exact this.1 hx
    exact ⟨fun h0 => hne (q.apex_iff h x hm.2 (Or.inl h0)), fun h0 => hne (q.apex_iff h x hm.2 (Or.inr h0))⟩
  have keepc : ∀ x, x ∈ dn ∨ x ∈ td → (m.flip cs e).corner (lnext x) = m.corner (lnext x) ∧
      (m.flip cs e).corner (lprev x) = m.corner (lprev x) ∧ (m.flip cs e).corner x = m.corner x := by
    intro x hx
    obtain ⟨o1, o2⟩ := out x hx
    exact ⟨c7 (lnext x) o1 o2, c7 (lprev x) o1 o2, c7 x o1 o2⟩
  refine ⟨?_, ?_, ?_, ?_, ?_⟩
  · intro x
    constructor
    · intro hx
      simp only [List.mem_append, List.mem_cons] at hx
      rcases hx with hx | rfl | rfl | hx
      · exact ⟨((R.mem x).1 (by simp [hx])).1, by rw [(keepc x (Or.inl hx)).2.2]; exact ((R.mem x).1 (by simp [hx])).2⟩
      · exact ⟨q.le, c3⟩
      · exact ⟨q.lt, c5⟩
      · exact ⟨((R.mem x).1 (by simp [hx])).1, by rw [(keepc x (Or.inr hx)).2.2]; exact ((R.mem x).1 (by simp [hx])).2⟩
    · rintro ⟨hl, hx⟩
      by_cases he : x.1 = e.1
      · rcases handle_cases e x he with rfl | rfl | rfl
        · rw [c1] at hx; cases hx; exact absurd rfl q.ac
        · rw [c2] at hx; cases hx; exact absurd rfl q.cd
        · simp
      by_cases ht : x.1 = top.1
      · rcases handle_cases top x ht with rfl | rfl | rfl
        · rw [c4] at hx; cases hx; exact absurd rfl q.bc
        · simp
        · rw [c6] at hx; cases hx; exact absurd rfl q.cd
      rw [c7 x he ht] at hx
      have := (R.mem x).2 ⟨hl, hx⟩
      simp only [List.mem_append, List.mem_cons] at this ⊢
      rcases this with h1 | rfl | h1
      · exact Or.inl h1
      · exact absurd rfl he
      · exact Or.inr (Or.inr (Or.inr h1))
  · rw [List.nodup_append] at nd ⊢
    obtain ⟨n1, n2, n3⟩ := nd
    rw [List.nodup_cons] at n2
    refine ⟨n1, ?_, ?_⟩
    · rw [List.nodup_cons, List.nodup_cons]
      refine ⟨?_, ?_, n2.2⟩
      · simp only [List.mem_cons, not_or]
        exact ⟨fun h0 => q.ne (by have := congrArg Prod.fst h0; simpa using this), fun h0 => (out _ (Or.inr h0)).1 rfl⟩
      · exact fun h0 => (out _ (Or.inr h0)).2 rfl
    · intro x hx y hy
      simp only [List.mem_cons] at hy
      rcases hy with rfl | rfl | hy
      · rintro rfl; exact (out _ (Or.inl hx)).1 rfl
      · rintro rfl; exact (out _ (Or.inl hx)).2 rfl
      · exact n3 x hx y (by simp [hy])
  · have ch := R.chain
    rw [List.isChain_append] at ch ⊢
    obtain ⟨k1, k2, k3⟩ := ch
    have conv : ∀ l : List Otri, (∀ x ∈ l, x ∈ dn ∨ x ∈ td) → l.IsChain (fun x y => m.corner (lprev x) = m.corner (lnext y)) →
        l.IsChain (fun x y => (m.flip cs e).corner (lprev x) = (m.flip cs e).corner (lnext y)) := by
      intro l hl hc
      refine List.IsChain.imp_of_mem_imp ?_ hc
      intro x y hx hy hxy
      rw [(keepc x (hl x hx)).2.1, (keepc y (hl y hy)).1]; exact hxy
    refine ⟨conv dn (fun x hx => Or.inl hx) k1, ?_, ?_⟩
    · rw [List.isChain_cons_cons]
      refine ⟨by rw [lprev_lprev, lnext_lnext, c2, c6], ?_⟩
      cases td with
      | nil => simp
      | cons y td =>
        rw [List.isChain_cons_cons] at k2 ⊢
        refine ⟨?_, conv _ (fun x hx => Or.inr hx) k2.2⟩
        rw [lprev_lnext, c4, (keepc y (by simp)).1, ← k2.1, q.e2]
    · intro x hx y hy
      simp only [List.head?_cons, Option.mem_def, Option.some.injEq] at hy
      subst hy
      have := k3 x hx e (by simp)
      rw [(keepc x (Or.inl (List.mem_of_mem_getLast? hx))).2.1, this, lnext_lprev, q.e1, c1]
  · intro x hx
    cases dn with
    | nil =>
      simp only [List.nil_append, List.head?_cons, Option.some.injEq] at hx
      subst hx
      have := R.start e (by simp)
      rw [lnext_lprev, c1, ← this, q.e1]
    | cons y dn =>
      simp only [List.cons_append, List.head?_cons, Option.some.injEq] at hx
      subst hx
      rw [(keepc y (by simp)).1]; exact R.start y (by simp)
  · intro x hx
    obtain ⟨d1, d2, d3, d4, d5, d6⟩ := q.distinct h
    cases td with
    | nil =>
      have : x = lnext top := by simpa using hx.symm
      subst this
      rw [lprev_lnext, lnext_lnext, c4]
      rcases R.stop e (by simp) with h0 | h0
      · left; rw [← h0, q.e2]
      · right
        rw [flip_nbr h q cs (y := lprev top) q.lt, show cyc (lprev top) (lnext top) (lprev e) (lnext e) (lprev top) = lnext e from if_pos rfl, h0,
          cyc_fix h q (by simp)]
    | cons y td =>
      have hx' : (dn ++ e :: y :: td).getLast? = some x := by
        simp only [List.getLast?_append, List.getLast?_cons_cons] at hx ⊢
        exact hx
      have hm : x ∈ y :: td := by
        have : (y :: td).getLast? = some x := by
          simpa [List.getLast?_append, List.getLast?_cons_cons] using hx'
        exact List.mem_of_mem_getLast? this
      have ho := out x (Or.inr hm)
      rw [(keepc x (Or.inr hm)).2.1]
      rcases R.stop x hx' with h0 | h0
      · exact Or.inl h0
      · right
        have hl := ((R.mem x).1 (by simp at hm ⊢; tauto)).1
        have hfix : cyc (lprev top) (lnext top) (lprev e) (lnext e) (lnext x) = lnext x := by
          have j : ∀ y : Otri, (y.1 = e.1 ∨ y.1 = top.1) → lnext x ≠ y := by
            rintro y (h1 | h1) rfl
            · exact ho.1 h1
            · exact ho.2 h1
          unfold cyc
          rw [if_neg (j (lprev top) (by simp)), if_neg (j (lnext top) (by simp)), if_neg (j (lprev e) (by simp)), if_neg (j (lnext e) (by simp))]
        rw [flip_nbr h q cs (y := lnext x) hl, hfix, h0, cyc_fix h q (by simp)]

/-- Edges opposite to `c` and their neighbours are not touched, except the flipped one. -/
theorem flip_apart (cs : Bool) {x : Otri} (hl : L x.1) (hx : m.corner x = some c) (hne : x ≠ e)
    (hdis : ∀ v w, m.Tri3 L x c v w → c ≠ v ∧ c ≠ w) :
    (m.flip cs e).nbr x = m.nbr x ∧ x.1 ≠ e.1 ∧ x.1 ≠ top.1 ∧ (m.nbr x ≠ (0, 0) → (m.nbr x).1 ≠ e.1 ∧ (m.nbr x).1 ≠ top.1) := by
  have o1 : x.1 ≠ e.1 := fun h0 => hne (q.apex_iff h x hx (Or.inl h0))
  have o2 : x.1 ≠ top.1 := fun h0 => hne (q.apex_iff h x hx (Or.inr h0))
  have j : ∀ y : Otri, (y.1 = e.1 ∨ y.1 = top.1) → x ≠ y := by
    rintro y (h1 | h1) rfl
    · exact o1 h1
    · exact o2 h1
  have hfix : cyc (lprev top) (lnext top) (lprev e) (lnext e) x = x := by
    unfold cyc
    rw [if_neg (j (lprev top) (by simp)), if_neg (j (lnext top) (by simp)), if_neg (j (lprev e) (by simp)), if_neg (j (lnext e) (by simp))]
  have key : m.nbr x ≠ (0, 0) → (m.nbr x).1 ≠ e.1 ∧ (m.nbr x).1 ≠ top.1 := by
    intro hn
    obtain ⟨hl', hi, v, w, k1, k2⟩ := h.across hl hn
    have T : m.Tri3 L x c v w := ⟨hl, hx, k1.2.1, k1.2.2⟩
    obtain ⟨D1, D2, D3⟩ := Tri3.dirs T
    rw [dir_iff] at k2
    obtain ⟨-, z1, z2⟩ := k2
    obtain ⟨n1, n2⟩ := hdis v w T
    constructor
    · intro h0
      rcases handle_cases e _ h0 with h1 | h1 | h1
      · rw [h1, q.nbr] at hi; exact o2 (by rw [hi])
      · rw [h1, lprev_lnext, q.e0] at z2; cases z2; exact n1 rfl
      · rw [h1, lnext_lprev, q.e0] at z1; cases z1; exact n2 rfl
    · intro h0
      rcases handle_cases top _ h0 with h1 | h1 | h1
      · rw [h1, q.nbr'] at hi; exact hne hi.symm
      · rw [h1, lprev_lnext, q.t0] at z2; cases z2; exact q.nodiag ⟨_, Or.inl D2⟩
      · rw [h1, lnext_lprev, q.t0] at z1; cases z1; exact q.nodiag ⟨_, Or.inr D3⟩
  refine ⟨?_, o1, o2, key⟩
  rw [flip_nbr h q cs hl, hfix]
  by_cases hn : m.nbr x = (0, 0)
  · rw [hn, cyc_fix h q (by simp)]
  · obtain ⟨k1, k2⟩ := key hn
    have j' : ∀ y : Otri, (y.1 = e.1 ∨ y.1 = top.1) → m.nbr x ≠ y := by
      rintro y (h1 | h1) h2
      · exact k1 (by rw [h2]; exact h1)
      · exact k2 (by rw [h2]; exact h1)
    unfold cyc
    rw [if_neg (j' (lnext e) (by simp)), if_neg (j' (lprev e) (by simp)), if_neg (j' (lnext top) (by simp)), if_neg (j' (lprev top) (by simp))]

/-- Vertices stay. -/
theorem flip_verts (cs : Bool) {v w : Nat} (hv : m.Adj L v w) : ∃ w', (m.flip cs e).Adj L v w' := by
  obtain ⟨d1, d2, d3, d4, d5, d6⟩ := q.distinct h
  obtain ⟨T1, T2⟩ := flip_new h q (cs := cs)
  obtain ⟨A1, A2, A3⟩ := Tri3.dirs T1
  obtain ⟨B1, B2, B3⟩ := Tri3.dirs T2
  have key : ∀ x v w, m.Dir L x v w → (∃ w', (m.flip cs e).Adj L v w') ∧ ∃ w', (m.flip cs e).Adj L w w' := by
    intro x v w hx
    have D1 : m.Dir L e a b := ⟨q.le, q.e1, q.e2⟩
    have D2 : m.Dir L top b a := ⟨q.lt, q.t1, q.t2⟩
    have same : ∀ {y p q p' q'}, m.Dir L y p q → m.Dir L y p' q' → p = p' ∧ q = q' := by
      intro y p q p' q' i j
      have e1 := i.2.1.symm.trans j.2.1
      have e2 := i.2.2.symm.trans j.2.2
      cases e1; cases e2; exact ⟨rfl, rfl⟩
    by_cases h1 : x = e
    · subst h1
      obtain ⟨rfl, rfl⟩ := same hx D1
      exact ⟨⟨_, _, Or.inl A2⟩, ⟨_, _, Or.inl B2⟩⟩
    by_cases h2 : x = top
    · subst h2
      obtain ⟨rfl, rfl⟩ := same hx D2
      exact ⟨⟨_, _, Or.inl B2⟩, ⟨_, _, Or.inl A2⟩⟩
    have : (m.flip cs e).Dir L (cyc (lnext e) (lprev e) (lnext top) (lprev top) x) v w := by
      refine (flip_dir h q cs).2 (Or.inr (Or.inr ⟨cyc_ne h q (Or.inl rfl) h1, cyc_ne h q (Or.inr rfl) h2, ?_⟩))
      rw [cyc_inv d1 d2 d3 d4 d5 d6 x]; exact hx
    exact ⟨⟨_, _, Or.inl this⟩, ⟨_, _, Or.inr this⟩⟩
  obtain ⟨x, hx | hx⟩ := hv
  · exact (key x v w hx).1
  · exact (key x w v hx).2

/-- Only the edge that is flipped goes away. -/
theorem flip_stays (cs : Bool) {v w : Nat} (hv : m.Adj L v w) (h1 : ¬ (v = a ∧ w = b)) (h2 : ¬ (v = b ∧ w = a)) : (m.flip cs e).Adj L v w := by
  obtain ⟨d1, d2, d3, d4, d5, d6⟩ := q.distinct h
  have key : ∀ x v w, m.Dir L x v w → ¬ (v = a ∧ w = b) → ¬ (v = b ∧ w = a) →
      (m.flip cs e).Dir L (cyc (lnext e) (lprev e) (lnext top) (lprev top) x) v w := by
    intro x v w hx n1 n2
    have D1 : m.Dir L e a b := ⟨q.le, q.e1, q.e2⟩
    have D2 : m.Dir L top b a := ⟨q.lt, q.t1, q.t2⟩
    have same : ∀ {y p q p' q'}, m.Dir L y p q → m.Dir L y p' q' → p = p' ∧ q = q' := by
      intro y p q p' q' i j
      have e1 := i.2.1.symm.trans j.2.1
      have e2 := i.2.2.symm.trans j.2.2
      cases e1; cases e2; exact ⟨rfl, rfl⟩
    have m1 : x ≠ e := by rintro rfl; exact n1 (same hx D1)
    have m2 : x ≠ top := by rintro rfl; exact n2 (same hx D2)
    refine (flip_dir h q cs).2 (Or.inr (Or.inr ⟨cyc_ne h q (Or.inl rfl) m1, cyc_ne h q (Or.inr rfl) m2, ?_⟩))
    rw [cyc_inv d1 d2 d3 d4 d5 d6 x]; exact hx
  obtain ⟨x, hx | hx⟩ := hv
  · exact ⟨_, Or.inl (key x v w hx h1 h2)⟩
  · exact ⟨_, Or.inr (key x w v hx (fun hh => h2 ⟨hh.2, hh.1⟩) (fun hh => h1 ⟨hh.2, hh.1⟩))⟩

/-- A flip does not change the boundary. -/
theorem flip_lone (cs : Bool) (v w : Nat) : Lone (m.flip cs e) L v w ↔ Lone m L v w := by
  obtain ⟨d1, d2, d3, d4, d5, d6⟩ := q.distinct h
  have D1 : m.Dir L e a b := ⟨q.le, q.e1, q.e2⟩
  have D2 : m.Dir L top b a := ⟨q.lt, q.t1, q.t2⟩
  have N1 : (m.flip cs e).Dir L e d c := (flip_dir h q cs).2 (Or.inl ⟨rfl, rfl, rfl⟩)
  have N2 : (m.flip cs e).Dir L top c d := (flip_dir h q cs).2 (Or.inr (Or.inl ⟨rfl, rfl, rfl⟩))
  have same : ∀ {y p q p' q'}, m.Dir L y p q → m.Dir L y p' q' → p = p' ∧ q = q' := by
    intro y p q p' q' i j
    have e1 := i.2.1.symm.trans j.2.1
    have e2 := i.2.2.symm.trans j.2.2
    cases e1; cases e2; exact ⟨rfl, rfl⟩
  have key : ∀ v w, (∃ x, (m.flip cs e).Dir L x v w) ↔
      ((∃ x, m.Dir L x v w) ∧ ¬ (v = a ∧ w = b) ∧ ¬ (v = b ∧ w = a)) ∨ (v = d ∧ w = c) ∨ (v = c ∧ w = d) := by
    intro v w
    constructor
    · rintro ⟨x, hx⟩
      rcases (flip_dir h q cs).1 hx with ⟨-, k⟩ | ⟨-, k⟩ | ⟨k1, k2, k⟩
      · exact Or.inr (Or.inl k)
      · exact Or.inr (Or.inr k)
      · left
        have hA : (m.flip cs e).Adj L v w := ⟨x, Or.inl hx⟩
        rcases flip_adj h q hA with ⟨-, n1, n2⟩ | ⟨rfl, rfl⟩ | ⟨rfl, rfl⟩
        · exact ⟨⟨_, k⟩, n1, n2⟩
        · exact absurd ((flip_linked h q cs).once _ _ _ _ hx N2) k2
        · exact absurd ((flip_linked h q cs).once _ _ _ _ hx N1) k1
    · rintro (⟨⟨x, hx⟩, n1, n2⟩ | ⟨rfl, rfl⟩ | ⟨rfl, rfl⟩)
      · have m1 : x ≠ e := by rintro rfl; exact n1 (same hx D1)
        have m2 : x ≠ top := by rintro rfl; exact n2 (same hx D2)
        refine ⟨_, (flip_dir h q cs).2 (Or.inr (Or.inr ⟨cyc_ne h q (Or.inl rfl) m1, cyc_ne h q (Or.inr rfl) m2, ?_⟩))⟩
        rw [cyc_inv d1 d2 d3 d4 d5 d6 x]; exact hx
      · exact ⟨e, N1⟩
      · exact ⟨top, N2⟩
  have no1 : ∀ x, ¬ m.Dir L x c d := fun x hx => q.nodiag ⟨x, Or.inl hx⟩
  have no2 : ∀ x, ¬ m.Dir L x d c := fun x hx => q.nodiag ⟨x, Or.inr hx⟩
  unfold Lone
  rw [← not_exists, ← not_exists, key v w, key w v]
  constructor
  · rintro ⟨⟨k1, n1, n2⟩ | ⟨rfl, rfl⟩ | ⟨rfl, rfl⟩, k2⟩
    · refine ⟨k1, fun hh => k2 (Or.inl ⟨hh, fun k => n2 ⟨k.2, k.1⟩, fun k => n1 ⟨k.2, k.1⟩⟩)⟩
    · exact absurd (Or.inr (Or.inr ⟨rfl, rfl⟩)) k2
    · exact absurd (Or.inr (Or.inl ⟨rfl, rfl⟩)) k2
  · rintro ⟨k1, k2⟩
    refine ⟨Or.inl ⟨k1, ?_, ?_⟩, ?_⟩
    · rintro ⟨rfl, rfl⟩; exact k2 ⟨_, D2⟩
    · rintro ⟨rfl, rfl⟩; exact k2 ⟨_, D1⟩
    · rintro (⟨k, -, -⟩ | ⟨rfl, rfl⟩ | ⟨rfl, rfl⟩)
      · exact k2 k
      · obtain ⟨x, hx⟩ := k1; exact no1 x hx
      · obtain ⟨x, hx⟩ := k1; exact no2 x hx

/-- A flip makes no subsegments. -/
theorem flip_keeps_back (g : Segmented m L) (h0 : (m.sub e).1 = 0) (h1 : (m.sub top).1 = 0) : KeepsSubs (m.flip true e) L m L := by
  intro x v w hx hs
  rw [flip_dir h q true] at hx
  rcases hx with ⟨rfl, -⟩ | ⟨rfl, -⟩ | ⟨-, -, hx⟩
  · rw [(flip_diag h q g).1] at hs; exact absurd h0 hs
  · rw [(flip_diag h q g).2] at hs; exact absurd h1 hs
  · exact ⟨_, hx, (flip_sub h q g x).symm⟩
end
end Delynoi.Tri
