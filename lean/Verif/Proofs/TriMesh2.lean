import Verif.Proofs.TriMesh
/-! # Flips: the links of the triangles -/
set_option linter.unusedSectionVars false
namespace Delynoi.Tri

theorem fin3 : ∀ p q : Fin 3, q = p ∨ q = p + 1 ∨ q = p + 2 := by decide

/-- The two triangles of a flip. -/
structure QuadAt (m : Heap) (L : Nat → Prop) (e top : Otri) (a b c d : Nat) : Prop where
  le : L e.1
  lt : L top.1
  ne : e.1 ≠ top.1
  nbr : m.nbr e = top
  nbr' : m.nbr top = e
  e0 : m.corner e = some c
  e1 : m.corner (lnext e) = some a
  e2 : m.corner (lprev e) = some b
  t0 : m.corner top = some d
  t1 : m.corner (lnext top) = some b
  t2 : m.corner (lprev top) = some a
  ab : a ≠ b
  ac : a ≠ c
  ad : a ≠ d
  bc : b ≠ c
  bd : b ≠ d
  cd : c ≠ d
  nodiag : ¬ m.Adj L c d

/-- An edge of one triangle of the mesh and its neighbour. -/
theorem Linked.across {m : Heap} {L : Nat → Prop} (h : Linked m L) {x : Otri} (hx : L x.1) (hn : m.nbr x ≠ (0, 0)) :
    L (m.nbr x).1 ∧ m.nbr (m.nbr x) = x ∧ ∃ v w, m.Dir L x v w ∧ m.Dir L (m.nbr x) w v := by
  rcases h.links x hx with h0 | ⟨v, w, h1, h2⟩
  · exact absurd h0 hn
  · exact ⟨h2.1, h.complete _ _ _ _ h2 h1, v, w, h1, h2⟩

theorem Linked.inv {m : Heap} {L : Nat → Prop} (h : Linked m L) {x : Otri} (hx : L x.1) :
    m.nbr x = (0, 0) ∨ m.nbr (m.nbr x) = x := by
  by_cases hn : m.nbr x = (0, 0)
  · exact Or.inl hn
  · exact Or.inr (h.across hx hn).2.1

theorem lnext_ne (e : Otri) : lnext e ≠ e := by
  obtain ⟨t, o⟩ := e
  simp only [lnext, ne_eq, Prod.mk.injEq, true_and]
  revert o; decide

theorem lprev_ne (e : Otri) : lprev e ≠ e := by
  obtain ⟨t, o⟩ := e
  simp only [lprev, ne_eq, Prod.mk.injEq, true_and]
  revert o; decide

theorem lnext_ne_lprev (e : Otri) : lnext e ≠ lprev e := by
  obtain ⟨t, o⟩ := e
  simp only [lprev, lnext, ne_eq, Prod.mk.injEq, true_and]
  revert o; decide

theorem handle_cases (e x : Otri) (h : x.1 = e.1) : x = e ∨ x = lnext e ∨ x = lprev e := by
  obtain ⟨t, o⟩ := e
  obtain ⟨t', o'⟩ := x
  simp only at h; subst h
  rcases fin3 o o' with h | h | h
  · exact Or.inl (by rw [h])
  · exact Or.inr (Or.inl (by rw [h]; rfl))
  · exact Or.inr (Or.inr (by rw [h]; rfl))

@[simp] theorem lnext_lnext (e : Otri) : lnext (lnext e) = lprev e := by
  obtain ⟨t, o⟩ := e
  simp only [lprev, lnext, Prod.mk.injEq, true_and]; revert o; decide
@[simp] theorem lnext_lprev (e : Otri) : lnext (lprev e) = e := by
  obtain ⟨t, o⟩ := e
  simp only [lprev, lnext, Prod.mk.injEq, true_and]; revert o; decide
@[simp] theorem lprev_lnext (e : Otri) : lprev (lnext e) = e := by
  obtain ⟨t, o⟩ := e
  simp only [lprev, lnext, Prod.mk.injEq, true_and]; revert o; decide
@[simp] theorem lprev_lprev (e : Otri) : lprev (lprev e) = lnext e := by
  obtain ⟨t, o⟩ := e
  simp only [lprev, lnext, Prod.mk.injEq, true_and]; revert o; decide
@[simp] theorem lnext_fst (e : Otri) : (lnext e).1 = e.1 := rfl
@[simp] theorem lprev_fst (e : Otri) : (lprev e).1 = e.1 := rfl

theorem dir_iff {m : Heap} {L : Nat → Prop} {x : Otri} {v w : Nat} :
    m.Dir L x v w ↔ L x.1 ∧ m.corner (lnext x) = some v ∧ m.corner (lprev x) = some w := Iff.rfl

theorem tri3_iff {m : Heap} {L : Nat → Prop} {x : Otri} {v a b : Nat} :
    m.Tri3 L x v a b ↔ L x.1 ∧ m.corner x = some v ∧ m.corner (lnext x) = some a ∧ m.corner (lprev x) = some b :=
  Iff.rfl

section
variable {m : Heap} {L : Nat → Prop} {e top : Otri} {a b c d : Nat} (h : Linked m L) (q : QuadAt m L e top a b c d)
include h q

theorem QuadAt.corner_e {x : Otri} (hx : x.1 = e.1) {v : Nat} (hv : m.corner x = some v) : v = a ∨ v = b ∨ v = c := by
  rcases handle_cases e x hx with rfl | rfl | rfl
  · rw [q.e0] at hv; cases hv; simp
  · rw [q.e1] at hv; cases hv; simp
  · rw [q.e2] at hv; cases hv; simp

theorem QuadAt.corner_t {x : Otri} (hx : x.1 = top.1) {v : Nat} (hv : m.corner x = some v) : v = a ∨ v = b ∨ v = d := by
  rcases handle_cases top x hx with rfl | rfl | rfl
  · rw [q.t0] at hv; cases hv; simp
  · rw [q.t1] at hv; cases hv; simp
  · rw [q.t2] at hv; cases hv; simp

theorem QuadAt.outside_of {x : Otri} (hx : L x.1) (hn : m.nbr x ≠ (0, 0)) {v w : Nat} (h1 : m.corner (lnext x) = some v)
    (h2 : m.corner (lprev x) = some w) : m.corner (lprev (m.nbr x)) = some v ∧ m.corner (lnext (m.nbr x)) = some w := by
  obtain ⟨-, -, v', w', hd, hd'⟩ := h.across hx hn
  rw [dir_iff, h1, h2] at hd
  rw [dir_iff] at hd'
  obtain ⟨-, e1, e2⟩ := hd
  cases e1; cases e2
  exact ⟨hd'.2.2, hd'.2.1⟩

theorem QuadAt.e_ne0 : e.1 ≠ 0 := fun h0 => h.dummy (h0 ▸ q.le)
theorem QuadAt.t_ne0 : top.1 ≠ 0 := fun h0 => h.dummy (h0 ▸ q.lt)

/-- The neighbours of the four sides are outside the two triangles. -/
theorem QuadAt.casing {x : Otri} (hx : x = lnext e ∨ x = lprev e ∨ x = lnext top ∨ x = lprev top) :
    (m.nbr x).1 ≠ e.1 ∧ (m.nbr x).1 ≠ top.1 := by
  by_cases hn : m.nbr x = (0, 0)
  · rw [hn]; exact ⟨fun h0 => q.e_ne0 h h0.symm, fun h0 => q.t_ne0 h h0.symm⟩
  have hab := q.ab
  have hac := q.ac
  have had := q.ad
  have hbc := q.bc
  have hbd := q.bd
  have hcd := q.cd
  rcases hx with rfl | rfl | rfl | rfl
  · have hi := (h.inv (x := lnext e) q.le).resolve_left hn
    obtain ⟨k1, k2⟩ := q.outside_of h (x := lnext e) q.le hn (by rw [lnext_lnext]; exact q.e2) (by rw [lprev_lnext]; exact q.e0)
    constructor
    · intro h1
      rcases handle_cases e _ h1 with h2 | h2 | h2
      · rw [h2] at k1; rw [q.e2] at k1; rw [h2, q.nbr] at hi; exact q.ne (by rw [hi]; rfl)
      · rw [h2] at k1; simp [q.e0] at k1; exact hbc k1.symm
      · rw [h2] at k1; simp [q.e1] at k1; exact hab k1
    · intro h1
      have := q.corner_t h (x := lnext (m.nbr (lnext e))) h1 k2
      rcases this with h | h | h
      · exact hac h.symm
      · exact hbc h.symm
      · exact hcd h
  · have hi := (h.inv (x := lprev e) q.le).resolve_left hn
    obtain ⟨k1, k2⟩ := q.outside_of h (x := lprev e) q.le hn (by rw [lnext_lprev]; exact q.e0) (by rw [lprev_lprev]; exact q.e1)
    constructor
    · intro h1
      rcases handle_cases e _ h1 with h2 | h2 | h2
      · rw [h2, q.nbr] at hi; exact q.ne (by rw [hi]; rfl)
      · rw [h2] at k1; simp [q.e0] at k1; rw [h2] at k2; simp [q.e2] at k2; exact hab k2.symm
      · rw [h2] at k2; simp [q.e0] at k2; exact hac k2.symm
    · intro h1
      have := q.corner_t h (x := lprev (m.nbr (lprev e))) h1 k1
      rcases this with h | h | h
      · exact hac h.symm
      · exact hbc h.symm
      · exact hcd h
  · have hi := (h.inv (x := lnext top) q.lt).resolve_left hn
    obtain ⟨k1, k2⟩ := q.outside_of h (x := lnext top) q.lt hn (by rw [lnext_lnext]; exact q.t2) (by rw [lprev_lnext]; exact q.t0)
    constructor
    · intro h1
      have := q.corner_e h (x := lnext (m.nbr (lnext top))) h1 k2
      rcases this with h | h | h
      · exact had h.symm
      · exact hbd h.symm
      · exact hcd h.symm
    · intro h1
      rcases handle_cases top _ h1 with h2 | h2 | h2
      · rw [h2, q.nbr'] at hi; exact q.ne (by rw [hi]; rfl)
      · rw [h2] at k1; simp [q.t0] at k1; exact had k1.symm
      · rw [h2] at k1; simp [q.t1] at k1; exact hab k1.symm
  · have hi := (h.inv (x := lprev top) q.lt).resolve_left hn
    obtain ⟨k1, k2⟩ := q.outside_of h (x := lprev top) q.lt hn (by rw [lnext_lprev]; exact q.t0) (by rw [lprev_lprev]; exact q.t1)
    constructor
    · intro h1
      have := q.corner_e h (x := lprev (m.nbr (lprev top))) h1 k1
      rcases this with h | h | h
      · exact had h.symm
      · exact hbd h.symm
      · exact hcd h.symm
    · intro h1
      rcases handle_cases top _ h1 with h2 | h2 | h2
      · rw [h2, q.nbr'] at hi; exact q.ne (by rw [hi]; rfl)
      · rw [h2] at k2; simp [q.t2] at k2; exact hab k2
      · rw [h2] at k2; simp [q.t0] at k2; exact hbd k2.symm

theorem QuadAt.distinct : lnext e ≠ lprev e ∧ lnext e ≠ lnext top ∧ lnext e ≠ lprev top ∧ lprev e ≠ lnext top ∧
    lprev e ≠ lprev top ∧ lnext top ≠ lprev top := by
  have hne := q.ne
  refine ⟨lnext_ne_lprev e, ?_, ?_, ?_, ?_, lnext_ne_lprev top⟩ <;>
  · intro hh; exact hne (by have := congrArg Prod.fst hh; simpa using this)

/-- The four sides after the flip. -/
theorem flip_nbr (cs : Bool) {y : Otri} (hy : L y.1) :
    (m.flip cs e).nbr y = cyc (lnext e) (lprev e) (lnext top) (lprev top)
      (m.nbr (cyc (lprev top) (lnext top) (lprev e) (lnext e) y)) := by
  obtain ⟨d1, d2, d3, d4, d5, d6⟩ := q.distinct h
  have out : ∀ x, (x = lnext e ∨ x = lprev e ∨ x = lnext top ∨ x = lprev top) →
      m.nbr x ≠ lnext e ∧ m.nbr x ≠ lprev e ∧ m.nbr x ≠ lnext top ∧ m.nbr x ≠ lprev top := by
    intro x hx
    obtain ⟨c1, c2⟩ := q.casing h hx
    refine ⟨?_, ?_, ?_, ?_⟩ <;> intro hh <;> rw [hh] at c1 c2 <;> simp at c1 c2
  have e0 := q.e_ne0 h
  have t0 := q.t_ne0 h
  rw [flip_nbr_eq, q.nbr]
  exact cyc_bonds d1 d2 d3 d4 d5 d6 m.nbr (out _ (by simp)) (out _ (by simp)) (out _ (by simp)) (out _ (by simp))
    (h.inv q.le) (h.inv q.le) (h.inv q.lt) (h.inv q.lt) e0 e0 t0 t0 y
    (fun h0 => h.dummy (h0 ▸ hy)) (h.inv hy)

theorem unflip_nbr (cs : Bool) {y : Otri} (hy : L y.1) :
    (m.unflip cs e).nbr y = cyc (lprev top) (lnext top) (lprev e) (lnext e)
      (m.nbr (cyc (lnext e) (lprev e) (lnext top) (lprev top) y)) := by
  obtain ⟨d1, d2, d3, d4, d5, d6⟩ := q.distinct h
  have out : ∀ x, (x = lnext e ∨ x = lprev e ∨ x = lnext top ∨ x = lprev top) →
      m.nbr x ≠ lnext e ∧ m.nbr x ≠ lprev e ∧ m.nbr x ≠ lnext top ∧ m.nbr x ≠ lprev top := by
    intro x hx
    obtain ⟨c1, c2⟩ := q.casing h hx
    refine ⟨?_, ?_, ?_, ?_⟩ <;> intro hh <;> rw [hh] at c1 c2 <;> simp at c1 c2
  have e0 := q.e_ne0 h
  have t0 := q.t_ne0 h
  rw [unflip_nbr_eq, q.nbr]
  exact cyc_bonds' d1 d2 d3 d4 d5 d6 m.nbr (out _ (by simp)) (out _ (by simp)) (out _ (by simp)) (out _ (by simp))
    (h.inv q.le) (h.inv q.le) (h.inv q.lt) (h.inv q.lt) e0 e0 t0 t0 y
    (fun h0 => h.dummy (h0 ▸ hy)) (h.inv hy)

/-- The corners after the flip. -/
theorem flip_corner (cs : Bool) :
    (m.flip cs e).corner e = some a ∧ (m.flip cs e).corner (lnext e) = some d ∧
    (m.flip cs e).corner (lprev e) = some c ∧ (m.flip cs e).corner top = some b ∧
    (m.flip cs e).corner (lnext top) = some c ∧ (m.flip cs e).corner (lprev top) = some d ∧
    ∀ y : Otri, y.1 ≠ e.1 → y.1 ≠ top.1 → (m.flip cs e).corner y = m.corner y := by
  obtain ⟨d1, d2, d3, d4, d5, d6⟩ := q.distinct h
  have hne := q.ne
  have n1 := lnext_ne e
  have n2 := lprev_ne e
  have n3 := lnext_ne top
  have n4 := lprev_ne top
  have k : ∀ x y : Otri, x.1 = e.1 → y.1 = top.1 → x ≠ y := by
    intro x y hx hy hh; rw [hh, hy] at hx; exact hne hx.symm
  have k1 := k e top rfl rfl
  have k2 := k e (lnext top) rfl rfl
  have k3 := k e (lprev top) rfl rfl
  have k4 := k (lnext e) top rfl rfl
  have k5 := k (lprev e) top rfl rfl
  rw [flip_corner_eq, q.nbr, q.e0, q.e1, q.e2, q.t0]
  simp only [Function.update_apply]
  refine ⟨?_, ?_, ?_, ?_, ?_, ?_, ?_⟩
  · grind
  · grind
  · grind
  · grind
  · grind
  · grind
  · intro y h1 h2
    have j : ∀ x : Otri, (x.1 = e.1 ∨ x.1 = top.1) → y ≠ x := by
      rintro x (hx | hx) rfl
      · exact h1 hx
      · exact h2 hx
    simp [j e (by simp), j (lnext e) (by simp), j (lprev e) (by simp), j top (by simp), j (lnext top) (by simp),
      j (lprev top) (by simp)]

theorem cyc_live {y : Otri} : L (cyc (lnext e) (lprev e) (lnext top) (lprev top) y).1 ↔ L y.1 := by
  unfold cyc
  have := q.le
  have := q.lt
  split_ifs <;> simp_all

theorem cyc_live' {y : Otri} : L (cyc (lprev top) (lnext top) (lprev e) (lnext e) y).1 ↔ L y.1 := by
  unfold cyc
  have := q.le
  have := q.lt
  split_ifs <;> simp_all

theorem cyc_fix {y : Otri} (hy : y = e ∨ y = top ∨ y = (0, 0)) :
    cyc (lnext e) (lprev e) (lnext top) (lprev top) y = y := by
  have hne := q.ne
  have e0 := q.e_ne0 h
  have t0 := q.t_ne0 h
  have k : ∀ x y : Otri, x.1 = e.1 → y.1 = top.1 → x ≠ y := by
    intro x y hx hy hh; rw [hh, hy] at hx; exact hne hx.symm
  have z : ∀ x : Otri, x.1 ≠ 0 → ((0, 0) : Otri) ≠ x := by
    intro x hx hh; rw [← hh] at hx; exact hx rfl
  unfold cyc
  rcases hy with rfl | rfl | rfl
  · rw [if_neg (lnext_ne _).symm, if_neg (lprev_ne _).symm, if_neg (k y (lnext top) rfl rfl),
      if_neg (k y (lprev top) rfl rfl)]
  · rw [if_neg (k (lnext e) y rfl rfl).symm, if_neg (k (lprev e) y rfl rfl).symm, if_neg (lnext_ne _).symm, if_neg (lprev_ne _).symm]
  · rw [if_neg (z (lnext e) e0), if_neg (z (lprev e) e0), if_neg (z (lnext top) t0), if_neg (z (lprev top) t0)]

theorem cyc_fix' {y : Otri} (hy : y = e ∨ y = top ∨ y = (0, 0)) :
    cyc (lprev top) (lnext top) (lprev e) (lnext e) y = y := by
  obtain ⟨d1, d2, d3, d4, d5, d6⟩ := q.distinct h
  have := cyc_inv d1 d2 d3 d4 d5 d6 y
  rwa [cyc_fix h q hy] at this

theorem cyc_ne {y : Otri} {z : Otri} (hz : z = e ∨ z = top) (hy : y ≠ z) :
    cyc (lnext e) (lprev e) (lnext top) (lprev top) y ≠ z := by
  obtain ⟨d1, d2, d3, d4, d5, d6⟩ := q.distinct h
  intro hh
  have := cyc_inv d1 d2 d3 d4 d5 d6 y
  rw [hh, cyc_fix' h q (by tauto)] at this
  exact hy this.symm

theorem cyc_ne' {y : Otri} {z : Otri} (hz : z = e ∨ z = top) (hy : y ≠ z) :
    cyc (lprev top) (lnext top) (lprev e) (lnext e) y ≠ z := by
  obtain ⟨d1, d2, d3, d4, d5, d6⟩ := q.distinct h
  intro hh
  have := cyc_inv' d1 d2 d3 d4 d5 d6 y
  rw [hh, cyc_fix h q (by tauto)] at this
  exact hy this.symm

/-- The other edges keep their ends. -/
theorem flip_ends (cs : Bool) {y : Otri} (h1 : y ≠ e) (h2 : y ≠ top) :
    (m.flip cs e).corner (lnext y) = m.corner (lnext (cyc (lprev top) (lnext top) (lprev e) (lnext e) y)) ∧
    (m.flip cs e).corner (lprev y) = m.corner (lprev (cyc (lprev top) (lnext top) (lprev e) (lnext e) y)) := by
  obtain ⟨d1, d2, d3, d4, d5, d6⟩ := q.distinct h
  obtain ⟨c1, c2, c3, c4, c5, c6, c7⟩ := flip_corner h q cs
  by_cases he : y.1 = e.1
  · rcases handle_cases e y he with rfl | rfl | rfl
    · exact absurd rfl h1
    · have : cyc (lprev top) (lnext top) (lprev e) (lnext e) (lnext e) = lprev e := by
        unfold cyc; rw [if_neg d3, if_neg d2, if_neg d1, if_pos rfl]
      rw [this]
      simp [c1, c3, q.e0, q.e1]
    · have : cyc (lprev top) (lnext top) (lprev e) (lnext e) (lprev e) = lnext top := by
        unfold cyc; rw [if_neg d5, if_neg d4, if_pos rfl]
      rw [this]
      simp [c1, c2, q.t0, q.t2]
  · by_cases ht : y.1 = top.1
    · rcases handle_cases top y ht with rfl | rfl | rfl
      · exact absurd rfl h2
      · have : cyc (lprev top) (lnext top) (lprev e) (lnext e) (lnext top) = lprev top := by
          unfold cyc; rw [if_neg d6, if_pos rfl]
        rw [this]
        simp [c4, c6, q.t0, q.t1]
      · have : cyc (lprev top) (lnext top) (lprev e) (lnext e) (lprev top) = lnext e := by
          unfold cyc; rw [if_pos rfl]
        rw [this]
        simp [c4, c5, q.e0, q.e2]
    · have : cyc (lprev top) (lnext top) (lprev e) (lnext e) y = y := by
        have j : ∀ x : Otri, (x.1 = e.1 ∨ x.1 = top.1) → y ≠ x := by
          rintro x (hx | hx) rfl
          · exact he hx
          · exact ht hx
        unfold cyc
        rw [if_neg (j _ (by simp)), if_neg (j _ (by simp)), if_neg (j _ (by simp)), if_neg (j _ (by simp))]
      rw [this, c7 (lnext y) he ht, c7 (lprev y) he ht]
      exact ⟨rfl, rfl⟩

/-- The oriented edges after the flip. -/
theorem flip_dir (cs : Bool) {y : Otri} {v w : Nat} : (m.flip cs e).Dir L y v w ↔
    (y = e ∧ v = d ∧ w = c) ∨ (y = top ∧ v = c ∧ w = d) ∨
    (y ≠ e ∧ y ≠ top ∧ m.Dir L (cyc (lprev top) (lnext top) (lprev e) (lnext e) y) v w) := by
  obtain ⟨c1, c2, c3, c4, c5, c6, c7⟩ := flip_corner h q cs
  have k1 : e ≠ top := fun hh => q.ne (by rw [hh])
  rw [dir_iff]
  by_cases h1 : y = e
  · subst h1
    simp [c2, c3, q.le, k1, eq_comm]
  by_cases h2 : y = top
  · subst h2
    simp [c5, c6, q.lt, k1.symm, eq_comm]
  obtain ⟨f1, f2⟩ := flip_ends h q cs h1 h2
  rw [f1, f2, dir_iff, cyc_live' h q]
  simp [h1, h2]

/-- A flip keeps the links. -/
theorem flip_linked (cs : Bool) : Linked (m.flip cs e) L where
  dummy := h.dummy
  corners := by
    obtain ⟨c1, c2, c3, c4, c5, c6, c7⟩ := flip_corner h q cs
    intro t ht o
    by_cases he : t = e.1
    · rcases handle_cases e (t, o) he with hh | hh | hh <;> rw [hh]
      · exact ⟨_, c1⟩
      · exact ⟨_, c2⟩
      · exact ⟨_, c3⟩
    · by_cases htt : t = top.1
      · rcases handle_cases top (t, o) htt with hh | hh | hh <;> rw [hh]
        · exact ⟨_, c4⟩
        · exact ⟨_, c5⟩
        · exact ⟨_, c6⟩
      · rw [c7 _ he htt]; exact h.corners t ht o
  once := by
    obtain ⟨d1, d2, d3, d4, d5, d6⟩ := q.distinct h
    have hcd := q.cd
    have hno := q.nodiag
    intro x y v w hx hy
    rw [flip_dir h q] at hx hy
    rcases hx with ⟨rfl, rfl, rfl⟩ | ⟨rfl, rfl, rfl⟩ | ⟨x1, x2, hx⟩ <;>
      rcases hy with ⟨rfl, hv, hw⟩ | ⟨rfl, hv, hw⟩ | ⟨y1, y2, hy⟩
    · rfl
    · exact absurd hw hcd
    · exact absurd ⟨_, Or.inr hy⟩ hno
    · exact absurd hv hcd
    · rfl
    · exact absurd ⟨_, Or.inl hy⟩ hno
    · subst hv hw; exact absurd ⟨_, Or.inr hx⟩ hno
    · subst hv hw; exact absurd ⟨_, Or.inl hx⟩ hno
    · have := h.once _ _ _ _ hx hy
      rw [← cyc_inv' d1 d2 d3 d4 d5 d6 x, this, cyc_inv' d1 d2 d3 d4 d5 d6 y]
  links := by
    obtain ⟨d1, d2, d3, d4, d5, d6⟩ := q.distinct h
    intro x hx
    by_cases h1 : x = e
    · right
      subst h1
      refine ⟨d, c, (flip_dir h q cs).2 (Or.inl ⟨rfl, rfl, rfl⟩), ?_⟩
      rw [flip_nbr h q cs hx, cyc_fix' h q (by simp), q.nbr, cyc_fix h q (by simp)]
      exact (flip_dir h q cs).2 (Or.inr (Or.inl ⟨rfl, rfl, rfl⟩))
    by_cases h2 : x = top
    · right
      subst h2
      refine ⟨c, d, (flip_dir h q cs).2 (Or.inr (Or.inl ⟨rfl, rfl, rfl⟩)), ?_⟩
      rw [flip_nbr h q cs hx, cyc_fix' h q (by simp), q.nbr', cyc_fix h q (by simp)]
      exact (flip_dir h q cs).2 (Or.inl ⟨rfl, rfl, rfl⟩)
    rw [flip_nbr h q cs hx]
    set z := cyc (lprev top) (lnext top) (lprev e) (lnext e) x with hz
    have hzl : L z.1 := (cyc_live' h q).2 hx
    by_cases hn : m.nbr z = (0, 0)
    · left; rw [hn, cyc_fix h q (by simp)]
    · obtain ⟨-, hi, v, w, k1, k2⟩ := h.across hzl hn
      right
      have ne1 : m.nbr z ≠ e := by
        intro hh; rw [hh, q.nbr] at hi
        exact cyc_ne' h q (Or.inr rfl) h2 (hz ▸ hi.symm)
      have ne2 : m.nbr z ≠ top := by
        intro hh; rw [hh, q.nbr'] at hi
        exact cyc_ne' h q (Or.inl rfl) h1 (hz ▸ hi.symm)
      refine ⟨v, w, (flip_dir h q cs).2 (Or.inr (Or.inr ⟨h1, h2, hz ▸ k1⟩)),
        (flip_dir h q cs).2 (Or.inr (Or.inr ⟨cyc_ne h q (Or.inl rfl) ne1, cyc_ne h q (Or.inr rfl) ne2, ?_⟩))⟩
      rw [cyc_inv d1 d2 d3 d4 d5 d6]
      exact k2
  complete := by
    obtain ⟨d1, d2, d3, d4, d5, d6⟩ := q.distinct h
    have hcd := q.cd
    have hno := q.nodiag
    intro x y v w hx hy
    rw [flip_nbr h q cs hx.1]
    rw [flip_dir h q] at hx hy
    rcases hx with ⟨rfl, rfl, rfl⟩ | ⟨rfl, rfl, rfl⟩ | ⟨x1, x2, hx⟩ <;>
      rcases hy with ⟨rfl, hv, hw⟩ | ⟨rfl, hv, hw⟩ | ⟨y1, y2, hy⟩
    · exact absurd hv hcd
    · rw [cyc_fix' h q (by simp), q.nbr, cyc_fix h q (by simp)]
    · exact absurd ⟨_, Or.inl hy⟩ hno
    · rw [cyc_fix' h q (by simp), q.nbr', cyc_fix h q (by simp)]
    · exact absurd hw hcd
    · exact absurd ⟨_, Or.inr hy⟩ hno
    · subst hv hw; exact absurd ⟨_, Or.inl hx⟩ hno
    · subst hv hw; exact absurd ⟨_, Or.inr hx⟩ hno
    · rw [h.complete _ _ _ _ hx hy, cyc_inv' d1 d2 d3 d4 d5 d6 y]

end

end Delynoi.Tri
