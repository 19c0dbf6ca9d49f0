import Verif.Proofs.TriMesh3
/-! # Flips: subsegments, and flipping back -/
set_option linter.unusedSectionVars false
namespace Delynoi.Tri
variable {m : Heap} {L : Nat → Prop} {e top : Otri} {a b c d : Nat} (h : Linked m L) (q : QuadAt m L e top a b c d)
include h q

theorem flip_sub (g : Segmented m L) (y : Otri) :
    (m.flip true e).sub y = m.sub (cyc (lprev top) (lnext top) (lprev e) (lnext e) y) := by
  obtain ⟨d1, d2, d3, d4, d5, d6⟩ := q.distinct h
  have hn := q.nbr
  rw [flip_sub_eq m e (hn ▸ g.none (lprev top) q.lt) (g.none (lnext e) q.le) (g.none (lprev e) q.le)
    (hn ▸ g.none (lnext top) q.lt), q.nbr]
  simp only [Function.update_apply, cyc]
  grind

theorem unflip_sub (g : Segmented m L) (y : Otri) :
    (m.unflip true e).sub y = m.sub (cyc (lnext e) (lprev e) (lnext top) (lprev top) y) := by
  obtain ⟨d1, d2, d3, d4, d5, d6⟩ := q.distinct h
  have hn := q.nbr
  rw [unflip_sub_eq m e (hn ▸ g.none (lprev top) q.lt) (g.none (lnext e) q.le) (g.none (lprev e) q.le)
    (hn ▸ g.none (lnext top) q.lt), q.nbr]
  simp only [Function.update_apply, cyc]
  grind

theorem flip_stri (g : Segmented m L) {y : Otri} (hy : L y.1) (hs : (m.sub y).1 ≠ 0) :
    (m.flip true e).stri (m.sub y) = cyc (lnext e) (lprev e) (lnext top) (lprev top) y := by
  obtain ⟨d1, d2, d3, d4, d5, d6⟩ := q.distinct h
  have inj : ∀ x, L x.1 → (m.sub y = m.sub x ↔ y = x) := by
    intro x hx
    constructor
    · intro hh
      have h1 := g.back y hy hs
      have h2 := g.back x hx (hh ▸ hs)
      rw [hh, h2] at h1; exact h1.symm
    · rintro rfl; rfl
  rw [flip_stri_eq m e _ hs, q.nbr, g.back y hy hs]
  simp only [inj (lnext top) q.lt, inj (lprev e) q.le, inj (lnext e) q.le, inj (lprev top) q.lt]
  unfold cyc
  grind

theorem unflip_stri (g : Segmented m L) {y : Otri} (hy : L y.1) (hs : (m.sub y).1 ≠ 0) :
    (m.unflip true e).stri (m.sub y) = cyc (lprev top) (lnext top) (lprev e) (lnext e) y := by
  obtain ⟨d1, d2, d3, d4, d5, d6⟩ := q.distinct h
  have inj : ∀ x, L x.1 → (m.sub y = m.sub x ↔ y = x) := by
    intro x hx
    constructor
    · intro hh
      have h1 := g.back y hy hs
      have h2 := g.back x hx (hh ▸ hs)
      rw [hh, h2] at h1; exact h1.symm
    · rintro rfl; rfl
  rw [unflip_stri_eq m e _ hs, q.nbr, g.back y hy hs]
  simp only [inj (lnext top) q.lt, inj (lprev e) q.le, inj (lnext e) q.le, inj (lprev top) q.lt]
  unfold cyc
  grind

/-- A flip keeps the links of the subsegments. -/
theorem flip_segmented (g : Segmented m L) : Segmented (m.flip true e) L where
  back := by
    obtain ⟨d1, d2, d3, d4, d5, d6⟩ := q.distinct h
    intro x hx hs
    rw [flip_sub h q g] at hs ⊢
    rw [flip_stri h q g ((cyc_live' h q).2 hx) hs, cyc_inv' d1 d2 d3 d4 d5 d6]
  none := by
    intro x hx
    rw [flip_sub h q g]
    exact g.none _ ((cyc_live' h q).2 hx)
  both := by
    obtain ⟨d1, d2, d3, d4, d5, d6⟩ := q.distinct h
    intro x hx hn hs
    rw [flip_sub h q g] at hs ⊢
    rw [flip_nbr h q true hx, cyc_live h q] at hn
    rw [flip_nbr h q true hx, flip_sub h q g, cyc_inv d1 d2 d3 d4 d5 d6]
    exact g.both _ ((cyc_live' h q).2 hx) hn hs
  neither := by
    obtain ⟨d1, d2, d3, d4, d5, d6⟩ := q.distinct h
    intro x hx hn hs
    rw [flip_sub h q g] at hs
    rw [flip_nbr h q true hx, cyc_live h q] at hn
    rw [flip_nbr h q true hx, flip_sub h q g, cyc_inv d1 d2 d3 d4 d5 d6]
    exact g.neither _ ((cyc_live' h q).2 hx) hn hs
  same := by
    obtain ⟨d1, d2, d3, d4, d5, d6⟩ := q.distinct h
    intro x y hx hy hs he
    rw [flip_sub h q g] at hs
    rw [flip_sub h q g, flip_sub h q g] at he
    rw [flip_nbr h q true hx]
    rcases g.same _ _ ((cyc_live' h q).2 hx) ((cyc_live' h q).2 hy) hs he with k | k
    · left
      rw [← cyc_inv' d1 d2 d3 d4 d5 d6 y, k, cyc_inv' d1 d2 d3 d4 d5 d6 x]
    · right
      rw [← k, cyc_inv' d1 d2 d3 d4 d5 d6 y]

/-- Without `checksegments` subsegments are not touched. -/
theorem flip_sub_off : (m.flip false e).sub = m.sub ∧ (m.flip false e).stri = m.stri := ⟨rfl, rfl⟩

/-- The quadrilateral after the flip. -/
theorem flip_quad (cs : Bool) : QuadAt (m.flip cs e) L e top d c a b where
  le := q.le
  lt := q.lt
  ne := q.ne
  nbr := by rw [flip_nbr h q cs q.le, cyc_fix' h q (by simp), q.nbr, cyc_fix h q (by simp)]
  nbr' := by rw [flip_nbr h q cs q.lt, cyc_fix' h q (by simp), q.nbr', cyc_fix h q (by simp)]
  e0 := (flip_corner h q cs).1
  e1 := (flip_corner h q cs).2.1
  e2 := (flip_corner h q cs).2.2.1
  t0 := (flip_corner h q cs).2.2.2.1
  t1 := (flip_corner h q cs).2.2.2.2.1
  t2 := (flip_corner h q cs).2.2.2.2.2.1
  ab := q.cd.symm
  ac := q.ad.symm
  ad := q.bd.symm
  bc := q.ac.symm
  bd := q.bc.symm
  cd := q.ab
  nodiag := by
    intro hadj
    rcases flip_adj h q hadj with ⟨-, h1, -⟩ | ⟨h1, -⟩ | ⟨h1, -⟩
    · exact h1 ⟨rfl, rfl⟩
    · exact q.ac h1
    · exact q.ad h1

/-- The corners after `unflip`. -/
theorem unflip_corner (cs : Bool) :
    (m.unflip cs e).corner e = some b ∧ (m.unflip cs e).corner (lnext e) = some c ∧
    (m.unflip cs e).corner (lprev e) = some d ∧ (m.unflip cs e).corner top = some a ∧
    (m.unflip cs e).corner (lnext top) = some d ∧ (m.unflip cs e).corner (lprev top) = some c ∧
    ∀ y : Otri, y.1 ≠ e.1 → y.1 ≠ top.1 → (m.unflip cs e).corner y = m.corner y := by
  obtain ⟨d1, d2, d3, d4, d5, d6⟩ := q.distinct h
  have hne := q.ne
  have n1 := lnext_ne e
  have n2 := lprev_ne e
  have n3 := lnext_ne top
  have n4 := lprev_ne top
  have k : ∀ x y : Otri, x.1 = e.1 → y.1 = top.1 → x ≠ y := by
    intro x y hx hy hh; rw [hh, hy] at hx; exact hne hx.symm
  have k1 := k e top rfl rfl
  have k2 := k e (lnext top) rfl rfl
  have k3 := k e (lprev top) rfl rfl
  have k4 := k (lnext e) top rfl rfl
  have k5 := k (lprev e) top rfl rfl
  rw [unflip_corner_eq, q.nbr, q.e0, q.e1, q.e2, q.t0]
  simp only [Function.update_apply]
  refine ⟨?_, ?_, ?_, ?_, ?_, ?_, ?_⟩
  · grind
  · grind
  · grind
  · grind
  · grind
  · grind
  · intro y h1 h2
    have j : ∀ x : Otri, (x.1 = e.1 ∨ x.1 = top.1) → y ≠ x := by
      rintro x (hx | hx) rfl
      · exact h1 hx
      · exact h2 hx
    simp [j e (by simp), j (lnext e) (by simp), j (lprev e) (by simp), j top (by simp), j (lnext top) (by simp),
      j (lprev top) (by simp)]

/-- `unflip` undoes `flip` on all triangles in use. -/
theorem unflip_flip (cs : Bool) {y : Otri} (hy : L y.1) :
    ((m.flip cs e).unflip cs e).nbr y = m.nbr y ∧ ((m.flip cs e).unflip cs e).corner y = m.corner y := by
  obtain ⟨d1, d2, d3, d4, d5, d6⟩ := q.distinct h
  have hl := flip_linked h q cs
  have hq := flip_quad h q cs
  constructor
  · rw [unflip_nbr hl hq cs hy, flip_nbr h q cs ((cyc_live h q).2 hy), cyc_inv d1 d2 d3 d4 d5 d6,
      cyc_inv d1 d2 d3 d4 d5 d6]
  · obtain ⟨c1, c2, c3, c4, c5, c6, c7⟩ := unflip_corner hl hq cs
    obtain ⟨-, -, -, -, -, -, b7⟩ := flip_corner h q cs
    by_cases he : y.1 = e.1
    · rcases handle_cases e y he with rfl | rfl | rfl
      · rw [c1, q.e0]
      · rw [c2, q.e1]
      · rw [c3, q.e2]
    · by_cases ht : y.1 = top.1
      · rcases handle_cases top y ht with rfl | rfl | rfl
        · rw [c4, q.t0]
        · rw [c5, q.t1]
        · rw [c6, q.t2]
      · rw [c7 y he ht, b7 y he ht]

theorem unflip_flip_sub (g : Segmented m L) {y : Otri} (hy : L y.1) :
    ((m.flip true e).unflip true e).sub y = m.sub y ∧
    ((m.sub y).1 ≠ 0 → ((m.flip true e).unflip true e).stri (m.sub y) = m.stri (m.sub y)) := by
  obtain ⟨d1, d2, d3, d4, d5, d6⟩ := q.distinct h
  have hl := flip_linked h q true
  have hq := flip_quad h q true
  have hg := flip_segmented h q g
  constructor
  · rw [unflip_sub hl hq hg, flip_sub h q g, cyc_inv d1 d2 d3 d4 d5 d6]
  · intro hs
    have e1 : m.sub y = (m.flip true e).sub (cyc (lnext e) (lprev e) (lnext top) (lprev top) y) := by
      rw [flip_sub h q g, cyc_inv d1 d2 d3 d4 d5 d6]
    have hs' := hs
    rw [e1] at hs'
    have := unflip_stri hl hq hg ((cyc_live h q).2 hy) hs'
    rw [← e1, cyc_inv d1 d2 d3 d4 d5 d6] at this
    rw [this, g.back y hy hs]

/-- The handle kept in `dummytri` stays on the hull. -/
theorem flip_hull (cs : Bool) (hh : L (m.nbr (0, 0)).1 ∧ m.nbr (m.nbr (0, 0)) = (0, 0)) :
    L ((m.flip cs e).nbr (0, 0)).1 ∧ (m.flip cs e).nbr ((m.flip cs e).nbr (0, 0)) = (0, 0) := by
  obtain ⟨d1, d2, d3, d4, d5, d6⟩ := q.distinct h
  have e0 := q.e_ne0 h
  have t0 := q.t_ne0 h
  have z : ∀ x : Otri, x.1 ≠ 0 → ((0, 0) : Otri) ≠ x := by
    intro x hx hh; rw [← hh] at hx; exact hx rfl
  have z1 := z (lnext e) e0
  have z2 := z (lprev e) e0
  have z3 := z (lnext top) t0
  have z4 := z (lprev top) t0
  -- value at (0,0)
  have val : (m.flip cs e).nbr (0, 0) =
      if m.nbr (lprev top) = (0, 0) then lnext top else if m.nbr (lnext top) = (0, 0) then lprev e else
      if m.nbr (lprev e) = (0, 0) then lnext e else if m.nbr (lnext e) = (0, 0) then lprev top else m.nbr (0, 0) := by
    rw [flip_nbr_eq, q.nbr]
    simp only [Function.update_apply]
    grind
  have key : ∀ x, L x.1 → m.nbr (cyc (lprev top) (lnext top) (lprev e) (lnext e) x) = (0, 0) →
      L x.1 ∧ (m.flip cs e).nbr x = (0, 0) := by
    intro x hx hn
    refine ⟨hx, ?_⟩
    rw [flip_nbr h q cs hx, hn, cyc_fix h q (by simp)]
  rw [val]
  by_cases k1 : m.nbr (lprev top) = (0, 0)
  · rw [if_pos k1]
    refine key _ q.lt ?_
    have : cyc (lprev top) (lnext top) (lprev e) (lnext e) (lnext top) = lprev top := by unfold cyc; grind
    rw [this]; exact k1
  rw [if_neg k1]
  by_cases k2 : m.nbr (lnext top) = (0, 0)
  · rw [if_pos k2]
    refine key _ q.le ?_
    have : cyc (lprev top) (lnext top) (lprev e) (lnext e) (lprev e) = lnext top := by unfold cyc; grind
    rw [this]; exact k2
  rw [if_neg k2]
  by_cases k3 : m.nbr (lprev e) = (0, 0)
  · rw [if_pos k3]
    refine key _ q.le ?_
    have : cyc (lprev top) (lnext top) (lprev e) (lnext e) (lnext e) = lprev e := by unfold cyc; grind
    rw [this]; exact k3
  rw [if_neg k3]
  by_cases k4 : m.nbr (lnext e) = (0, 0)
  · rw [if_pos k4]
    refine key _ q.lt ?_
    have : cyc (lprev top) (lnext top) (lprev e) (lnext e) (lprev top) = lnext e := by unfold cyc; grind
    rw [this]; exact k4
  rw [if_neg k4]
  refine key _ hh.1 ?_
  have : cyc (lprev top) (lnext top) (lprev e) (lnext e) (m.nbr (0, 0)) = m.nbr (0, 0) := by
    have h2 := hh.2
    unfold cyc
    grind
  rw [this]; exact hh.2

end Delynoi.Tri
