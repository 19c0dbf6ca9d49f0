import Verif.Proofs.CellArea
import Verif.Proofs.ConeCover
/-!
Helper lemmas: sides of a cell and hops of the path around it; the path around an inner cell surrounds
the point.
-/
set_option linter.unusedSectionVars false
namespace Delynoi
variable {K : Type} [Field K] [LinearOrder K] [IsStrictOrderedRing K]

theorem mem_hops : ∀ (l : List Int) (a b : Int), (a, b) ∈ hops l ↔
    a ≠ b ∧ ∃ s : Nat, l[s]? = some a ∧ l[s + 1]? = some b := by
  intro l
  induction l with
  | nil => intro a b; simp [hops]
  | cons x l ih =>
    intro a b
    cases l with
    | nil => simp [hops]
    | cons y l =>
      rw [hops_cons2, List.mem_append, ih]
      constructor
      · rintro (h | ⟨h, s, h1, h2⟩)
        · split at h
          · simp at h
          · rename_i hne
            simp only [List.mem_cons, Prod.mk.injEq, List.not_mem_nil, or_false] at h
            obtain ⟨rfl, rfl⟩ := h
            exact ⟨hne, 0, rfl, rfl⟩
        · exact ⟨h, s + 1, h1, h2⟩
      · rintro ⟨h, s, h1, h2⟩
        cases s with
        | zero =>
          left
          simp at h1 h2
          subst h1 h2
          rw [if_neg h]; simp
        | succ s => exact Or.inr ⟨h, s, by simpa using h1, by simpa using h2⟩

/-- Sides of a closed path that does not return. -/
theorem sides_closed {idx : List Int} {c : Int} (h1 : idx.head? = some c) (h2 : idx.getLast? = some c)
    (hn : (dropRepeats idx).tail.Nodup) {a b : Int} (hab : a ≠ b) :
    (a, b) ∈ cycPairs (firsts idx) ↔ (a, b) ∈ hops idx := by
  rw [hops_eq, ← firsts_dropRepeats]
  rw [← dropRepeats_head] at h1
  rw [← dropRepeats_last] at h2
  generalize dropRepeats idx = D at *
  cases D with
  | nil => simp at h1
  | cons x T =>
    simp at h1; subst h1
    simp only [List.tail_cons] at hn
    rcases List.eq_nil_or_concat' T with rfl | ⟨T', z, rfl⟩
    · have : firsts [x] = [x] := rfl
      rw [this]
      simp only [cycPairs, List.drop_succ_cons, List.drop_zero, List.take_succ_cons, List.take_zero,
        List.nil_append, List.tail_cons, List.zip_nil_right, List.zip_cons_cons, List.mem_singleton,
        List.not_mem_nil, iff_false, Prod.mk.injEq]
      rintro ⟨rfl, rfl⟩
      exact hab rfl
    · have hz : z = x := by
        rw [← List.cons_append, List.getLast?_append] at h2
        simpa using h2
      subst hz
      have hn' := List.nodup_append.1 hn
      have hz : z ∉ T' := fun hz => hn'.2.2 z hz z (by simp) rfl
      have hn2 : (z :: T').Nodup := List.nodup_cons.2 ⟨hz, hn'.1⟩
      have hf : firsts (z :: (T' ++ [z])) = z :: T' := by
        rw [← List.cons_append, firsts_append, firsts_nodup hn2]
        exact addNew_mem (by simp)
      rw [hf]
      obtain ⟨w, hw⟩ : ∃ w, (z :: T').getLast? = some w := ⟨_, List.getLast?_eq_some_getLast (by simp)⟩
      rw [cycPairs_zip (a := z) (z := w) rfl hw, ← List.cons_append, zip_tail_snoc _ w z hw]

/-- Sides of an open path that does not return. -/
theorem sides_open {idx : List Int} {a z : Int} (h1 : idx.head? = some a) (h2 : idx.getLast? = some z)
    (hn : (dropRepeats idx).Nodup) (e : Int × Int) :
    e ∈ cycPairs (firsts idx) ↔ e ∈ hops idx ∨ e = (z, a) := by
  rw [hops_eq, ← firsts_dropRepeats, firsts_nodup hn]
  rw [← dropRepeats_head] at h1
  rw [← dropRepeats_last] at h2
  rw [cycPairs_zip h1 h2, List.mem_append, List.mem_singleton]

/-- Vertices on a bisector that are in the same direction are equal. -/
theorem stay_bis {a y y' : Pt K} (ha : a ≠ ⟨0, 0⟩) (h1 : pw y a = 0) (h2 : pw y' a = 0) (h : cr y y' = 0) :
    y' = y := by
  have hd := dt_pos ha
  have e1 : 2 * dt y a = dt a a := by unfold pw at h1; linarith
  have e2 : 2 * dt y' a = dt a a := by unfold pw at h2; linarith
  have px : dt a a * (y'.x - y.x) = 0 := by
    have : 2 * dt y a * y'.x - 2 * dt y' a * y.x = -2 * a.y * cr y y' := by unfold dt cr; ring
    rw [e1, e2, h] at this; linear_combination this
  have py : dt a a * (y'.y - y.y) = 0 := by
    have : 2 * dt y a * y'.y - 2 * dt y' a * y.y = 2 * a.x * cr y y' := by unfold dt cr; ring
    rw [e1, e2, h] at this; linear_combination this
  refine Pt.ext ?_ ?_
  · rcases mul_eq_zero.1 px with h' | h'
    · exact absurd h' hd.ne'
    · linarith
  · rcases mul_eq_zero.1 py with h' | h'
    · exact absurd h' hd.ne'
    · linarith

theorem mod_succ {k s : Nat} (hk : 0 < k) :
    (s % k + 1 < k ∧ (s + 1) % k = s % k + 1) ∨ (s % k + 1 = k ∧ (s + 1) % k = 0) := by
  have hlt := Nat.mod_lt s hk
  rcases Nat.lt_or_ge (s % k + 1) k with h | h
  · left
    refine ⟨h, ?_⟩
    rw [Nat.add_mod, Nat.mod_eq_of_lt (show 1 < k by omega), Nat.mod_eq_of_lt h]
  · right
    have h' : s % k + 1 = k := by omega
    refine ⟨h', ?_⟩
    rw [← Nat.mod_add_mod, h', Nat.mod_self]

namespace GFan
variable {e : K} {k : Nat} {a x : Nat → Pt K}

/-- The neighbours of an inner point surround it. -/
theorem turning_a (h : GFan e k a x) (hk : 0 < k) (hcl : a 0 = a k) : Turning e k (fun s => a (s % k)) where
  sgn := h.sgn
  pos := hk
  per := fun s => by simp
  hop := fun s => by
    have hp := h.pos (s % k) (Nat.mod_lt s hk)
    rcases mod_succ (s := s) hk with ⟨_, h2⟩ | ⟨h1, h2⟩
    · simp only [h2]; exact hp.le
    · simp only [h2]; rw [h1, ← hcl] at hp; exact hp.le
  stay := fun s h0 => by
    have hp := h.pos (s % k) (Nat.mod_lt s hk)
    rcases mod_succ (s := s) hk with ⟨_, h2⟩ | ⟨h1, h2⟩
    · simp only [h2] at h0; rw [h0] at hp; simp at hp
    · simp only [h2] at h0; rw [h1, ← hcl, h0] at hp; simp at hp
  ne := fun s => h.ne_zero hk (Nat.mod_lt s hk).le
  some := by
    refine ⟨0, ?_⟩
    have hp := h.pos 0 hk
    intro h0
    rcases mod_succ (s := 0) hk with ⟨_, h2⟩ | ⟨h1, h2⟩
    · simp only [h2] at h0; simp at h0; rw [h0] at hp; simp at hp
    · simp only [h2] at h0; simp at h0; simp at h1; rw [← h1] at hcl; rw [← hcl, h0] at hp; simp at hp

/-- Both ends of a hop around an inner cell lie on a bisector. -/
theorem zc_bis (h : GFan e k a x) (hk : 0 < k) (hcl : a 0 = a k) {s : Nat} (hs : s < k) :
    pw (zc k x s) (a s) = 0 ∧ pw (zc k x (s + 1)) (a s) = 0 := by
  unfold zc
  rw [if_neg (by omega : ¬ s + 1 = 0), Nat.add_sub_cancel]
  refine ⟨?_, h.c0 s hs⟩
  split
  · rename_i h0
    have := h.c1 (k - 1) (by omega)
    rwa [show k - 1 + 1 = k by omega, ← hcl, ← h0] at this
  · have := h.c1 (s - 1) (by omega)
    rwa [show s - 1 + 1 = s by omega] at this

theorem zc_period (hk : 0 < k) (x : Nat → Pt K) : zc k x k = zc k x 0 := by
  unfold zc; rw [if_neg (by omega), if_pos rfl]

theorem zc_ne (h : GFan e k a x) (hk : 0 < k) {s : Nat} (hs : s ≤ k) : zc k x s ≠ ⟨0, 0⟩ := by
  unfold zc
  split
  · exact h.x_ne (by omega)
  · exact h.x_ne (by omega)

/-- Some hop around an inner cell is proper. -/
theorem zc_some (h : GFan e k a x) (hk : 0 < k) (hcl : a 0 = a k) :
    ∃ s < k, cr (zc k x s) (zc k x (s + 1)) ≠ 0 := by
  by_contra hc
  push Not at hc
  have heq : ∀ s ≤ k, zc k x s = zc k x 0 := by
    intro s
    induction s with
    | zero => intro _; rfl
    | succ s ih =>
      intro hs
      obtain ⟨h1, h2⟩ := h.zc_bis hk hcl (s := s) (by omega)
      rw [stay_bis (h.ne_zero hk (i := s) (by omega)) h1 h2 (hc s (by omega)), ih (by omega)]
  have hpw : ∀ s < k, pw (zc k x 0) (a s) = 0 := by
    intro s hs
    have := (h.zc_bis hk hcl hs).1
    rwa [heq s hs.le] at this
  have he : e * e = 1 := by rcases h.sgn with rfl | rfl <;> ring
  have he0 : e ≠ 0 := by rintro rfl; simp at he
  refine (h.turning_a hk hcl).not_all_pos ⟨e * (zc k x 0).y, -(e * (zc k x 0).x)⟩ ?_ ?_
  · intro h0
    apply h.zc_ne hk (s := 0) (by omega)
    have h1 := congrArg Pt.x h0
    have h2 := congrArg Pt.y h0
    simp only [neg_eq_zero, mul_eq_zero, he0, false_or] at h1 h2
    exact Pt.ext h2 h1
  · intro s
    have h1 := hpw (s % k) (Nat.mod_lt s hk)
    have hd := dt_pos (h.ne_zero hk (Nat.mod_lt s hk).le)
    have h2 : e * cr ⟨e * (zc k x 0).y, -(e * (zc k x 0).x)⟩ (a (s % k)) =
        (e * e) * dt (zc k x 0) (a (s % k)) := by
      unfold cr dt; simp only; ring
    rw [h2, he, one_mul]
    unfold pw at h1
    linarith

/-- The path around an inner cell surrounds the point. -/
theorem turning_z (h : GFan e k a x) (hk : 0 < k) (hcl : a 0 = a k) :
    Turning e k (fun s => zc k x (s % k)) := by
  have next : ∀ s, zc k x ((s + 1) % k) = zc k x (s % k + 1) := by
    intro s
    rcases mod_succ (s := s) hk with ⟨_, h2⟩ | ⟨h1, h2⟩
    · rw [h2]
    · rw [h2, h1, zc_period hk]
  refine ⟨h.sgn, hk, fun s => by simp, ?_, ?_, ?_, ?_⟩
  · intro s
    simp only [next]
    exact h.zc_nonneg hk hcl _ (Nat.mod_lt s hk)
  · intro s h0
    simp only [next] at h0 ⊢
    obtain ⟨h1, h2⟩ := h.zc_bis hk hcl (Nat.mod_lt s hk)
    exact stay_bis (h.ne_zero hk (Nat.mod_lt s hk).le) h1 h2 h0
  · intro s
    exact h.zc_ne hk (Nat.mod_lt s hk).le
  · obtain ⟨s, hs, h0⟩ := h.zc_some hk hcl
    refine ⟨s, ?_⟩
    simp only [next]
    rw [Nat.mod_eq_of_lt hs]
    exact h0

theorem zo_bis (h : GFan e k a x) {s : Nat} (hs : s ≤ k) :
    pw (zo k a x s) (a s) = 0 ∧ pw (zo k a x (s + 1)) (a s) = 0 := by
  unfold zo
  rw [if_neg (by omega : ¬ s + 1 = 0), Nat.add_sub_cancel]
  refine ⟨?_, ?_⟩
  · split
    · rename_i h0; rw [h0]; exact half_pw _
    · have := h.c1 (s - 1) (by omega)
      rw [show s - 1 + 1 = s by omega] at this
      first | exact this | (rw [if_pos (by omega)]; exact this)
  · split
    · exact h.c0 s (by omega)
    · rw [if_pos (by omega), show s = k by omega]; exact half_pw _

/-- Some hop around a boundary cell is proper. -/
theorem zo_some (h : GFan e k a x) (hk : 0 < k) (hop : a 0 ≠ a k) :
    ∃ s < k + 1, cr (zo k a x s) (zo k a x (s + 1)) ≠ 0 := by
  by_contra hc
  push Not at hc
  have heq : ∀ s ≤ k + 1, zo k a x s = zo k a x 0 := by
    intro s
    induction s with
    | zero => intro _; rfl
    | succ s ih =>
      intro hs
      obtain ⟨h1, h2⟩ := h.zo_bis (s := s) (by omega)
      rw [stay_bis (h.ne_zero hk (i := s) (by omega)) h1 h2 (hc s (by omega)), ih (by omega)]
  have := heq (k + 1) (by omega)
  unfold zo at this
  rw [if_neg (by omega), if_neg (by omega), if_pos rfl, if_pos rfl] at this
  exact hop (half_inj this).symm

theorem quad_pos_c (h : GFan e k a x) (hk : 0 < k) (hcl : a 0 = a k) :
    0 < ∑ s ∈ Finset.range k, e * (quad a x s / 2) := by
  have hq : ∑ s ∈ Finset.range k, e * (quad a x s / 2) =
      (∑ s ∈ Finset.range k, e * cr (zc k x s) (zc k x (s + 1))) / 2 := by
    rw [← Finset.mul_sum, ← Finset.sum_div, ← h.zc_sum hk hcl, ← Finset.mul_sum, mul_div_assoc]
  have he0 : e ≠ 0 := by rcases h.sgn with rfl | rfl <;> simp
  rw [hq]
  obtain ⟨s, hs, h0⟩ := h.zc_some hk hcl
  have := Finset.sum_pos' (s := Finset.range k) (f := fun s => e * cr (zc k x s) (zc k x (s + 1)))
    (fun i hi => h.zc_nonneg hk hcl i (Finset.mem_range.1 hi))
    ⟨s, Finset.mem_range.2 hs, lt_of_le_of_ne (h.zc_nonneg hk hcl s hs) (mul_ne_zero he0 h0).symm⟩
  linarith

theorem quad_pos_o (h : GFan e k a x) (hk : 0 < k) (hop : a 0 ≠ a k)
    (h0 : ∀ j ≤ k, 0 ≤ pw (half (a 0)) (a j)) (h1 : ∀ j ≤ k, 0 ≤ pw (half (a k)) (a j)) :
    0 < ∑ s ∈ Finset.range k, e * (quad a x s / 2) := by
  have hq : ∑ s ∈ Finset.range k, e * (quad a x s / 2) =
      (∑ s ∈ Finset.range (k + 1), e * cr (zo k a x s) (zo k a x (s + 1))) / 2 := by
    rw [← Finset.mul_sum, ← Finset.sum_div, ← h.zo_sum hk, ← Finset.mul_sum, mul_div_assoc]
  have he0 : e ≠ 0 := by rcases h.sgn with rfl | rfl <;> simp
  rw [hq]
  obtain ⟨s, hs, hne⟩ := h.zo_some hk hop
  have := Finset.sum_pos' (s := Finset.range (k + 1)) (f := fun s => e * cr (zo k a x s) (zo k a x (s + 1)))
    (fun i hi => h.zo_nonneg hk h0 h1 i (Finset.mem_range.1 hi))
    ⟨s, Finset.mem_range.2 hs, lt_of_le_of_ne (h.zo_nonneg hk h0 h1 s hs) (mul_ne_zero he0 hne).symm⟩
  linarith
end GFan

section
variable {tol : K} {out : TriOut K} {l : List (Pt K)} {v : Int} {ns : List Int} {ts : List Nat} {idx : List Int}

/-- The parts of a cell have a positive sum, and every side of the path turns in the direction of the fan,
if the closing hop of a flat cell is straight. -/
theorem path_sides (hv : ValidOut out) (hC : Conforming out)
    (hS : MergesNothing tol out) (hl : ∀ q ∈ l, Feature out q)
    (hu : ∀ i j q, vecGet l i = .ok q → vecGet l j = .ok q → i = j)
    (hF : IsFan out.tris v ns ts) (hn : ts.Nodup) (hne : ts ≠ [])
    (hci : CellIdx tol out l v ns ts idx) (e : K)
    (hG : GFan e ts.length (fanA out v ns) (fanX out v ts)) :
    0 < ∑ s ∈ Finset.range ts.length, e * (quad (fanA out v ns) (fanX out v ts) s / 2) ∧
    ((BoundaryEdge out.tris v (ns.getD 0 0) → BoundaryEdge out.tris v (ns.getD ts.length 0) →
        |cr (half (fanA out v ns ts.length)) (half (fanA out v ns 0))| < tol →
        cr (half (fanA out v ns ts.length)) (half (fanA out v ns 0)) = 0) →
      ∀ p ∈ cycPairs (firsts idx), 0 ≤ e * gArea l (ptOf out.points v) p.1 p.2) := by
  have hpos : 0 < ts.length := List.length_pos_of_ne_nil hne
  have hnr := noReturn_of hv hC hS hl hu hF hn hne hci
  unfold NoReturn at hnr
  have hop : ∀ {s s' : Nat} {z z' : Pt K} {i j : Int}, At l (ptOf out.points v) idx s z →
      At l (ptOf out.points v) idx s' z' → idx[s]? = some i → idx[s']? = some j → 0 ≤ e * cr z z' →
      0 ≤ e * gArea l (ptOf out.points v) i j := by
    intro s s' z z' i j h1 h2 h3 h4 h5
    have := gArea_at h1 h2
    rw [List.getD_eq_getElem?_getD, List.getD_eq_getElem?_getD, h3, h4, Option.getD_some, Option.getD_some] at this
    rw [this]
    linarith
  rcases cell_exact hv hC hS hl hF hn hne hci with ⟨h1, h2, h3, ⟨c, h4, h4'⟩, h5⟩ |
    ⟨h1, h2, hb0, hb1, h5, h6, h7, h8⟩
  · rw [if_pos h2] at hnr
    refine ⟨hG.quad_pos_c hpos h1, fun _ p hp => ?_⟩
    by_cases hne' : p.1 = p.2
    · rw [hne', gArea_self, mul_zero]
    · obtain ⟨_, s, hs, hs'⟩ := (mem_hops _ _ _).1 ((sides_closed h4 h4' hnr hne').1 hp)
      have hsl := (List.getElem?_eq_some_iff.1 hs').1
      exact hop (h5 s (by omega)) (h5 (s + 1) (by omega)) hs hs' (hG.zc_nonneg hpos h1 s (by omega))
  · rw [if_neg h2] at hnr
    have hil : 0 < idx.length := by rcases h8 with ⟨h8, _⟩ | h8 <;> omega
    have hhd : idx.head? = some idx[0] := by rw [List.head?_eq_getElem?, List.getElem?_eq_getElem hil]
    have hlst : idx.getLast? = some (idx[idx.length - 1]'(by omega)) := by
      rw [List.getLast?_eq_getElem?, List.getElem?_eq_getElem (by omega)]
    refine ⟨hG.quad_pos_o hpos h1 h5 h6, fun hr p hp => ?_⟩
    have z0 : zo ts.length (fanA out v ns) (fanX out v ts) 0 = half (fanA out v ns 0) := by
      unfold zo; rw [if_pos rfl]
    have z1 : zo ts.length (fanA out v ns) (fanX out v ts) (ts.length + 1) =
        half (fanA out v ns ts.length) := by
      unfold zo; rw [if_neg (by omega), if_neg (by omega), if_pos rfl]
    have z2 : zo ts.length (fanA out v ns) (fanX out v ts) (ts.length + 2) = ⟨0, 0⟩ := by
      unfold zo; rw [if_neg (by omega), if_neg (by omega), if_neg (by omega)]
    have c1 : ∀ a : Pt K, cr a ⟨0, 0⟩ = 0 := by intro a; unfold cr; simp
    have c2 : ∀ a : Pt K, cr ⟨0, 0⟩ a = 0 := by intro a; unfold cr; simp
    rcases (sides_open hhd hlst hnr p).1 hp with hp' | hp'
    · obtain ⟨_, s, hs, hs'⟩ := (mem_hops _ _ _).1 hp'
      have hsl := (List.getElem?_eq_some_iff.1 hs').1
      refine hop (h7 s (by omega)) (h7 (s + 1) (by omega)) hs hs' ?_
      rcases Nat.lt_or_ge s (ts.length + 1) with hlt | hge
      · exact hG.zo_nonneg hpos h5 h6 s hlt
      · have : s = ts.length + 1 := by rcases h8 with ⟨h8, _⟩ | h8 <;> omega
        rw [this, z2, c1, mul_zero]
    · rw [hp']
      refine hop (h7 (idx.length - 1) (by omega)) (h7 0 hil) (List.getElem?_eq_getElem (by omega))
        (List.getElem?_eq_getElem hil) ?_
      rw [z0]
      rcases h8 with ⟨h8, i, e', qf, ql, g1, g2, g3, g4, g5⟩ | h8
      · rw [h8, show ts.length + 2 - 1 = ts.length + 1 by omega, z1]
        -- the last index kept is the last of the path
        rw [← firsts_dropRepeats, firsts_nodup hnr, dropRepeats_last, hlst] at g2
        rw [hhd] at g1
        have a0 := at_getD (h7 0 hil)
        have a1 := at_getD (h7 (idx.length - 1) (by omega))
        rw [List.getD_eq_getElem _ _ hil, Option.some.inj g1, ptOf_ok g3, z0] at a0
        rw [List.getD_eq_getElem _ _ (by omega), Option.some.inj g2, ptOf_ok g4, h8,
          show ts.length + 2 - 1 = ts.length + 1 by omega, z1] at a1
        have : cr (half (fanA out v ns ts.length)) (half (fanA out v ns 0)) =
            turn qf (ptOf out.points v) ql := by
          rw [← a0, ← a1]; unfold cr relTo turn; ring
        rw [hr hb0 hb1 (by rw [this]; exact g5), mul_zero]
      · rw [h8, show ts.length + 3 - 1 = ts.length + 2 by omega, z2, c2, mul_zero]

/-- The closing hop of a flat cell is straight if there are no almost straight corners. -/
theorem straight_of (hv : ValidOut out) (hM : MergesNoCorner tol out ∨ ∀ a, ¬ BoundaryEdge out.tris v a)
    (hb0 : BoundaryEdge out.tris v (ns.getD 0 0)) (hb1 : BoundaryEdge out.tris v (ns.getD ts.length 0))
    (h : |cr (half (fanA out v ns ts.length)) (half (fanA out v ns 0))| < tol) :
    cr (half (fanA out v ns ts.length)) (half (fanA out v ns 0)) = 0 := by
  rcases hM with hh | hh
  · have site : ∀ {a : Int}, BoundaryEdge out.tris v a → ∃ pv pa, vecGet out.points v = .ok pv ∧
        vecGet out.points a = .ok pa := by
      rintro a ⟨t, ⟨tt, g1, g2⟩, _⟩
      have hmem := List.mem_of_getElem? g1
      obtain ⟨k1, k2, _⟩ := (mem_sides_iff (properTris_of_valid hv tt hmem) v a).1 g2
      exact ⟨_, _, (site_of_tri hv g1 k1).1, (site_of_tri hv g1 k2).1⟩
    obtain ⟨pv, pa, g1, g2⟩ := site hb0
    obtain ⟨pv', pb, g1', g3⟩ := site hb1
    have hz := hh v _ _ pv pa pb hb0 hb1 g1 g2 g3
    have hturn : cr (half (fanA out v ns ts.length)) (half (fanA out v ns 0)) =
        turn (⟨(pv.x + pa.x) / 2, (pv.y + pa.y) / 2⟩ : Pt K) pv
        ⟨(pv.x + pb.x) / 2, (pv.y + pb.y) / 2⟩ := by
      unfold fanA
      rw [ptOf_ok g1, ptOf_ok g2, ptOf_ok g3]
      unfold half relTo cr turn
      simp only
      ring
    rw [hturn]
    exact hz (by rw [← hturn]; exact h)
  · exact absurd hb0 (hh _)

/-- The sides of a cell in the order of the mesh. -/
theorem poly_sides (hv : ValidOut out) (hC : Conforming out)
    (hS : MergesNothing tol out) (hl : ∀ q ∈ l, Feature out q)
    (hu : ∀ i j q, vecGet l i = .ok q → vecGet l j = .ok q → i = j)
    (hF : IsFan out.tris v ns ts) (hn : ts.Nodup) (hne : ts ≠ [])
    (hci : CellIdx tol out l v ns ts idx) (e : K)
    (hG : GFan e ts.length (fanA out v ns) (fanX out v ts))
    (hM : MergesNoCorner tol out ∨ ∀ a, ¬ BoundaryEdge out.tris v a)
    {pts : List Int} (hpts : pts = firsts idx ∨ pts = (firsts idx).reverse)
    (harea : 0 ≤ cycSum (gArea l (ptOf out.points v)) pts) :
    (e = 1 ∧ pts = firsts idx) ∨ (e = -1 ∧ pts = (firsts idx).reverse) := by
  obtain ⟨hS0, _⟩ := path_sides hv hC hS hl hu hF hn hne hci e hG
  obtain ⟨_, r, hr, hr'⟩ := cell_sum hv hC hS hl hu hF hn hne hci e hG
  have hr0 : r = 0 := by
    rcases hr' with h | ⟨h, hb0, hb1, h0⟩
    · exact h
    · rw [h0] at h ⊢
      exact straight_of hv hM hb0 hb1 h
  rw [hr0, zero_div, mul_zero, add_zero] at hr
  rw [← hr] at hS0
  have hrev := cycSum_reverse (gArea l (ptOf out.points v)) (gArea_swap l (ptOf out.points v)) (firsts idx)
  rcases hG.sgn with rfl | rfl <;> rcases hpts with rfl | rfl
  · exact Or.inl ⟨rfl, rfl⟩
  · rw [hrev] at harea; linarith
  · linarith
  · exact Or.inr ⟨rfl, rfl⟩
end

end Delynoi
