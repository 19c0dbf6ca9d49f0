import Verif.Proofs.TriSort4
import Mathlib.Data.Rat.Defs
import Mathlib.Algebra.Order.Ring.Rat
import Mathlib.Tactic.Linarith
/-!
# Properties C127 to C132: how Triangle sorts its vertices
-/
set_option linter.unusedSectionVars false
namespace Delynoi
open Tri

variable {K : Type} [LinearOrder K] {V : Type}

/-! ## C127: random numbers -/

/-- C127: for any number of choices but zero and any seed, the random number is smaller than the
number of choices. -/
theorem C127_range (choices seed : Nat) (h : 0 < choices) :
    ∃ v s, randomnation choices seed = .ok (v, s) ∧ v < choices ∧ s < 714025 :=
  randomnation_ok choices seed h

example : randomnation 7 1 = .ok (1, 152255) := by decide +kernel

/-- C127: no choices at all divide by zero. -/
theorem C127_zero (seed : Nat) : randomnation 0 seed = .ub := rfl

/-- C127: up to 845 choices, each of them is drawn for some seed.  (Missing: more choices, for which
it is false, see `C127_all_refuted`.) -/
theorem C127_all_partial (choices v : Nat) (h : choices ≤ 845) (hv : v < choices) :
    ∃ seed s, seed < 714025 ∧ randomnation choices seed = .ok (v, s) := by
  set q := 714025 / choices + 1 with hq
  have hle : v * q < 714025 := by
    have h1 : v * q ≤ (choices - 1) * q := Nat.mul_le_mul_right _ (by omega)
    have h2 := Nat.div_mul_le_self 714025 choices
    have h3 : choices ≤ 714025 / choices := by
      rw [Nat.le_div_iff_mul_le (by omega)]
      nlinarith
    have h4 : (choices - 1) * q + 714025 / choices + 1
        = 714025 / choices * choices + choices := by
      obtain ⟨c, rfl⟩ : ∃ c, choices = c + 1 := ⟨choices - 1, by omega⟩
      rw [hq, Nat.add_sub_cancel]
      ring
    omega
  refine ⟨(v * q + 563136) * 488736 % 714025, v * q, Nat.mod_lt _ (by norm_num), ?_⟩
  have hs : ((v * q + 563136) * 488736 % 714025 * 1366 + 150889) % 2 ^ 64 % 714025 = v * q := by
    generalize v * q = s at hle
    set w := (s + 563136) * 488736 % 714025 with hw
    have hwlt : w < 714025 := Nat.mod_lt _ (by norm_num)
    have hd := Nat.div_add_mod ((s + 563136) * 488736) 714025
    rw [← hw] at hd
    have hX : w * 1366 + 150889 + 714025 * (1366 * ((s + 563136) * 488736 / 714025))
        = s + 714025 * (935 * s + 526532161) := by omega
    rw [Nat.mod_eq_of_lt (show w * 1366 + 150889 < 2 ^ 64 by omega),
      ← Nat.add_mul_mod_self_left (w * 1366 + 150889) 714025, hX, Nat.add_mul_mod_self_left,
      Nat.mod_eq_of_lt hle]
  rw [randomnation, if_neg (by omega)]
  have hq0 : 0 < q := Nat.succ_pos _
  simp only [hs, ← hq]
  rw [Nat.mul_div_cancel v hq0]

/-- C127 fails as stated: of 1000 choices the last one is never drawn, whatever the seed. -/
theorem C127_all_refuted (seed v s : Nat) (h : randomnation 1000 seed = .ok (v, s)) : v ≠ 999 := by
  rw [randomnation, if_neg (by norm_num)] at h
  simp only [Outcome.ok.injEq, Prod.mk.injEq] at h
  omega

/-! ## C128: the quicksort -/

/-- C128: for every non-empty array, seed and comparison under which nothing comes before itself,
the quicksort ends after at most as many nested calls as the array has elements, never leaves the
array, and permutes its elements. -/
theorem C128_safe (lt : V → V → Bool) (hirr : ∀ v, lt v v = false) (a : List V) (seed : Nat)
    (h : a ≠ []) : ∃ b s, vertexsort lt a.length a seed = .ok (b, s) ∧ b.Perm a := by
  obtain ⟨b, s, e, hp, _⟩ := vertexsort_spec lt hirr a.length a seed
    (List.length_pos_iff.mpr h) (le_refl _)
  exact ⟨b, s, e, hp⟩

/-- C128: this covers coordinates that are infinite or NaN. -/
theorem C128_nan (pos : V → Ext K × Ext K) (ax : Bool) (a : List V) (seed : Nat) (h : a ≠ []) :
    ∃ b s, vertexsort (fun u v => axisLtExt ax (pos u) (pos v)) a.length a seed = .ok (b, s) ∧
      b.Perm a :=
  C128_safe _ (fun v => axisLtExt_irrefl ax (pos v)) a seed h

/-- C128: with coordinates from a linear order the result is sorted by x, then y. -/
theorem C128_sorted (pos : V → Pt K) (a : List V) (seed : Nat) (h : a ≠ []) :
    ∃ b s, vertexsort (fun u v => axisLt false (pos u) (pos v)) a.length a seed = .ok (b, s) ∧
      b.Perm a ∧ b.Pairwise fun u v => AxisLe false (pos u) (pos v) := by
  have hw := axisLt_weak pos false
  obtain ⟨b, s, e, hp, hs⟩ := vertexsort_spec (fun u v => axisLt false (pos u) (pos v)) hw.irr a.length a seed
    (List.length_pos_iff.mpr h) (le_refl _)
  exact ⟨b, s, e, hp, (hs hw).imp fun h => (axisLt_false_iff false _ _).mp h⟩

/-- C128: an empty array divides by zero. -/
theorem C128_empty (lt : V → V → Bool) (d seed : Nat) : vertexsort lt d [] seed = .ub := by
  cases d <;> rfl

/-- A NaN among the coordinates: no order exists, but the array is permuted. -/
example : ∃ b s, vertexsort (fun u v => axisLtExt false u v) 3
    [((Ext.nan, Ext.fin 0) : Ext ℚ × Ext ℚ), (Ext.fin 1, Ext.nan), (Ext.fin 0, Ext.pinf)] 1
      = .ok (b, s) ∧
    b.Perm [(Ext.nan, Ext.fin 0), (Ext.fin 1, Ext.nan), (Ext.fin 0, Ext.pinf)] :=
  C128_nan (fun v => v) false
    [((Ext.nan, Ext.fin 0) : Ext ℚ × Ext ℚ), (Ext.fin 1, Ext.nan), (Ext.fin 0, Ext.pinf)] 1 (by simp)

/-! ## C129: the order statistic -/

/-- C129: for every non-empty array, seed, axis and `median` between 0 and the size, the order
statistic ends, never leaves the array, permutes it, and puts `median` elements in front that do
not come after the others. -/
theorem C129_median (pos : V → Pt K) (ax : Bool) (a : List V) (m seed : Nat) (h : a ≠ [])
    (hm : m ≤ a.length) :
    ∃ b s, vertexmedian (fun u v => axisLt ax (pos u) (pos v)) a.length a m seed = .ok (b, s) ∧
      b.Perm a ∧ ∀ u ∈ b.take m, ∀ v ∈ b.drop m, AxisLe ax (pos u) (pos v) := by
  have hw := axisLt_weak pos ax
  obtain ⟨b, s, e, hp, hs⟩ := vertexmedian_spec (fun u v => axisLt ax (pos u) (pos v)) hw.irr
    a.length a m seed
    (List.length_pos_iff.mpr h) (le_refl _) (by omega) (by omega)
  refine ⟨b, s, e, hp, fun u hu v hv => (axisLt_false_iff ax _ _).mp ?_⟩
  have := (hs hw).1
  rw [Int.toNat_natCast] at this
  exact this u hu v hv

/-- C129: it also ends and permutes when the coordinates are NaN. -/
theorem C129_nan (pos : V → Ext K × Ext K) (ax : Bool) (a : List V) (m seed : Nat) (h : a ≠ [])
    (hm : m ≤ a.length) :
    ∃ b s, vertexmedian (fun u v => axisLtExt ax (pos u) (pos v)) a.length a m seed = .ok (b, s) ∧
      b.Perm a := by
  obtain ⟨b, s, e, hp, _⟩ := vertexmedian_spec (fun u v => axisLtExt ax (pos u) (pos v))
    (fun v => axisLtExt_irrefl ax (pos v)) a.length a m seed
    (List.length_pos_iff.mpr h) (le_refl _) (by omega) (by omega)
  exact ⟨b, s, e, hp⟩

example : ∃ b s, vertexmedian (fun u v => axisLt true u v) 3
    [(⟨0, 2⟩ : Pt ℚ), ⟨1, 1⟩, ⟨2, 0⟩] 1 1 = .ok (b, s) ∧ b.Perm [⟨0, 2⟩, ⟨1, 1⟩, ⟨2, 0⟩] ∧
      ∀ u ∈ b.take 1, ∀ v ∈ b.drop 1, AxisLe true u v :=
  C129_median (fun v => v) true [(⟨0, 2⟩ : Pt ℚ), ⟨1, 1⟩, ⟨2, 0⟩] 1 1 (by simp) (by simp)

/-! ## C130: alternating cuts -/

/-- C130: for every array of at least two vertices, `alternateaxes` ends, permutes it, and makes it
ready for cuts that alternate between the axes. -/
theorem C130_alternate (pos : V → Pt K) (ax : Bool) (a : List V) (seed : Nat)
    (h : 2 ≤ a.length) :
    ∃ b s, alternateaxes (fun ax u v => axisLt ax (pos u) (pos v)) a.length a ax seed
        = .ok (b, s) ∧
      b.Perm a ∧ CutReady (fun ax u v => AxisLe ax (pos u) (pos v)) ax b := by
  obtain ⟨b, s, e, hp, hs⟩ := alternateaxes_spec (fun ax u v => axisLt ax (pos u) (pos v))
    (fun ax => (axisLt_weak pos ax).irr) a.length a ax seed h (le_refl _)
  exact ⟨b, s, e, hp, cutReady_mono (fun ax x y h => (axisLt_false_iff ax _ _).mp h)
    (hs fun ax => axisLt_weak pos ax)⟩

/-- Four points ready for a cut along y, then along x. -/
example : CutReady (fun ax (u v : Pt ℚ) => AxisLe ax u v) true
    [(⟨0, 0⟩ : Pt ℚ), ⟨3, 0⟩, ⟨1, 1⟩, ⟨2, 1⟩] := by
  refine CutReady.cut true [(⟨0, 0⟩ : Pt ℚ), ⟨3, 0⟩] [(⟨1, 1⟩ : Pt ℚ), ⟨2, 1⟩] (by simp) (by simp) ?_
    (CutReady.small _ _ (by simp) ?_) (CutReady.small _ _ (by simp) ?_)
  · simp [AxisLe]
  · simp [AxisLe]
  · simp [AxisLe]

/-! ## C131: what the recursion gets -/

/-- C131: for every non-empty list of vertices and every seed, the preparation of the divide-and-
conquer algorithm ends.  It hands on and discards every vertex exactly once; the vertices handed on
have different positions and occupy every position of the input; and they are ready for
alternating cuts starting with the x-axis. -/
theorem C131_prepare (pos : V → Pt K) (a : List V) (seed : Nat) (h : a ≠ []) :
    ∃ b dead s, prepare (fun ax u v => axisLt ax (pos u) (pos v))
        (fun u v => samePt (pos u) (pos v)) a seed = .ok (b, dead, s) ∧
      (b ++ dead).Perm a ∧ (b.map pos).Nodup ∧ (∀ v ∈ a, ∃ u ∈ b, pos u = pos v) ∧
      CutReady (fun ax u v => AxisLe ax (pos u) (pos v)) false b := by
  obtain ⟨b, dead, s, e, h0, hp, ⟨c, hcb, hc1, hc2⟩, hd, hcut⟩ := prepare_spec
    (fun ax u v => axisLt ax (pos u) (pos v)) (fun ax => axisLt_weak pos ax)
    (fun u v => samePt (pos u) (pos v)) a seed (List.length_pos_iff.mpr h)
  refine ⟨b, dead, s, e, hp, ?_, ?_,
    cutReady_mono (fun ax x y h => (axisLt_false_iff ax _ _).mp h) hcut⟩
  · exact ((hcb.map pos).nodup_iff).mp (nodup_of_chain pos c hc1 hc2)
  · intro v hv
    rcases List.mem_append.mp (hp.mem_iff.mpr hv) with h1 | h1
    · exact ⟨v, h1, rfl⟩
    · obtain ⟨u, hu, huv⟩ := hd v h1
      exact ⟨u, hu, (samePt_iff _ _).mp huv⟩

/-- C131: if the positions of the input differ, no vertex is discarded. -/
theorem C131_distinct (pos : V → Pt K) (a : List V) (seed : Nat) (h : a ≠ [])
    (hn : (a.map pos).Nodup) :
    ∃ b s, prepare (fun ax u v => axisLt ax (pos u) (pos v))
        (fun u v => samePt (pos u) (pos v)) a seed = .ok (b, [], s) ∧ b.Perm a := by
  obtain ⟨b, dead, s, e, h0, hp, ⟨c, hcb, hc1, hc2⟩, hd, hcut⟩ := prepare_spec
    (fun ax u v => axisLt ax (pos u) (pos v)) (fun ax => axisLt_weak pos ax)
    (fun u v => samePt (pos u) (pos v)) a seed (List.length_pos_iff.mpr h)
  have hdead : dead = [] := by
    rcases dead with _ | ⟨y, l⟩
    · rfl
    · obtain ⟨x, hx, hxy⟩ := hd y (by simp)
      have h2 := ((hp.map pos).nodup_iff).mpr hn
      rw [List.map_append, List.nodup_append] at h2
      exact absurd ((samePt_iff _ _).mp hxy)
        (h2.2.2 (pos x) (List.mem_map_of_mem hx) (pos y) (List.mem_map_of_mem (by simp)))
  subst hdead
  rw [List.append_nil] at hp
  exact ⟨b, s, e, hp⟩

/-- Input with a repeated point. -/
example : ∃ b dead s, prepare (fun ax (u v : Nat × Pt ℚ) => axisLt ax u.2 v.2)
    (fun u v => samePt u.2 v.2) [(0, ⟨1, 1⟩), (1, ⟨0, 0⟩), (2, ⟨1, 1⟩), (3, ⟨1, 0⟩)] 1
      = .ok (b, dead, s) ∧ b.length = 3 := by
  obtain ⟨b, dead, s, e, hp, hn, hall, _⟩ := C131_prepare (fun u : Nat × Pt ℚ => u.2)
    [(0, ⟨1, 1⟩), (1, ⟨0, 0⟩), (2, ⟨1, 1⟩), (3, ⟨1, 0⟩)] 1 (by simp)
  refine ⟨b, dead, s, e, ?_⟩
  have h1 : (b.map fun u : Nat × Pt ℚ => u.2).Perm [⟨1, 1⟩, ⟨0, 0⟩, ⟨1, 0⟩] := by
    rw [List.perm_ext_iff_of_nodup hn (by decide +kernel)]
    intro p
    constructor
    · intro hmem
      obtain ⟨u, hu, rfl⟩ := List.mem_map.mp hmem
      have := hp.mem_iff.mp (List.mem_append_left dead hu)
      simp only [List.mem_cons, List.not_mem_nil, or_false] at this
      rcases this with rfl | rfl | rfl | rfl <;> simp
    · intro hmem
      simp only [List.mem_cons, List.not_mem_nil, or_false] at hmem
      rcases hmem with rfl | rfl | rfl
      · obtain ⟨u, hu, e⟩ := hall (0, ⟨1, 1⟩) (by simp); exact List.mem_map.mpr ⟨u, hu, e⟩
      · obtain ⟨u, hu, e⟩ := hall (1, ⟨0, 0⟩) (by simp); exact List.mem_map.mpr ⟨u, hu, e⟩
      · obtain ⟨u, hu, e⟩ := hall (3, ⟨1, 0⟩) (by simp); exact List.mem_map.mpr ⟨u, hu, e⟩
  simpa using h1.length_eq

/-! ## C132: the recursion ends if two points differ -/

/-- C132: if two vertices differ in position, the recursion ends, and cuts the vertices handed to it
into groups of two or three, each in the order of x, then y. -/
theorem C132_ends (pos : V → Pt K) (a : List V) (seed : Nat)
    (h : ∃ u ∈ a, ∃ v ∈ a, pos u ≠ pos v) :
    ∃ b dead s groups, prepare (fun ax u v => axisLt ax (pos u) (pos v))
        (fun u v => samePt (pos u) (pos v)) a seed = .ok (b, dead, s) ∧
      recurseLeaves b.length b = .ok groups ∧ groups.flatten = b ∧
      ∀ g ∈ groups, (g.length = 2 ∨ g.length = 3) ∧
        g.Pairwise fun u v => AxisLe false (pos u) (pos v) := by
  obtain ⟨u, hu, v, hv, huv⟩ := h
  obtain ⟨b, dead, s, e, hp, hn, hall, hcut⟩ := C131_prepare pos a seed
    (fun h => by rw [h] at hu; cases hu)
  have h2 : 2 ≤ b.length := by
    obtain ⟨u', hu', e1⟩ := hall u hu
    obtain ⟨v', hv', e2⟩ := hall v hv
    match b, hu', hv' with
    | [x], h1, h2 =>
      rw [List.mem_singleton] at h1 h2
      subst h1
      subst h2
      exact absurd (e1.symm.trans e2) huv
    | _ :: _ :: _, _, _ => simp
  obtain ⟨g, eg, hg, hl⟩ := recurseLeaves_spec b.length b false _ h2 (le_refl _) hcut
  exact ⟨b, dead, s, g, e, eg, hg, hl⟩

/-- C132 fails as stated (for all inputs of three or more vertices): if all vertices have the same
position, one is handed on, and the recursion never ends. -/
theorem C132_ends_refuted (pos : V → Pt K) (a : List V) (seed : Nat) (h : a ≠ [])
    (hsame : ∀ u ∈ a, ∀ v ∈ a, pos u = pos v) :
    ∃ b dead s, prepare (fun ax u v => axisLt ax (pos u) (pos v))
        (fun u v => samePt (pos u) (pos v)) a seed = .ok (b, dead, s) ∧
      b.length = 1 ∧ ∀ depth, recurseLeaves depth b = .ub := by
  obtain ⟨b, dead, s, e, hp, hn, hall, _⟩ := C131_prepare pos a seed h
  have h1 : b.length = 1 := by
    obtain ⟨u, hu⟩ := List.exists_mem_of_ne_nil a h
    obtain ⟨u', hu', _⟩ := hall u hu
    match b, hu', hn, hp with
    | [x], _, _, _ => rfl
    | x :: y :: l, _, hn, hp =>
      have hx := hp.mem_iff.mp (show x ∈ (x :: y :: l) ++ dead by simp)
      have hy := hp.mem_iff.mp (show y ∈ (x :: y :: l) ++ dead by simp)
      rw [List.map_cons, List.nodup_cons] at hn
      exact absurd (by rw [hsame x hx y hy]; simp) hn.1
  exact ⟨b, dead, s, e, h1, fun d => recurseLeaves_diverges d b (by omega)⟩

example : ∃ b dead s, prepare (fun ax (u v : Nat × Pt ℚ) => axisLt ax u.2 v.2)
    (fun u v => samePt u.2 v.2) [(0, ⟨1, 1⟩), (1, ⟨1, 1⟩), (2, ⟨1, 1⟩)] 1 = .ok (b, dead, s) ∧
      b.length = 1 ∧ ∀ depth, recurseLeaves depth b = .ub :=
  C132_ends_refuted (fun u : Nat × Pt ℚ => u.2) _ 1 (by simp) (by simp)

end Delynoi
