import Verif.Proofs.ExactExp3
/-!
# Properties C125 and C126: the last stage of Triangle's orientation test
-/
set_option linter.unusedSectionVars false
namespace Delynoi
open Ex

/-! ## C125: the orientation test decides -/

/-- C125: on a machine where reading one element behind an array does no harm, the orientation test
returns for all binary64 points whose coordinates are multiples of `2⁻⁴⁴⁰`, and its result has the
sign of the exact orientation. -/
theorem C125_decides (fuel : Nat) (k : Consts) (hk : exactinit fuel = some k) (pa pb pc : Pt ℚ) (da : DPt pa)
    (db : DPt pb) (dc : DPt pc) (ca : Coarse (-440) pa) (cb : Coarse (-440) pb) (cc : Coarse (-440) pc) :
    ∃ d, ccw laxSum k false pa pb pc = .ok d ∧ SameSign d (turn pa pb pc) := by
  rw [exactinit_konst hk]
  exact ccw_lax pa pb pc da db dc ca cb cc

/-- C125: so it agrees with itself for any order of the points. -/
theorem C125_antisymmetric (fuel : Nat) (k : Consts) (hk : exactinit fuel = some k) (pa pb pc : Pt ℚ) (da : DPt pa)
    (db : DPt pb) (dc : DPt pc) (ca : Coarse (-440) pa) (cb : Coarse (-440) pb) (cc : Coarse (-440) pc) :
    ∃ d d' d'', ccw laxSum k false pa pb pc = .ok d ∧ ccw laxSum k false pb pa pc = .ok d' ∧
      ccw laxSum k false pb pc pa = .ok d'' ∧ SameSign d (-d') ∧ SameSign d d'' := by
  obtain ⟨d, h1, h2⟩ := C125_decides fuel k hk pa pb pc da db dc ca cb cc
  obtain ⟨d', h3, h4⟩ := C125_decides fuel k hk pb pa pc db da dc cb ca cc
  obtain ⟨d'', h5, h6⟩ := C125_decides fuel k hk pb pc pa db dc da cb cc ca
  refine ⟨d, d', d'', h1, h3, h5, h2.trans ?_, h2.trans ?_⟩
  · have e : turn pa pb pc = -turn pb pa pc := by unfold turn; ring
    rw [e]
    exact ⟨by simpa using h4.2.symm, by simpa using h4.1.symm⟩
  · have e : turn pa pb pc = turn pb pc pa := by unfold turn; ring
    rw [e]
    exact h6.symm

/-- The points of `C122_returns_refuted`, and a left turn which only the last stage recognises. -/
example : ccw laxSum konst false ⟨1, 1⟩ ⟨2, 2⟩ ⟨1 / 2 ^ 60, 1 / 2 ^ 60⟩ = .ok 0 ∧
    ccw laxSum konst false ⟨1, 1⟩ ⟨2, 2⟩ ⟨1 / 2 ^ 60, 1 / 2 ^ 60 + 1 / 2 ^ 112⟩ = .ok (1 / 2 ^ 112) ∧
    turn (⟨1, 1⟩ : Pt ℚ) ⟨2, 2⟩ ⟨1 / 2 ^ 60, 1 / 2 ^ 60 + 1 / 2 ^ 112⟩ = 1 / 2 ^ 112 := by decide +kernel

/-! ## C126: the form of expansions -/

/-- C126: the array computed for `a * b - c * d` consists of binary64 numbers with the exact value as
their sum, and twice each component lies below the bits of all later ones (Shewchuk's
"nonadjacent"). -/
theorem C126_products (fuel : Nat) (k : Consts) (hk : exactinit fuel = some k) (a b c d : ℚ)
    (d1 : IsDouble a) (d2 : IsDouble b) (d3 : IsDouble c) (d4 : IsDouble d)
    (m1 : MultOf (-440) a) (m2 : MultOf (-440) b) (m3 : MultOf (-440) c) (m4 : MultOf (-440) d) :
    (∀ x ∈ crossExpansion k.splitter a b c d, IsDouble x) ∧ (crossExpansion k.splitter a b c d).sum = a * b - c * d ∧
    (crossExpansion k.splitter a b c d).Pairwise (fun x y => y = 0 ∨ Below (2 * x) y) := by
  rw [exactinit_konst hk]
  obtain ⟨h1, h2, h3⟩ := crossExpansion_exp d1 d2 d3 d4 m1 m2 m3 m4
  refine ⟨h1, h3, ?_⟩
  refine List.Pairwise.imp_of_mem ?_ h2
  intro x y _ hy h
  by_cases hy0 : y = 0
  · exact Or.inl hy0
  · obtain ⟨l, -, hl⟩ := exists_lsb (h1 y hy).mult1074 hy0
    refine Or.inr ⟨l, hl.mult, ?_⟩
    have := h l hl
    rw [abs_mul, abs_of_pos (by norm_num : (0 : ℚ) < 2)]
    linarith

/-- C126: such lists are expansions in the sense of `Expansion`. -/
theorem C126_nonadjacent (h : List ℚ) (hd : ∀ x ∈ h, IsDouble x) (hn : h.Pairwise (fun x y => y = 0 ∨ Below (2 * x) y)) :
    Expansion 0 0 h := by
  refine exp_of_nonadjacent h 0 0 hd (hn.imp ?_) ?_
  · intro x y h l hl
    rcases h with h | ⟨s, hs, h⟩
    · exact absurd h hl.ne
    · have := two_zpow_mono (hl.le hs)
      rw [abs_mul, abs_of_pos (by norm_num : (0 : ℚ) < 2)] at h
      linarith
  · intro y _ l _
    have := two_zpow_pos l
    rw [abs_zero]
    constructor <;> linarith

/-- C126: `fast_expansion_sum_zeroelim` of two expansions is an expansion with the sum as its value
and without components which are zero (unless it is just zero); so its last component has the sign
of the value. -/
theorem C126_sum (e f : List ℚ) (he : Expansion 0 0 e) (hf : Expansion 0 0 f) (e0 : e ≠ []) (f0 : f ≠ []) :
    ∃ h, fastExpansionSum e f = some h ∧ Expansion 0 0 h ∧ h.sum = e.sum + f.sum ∧ ((∀ x ∈ h, x ≠ 0) ∨ h = [0]) ∧
      ∃ d, h.getLast? = some d ∧ SameSign d (e.sum + f.sum) := by
  obtain ⟨h, h1, h2, h3, h4, h5⟩ := fastExpansionSum_exp he hf e0 f0
  obtain ⟨d, hd, hs⟩ := exp_sign h2 h4 h5
  rw [h3] at hs
  exact ⟨h, h1, h2, h3, h5, d, hd, hs⟩

/-- What the form says: of two components which are not zero, the earlier one lies below the bits of
the later one. -/
theorem C126_nonoverlapping (h : List ℚ) (he : Expansion 0 0 h) : h.Pairwise (fun x y => x = 0 ∨ y = 0 ∨ Below x y) := by
  suffices ∀ (h : List ℚ) (S p : ℚ), Expansion S p h → h.Pairwise (fun x y => x = 0 ∨ y = 0 ∨ Below x y) from
    this h 0 0 he
  intro h
  induction h with
  | nil => intro S p _; exact List.Pairwise.nil
  | cons x xs ih =>
    intro S p h
    obtain ⟨dx, h⟩ := h
    rw [List.pairwise_cons]
    rcases h with h | ⟨l, -, -, -, h⟩
    · exact ⟨fun y _ => Or.inl h.1, ih _ _ h.2⟩
    · refine ⟨fun y hy => ?_, ih _ _ h⟩
      right
      by_cases hy0 : y = 0
      · exact Or.inl hy0
      · obtain ⟨dy, h'⟩ := exp_mem _ _ _ h y hy
        obtain ⟨k, -, hk⟩ := exists_lsb dy.mult1074 hy0
        exact Or.inr ⟨k, hk.mult, (h' k hk).2⟩

/-- The comment of the code (triangle.c:4946-4951) promises more: with ties to even, sums of strongly
nonoverlapping expansions are strongly nonoverlapping.  The sum of `½ + 2⁵²` and `-(2⁵² + 3)` is
computed as `½ - 3`, whose components are adjacent although 3 is not a power of two. -/
theorem C126_strong_refuted : ∃ e f h : List ℚ, (∀ x ∈ e, IsDouble x) ∧ (∀ x ∈ f, IsDouble x) ∧
    StronglyNonOverlap e ∧ StronglyNonOverlap f ∧ fastExpansionSum e f = some h ∧ ¬StronglyNonOverlap h := by
  refine ⟨[1 / 2, 2 ^ 52], [-(2 ^ 52 + 3)], [1 / 2, -3], ?_, ?_, ?_, ?_, by decide +kernel, ?_⟩
  · intro x hx
    simp only [List.mem_cons, List.not_mem_nil, or_false] at hx
    rcases hx with rfl | rfl
    · exact ⟨1, -1, by norm_num, by norm_num, by norm_num⟩
    · exact ⟨1, 52, by norm_num, by norm_num, by norm_num⟩
  · intro x hx
    rw [List.mem_singleton.1 hx]
    exact ⟨-(2 ^ 52 + 3), 0, by norm_num, by norm_num, by norm_num⟩
  · have b1 : Below (1 / 2) (2 ^ 52) := ⟨2, ⟨2 ^ 50, by norm_num⟩, by rw [abs_of_pos (by norm_num)]; norm_num⟩
    have b2 : Below (1 / 2) (2 * 2 ^ 52) := ⟨2, ⟨2 ^ 51, by norm_num⟩, by rw [abs_of_pos (by norm_num)]; norm_num⟩
    have b3 : Below (2 * (1 / 2)) (2 ^ 52) := ⟨2, ⟨2 ^ 50, by norm_num⟩, by rw [abs_of_pos (by norm_num)]; norm_num⟩
    have a1 : ¬Adjacent (1 / 2) (2 ^ 52) := fun h => h ⟨Or.inl b1, Or.inl b2, Or.inl b3⟩
    have a2 : ¬Adjacent (2 ^ 52) (1 / 2) := fun h => h ⟨Or.inr b1, Or.inr b3, Or.inr b2⟩
    intro i j hi hj hij
    simp only [List.length_cons, List.length_nil] at hi hj
    have : (i = 0 ∧ j = 1) ∨ (i = 1 ∧ j = 0) := by omega
    rcases this with ⟨rfl, rfl⟩ | ⟨rfl, rfl⟩
    · exact ⟨Or.inl b1, fun h => absurd h a1⟩
    · exact ⟨Or.inr b1, fun h => absurd h a2⟩
  · intro i j hi hj hij
    simp only [List.length_cons, List.length_nil] at hi hj
    omega
  · intro h
    have h1 := (h 0 1 (by simp) (by simp) (by simp)).2
    change Adjacent (1 / 2) (-3) → _ at h1
    have hadj : Adjacent (1 / 2) (-3) := by
      rintro ⟨-, -, h | h⟩
      · obtain ⟨s, ⟨m, hm⟩, hs⟩ := h
        have e1 : |2 * (1 / 2 : ℚ)| = (2 : ℚ) ^ (0 : Int) := by rw [abs_of_pos (by norm_num)]; norm_num
        rw [e1] at hs
        have hs0 := two_zpow_lt.1 hs
        have l : Lsb 0 (-3 : ℚ) := ⟨-3, by norm_num, by norm_num⟩
        have := l.le ⟨m, hm⟩
        omega
      · obtain ⟨s, ⟨m, hm⟩, hs⟩ := h
        have l : Lsb 0 (2 * (1 / 2) : ℚ) := ⟨1, by norm_num, by norm_num⟩
        have h2 := two_zpow_mono (l.le ⟨m, hm⟩)
        rw [abs_of_neg (by norm_num)] at hs
        rw [zpow_zero] at h2
        norm_num at hs
        linarith
    obtain ⟨⟨s, t, -, ht⟩, -⟩ := h1 hadj
    change |(-3 : ℚ)| = (2 : ℚ) ^ t at ht
    rw [abs_of_neg (by norm_num)] at ht
    norm_num at ht
    have h3 : (2 : ℚ) ^ (1 : Int) < (2 : ℚ) ^ t := by rw [← ht]; norm_num
    have h4 : (2 : ℚ) ^ t < (2 : ℚ) ^ (2 : Int) := by rw [← ht]; norm_num
    have := two_zpow_lt.1 h3
    have := two_zpow_lt.1 h4
    omega

/-- Two expansions and their sum. -/
example : Expansion 0 0 [1 / 2, 2 ^ 52] ∧ Expansion 0 0 [-(2 ^ 52 + 3)] ∧
    fastExpansionSum [1 / 2, 2 ^ 52] [-(2 ^ 52 + 3)] = some [1 / 2, -3] := by
  refine ⟨⟨⟨1, -1, by norm_num, by norm_num, by norm_num⟩, Or.inr ⟨-1, ⟨1, by norm_num, by norm_num⟩, ?_, ?_,
    ⟨1, 52, by norm_num, by norm_num, by norm_num⟩, Or.inr ⟨52, ⟨1, by norm_num, by norm_num⟩, ?_, ?_, trivial⟩⟩⟩,
    ⟨⟨-(2 ^ 52 + 3), 0, by norm_num, by norm_num, by norm_num⟩,
      Or.inr ⟨0, ⟨-(2 ^ 52 + 3), by norm_num, by norm_num⟩, ?_, ?_, trivial⟩⟩, by decide +kernel⟩ <;> norm_num [abs_of_pos]

end Delynoi
