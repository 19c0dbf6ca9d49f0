import Verif.Proofs.TriSort2
import Mathlib.Data.List.Chain
/-!
# Lemmas about alternating cuts, duplicates and the shape of the recursion
-/
namespace Delynoi.Tri

set_option linter.unusedSectionVars false

variable {V : Type}

/-- "does not come after", from the comparison -/
def leOf (lt : Bool → V → V → Bool) (axis : Bool) (x y : V) : Prop := lt axis y x = false

theorem cutReady_small {le : Bool → V → V → Prop} {axis : Bool} {l : List V}
    (h : CutReady le axis l) (hl : l.length ≤ 3) : l.Pairwise (le false) := by
  cases h with
  | small _ _ _ h2 => exact h2
  | cut _ l r h1 => rw [List.length_append] at hl; omega

theorem alternateaxes_spec (lt : Bool → V → V → Bool) (hirr : ∀ ax v, lt ax v v = false) :
    ∀ (d : Nat) (a : List V) (axis : Bool) (seed : Nat), 2 ≤ a.length → a.length ≤ d →
      ∃ b s, alternateaxes lt d a axis seed = .ok (b, s) ∧ b.Perm a ∧
        ((∀ ax, Weak (lt ax)) → CutReady (leOf lt) axis b) := by
  intro d
  induction d with
  | zero => intro a axis seed h1 h2; omega
  | succ d ih =>
    intro a axis seed h1 h2
    set n := a.length with hn
    set ax := (if n ≤ 3 then false else axis) with hax
    obtain ⟨b, s, e, hperm, hb⟩ := vertexmedian_spec (lt ax) (hirr ax) n a (n / 2 : Nat) seed
      (by omega) (le_refl _) (by omega) (by omega)
    have hlen := hperm.length_eq
    by_cases h3 : n - n / 2 ≥ 2
    · obtain ⟨A, s1, eA, hA, hcA⟩ : ∃ A s1,
          (if n / 2 ≥ 2 then (do
            let t ← alternateaxes lt d (b.take (n / 2)) (!ax) s
            return (t.1 ++ b.drop (n / 2), t.2)) else return (b, s) : Outcome (List V × Nat))
            = .ok (A ++ b.drop (n / 2), s1) ∧ A.Perm (b.take (n / 2)) ∧
            (2 ≤ n / 2 → (∀ ax, Weak (lt ax)) → CutReady (leOf lt) (!ax) A) := by
        by_cases hd : n / 2 ≥ 2
        · obtain ⟨A, s1, eA, hA, hcA⟩ := ih (b.take (n / 2)) (!ax) s
            (by rw [List.length_take]; omega) (by rw [List.length_take]; omega)
          exact ⟨A, s1, by rw [if_pos hd, eA]; rfl, hA, fun _ => hcA⟩
        · exact ⟨b.take (n / 2), s, by rw [if_neg hd, List.take_append_drop]; rfl,
            List.Perm.refl _, fun h => absurd h hd⟩
      have hAlen : A.length = n / 2 := by rw [hA.length_eq, List.length_take]; omega
      obtain ⟨et, ed⟩ := take_append_eq A b (n / 2) (n / 2) hAlen (le_refl _)
      rw [Nat.sub_self, List.take_zero, List.append_nil] at et
      obtain ⟨C, s2, eC, hC, hcC⟩ := ih (b.drop (n / 2)) (!ax) s1
        (by rw [List.length_drop]; omega) (by rw [List.length_drop]; omega)
      have hClen : C.length = n - n / 2 := by rw [hC.length_eq, List.length_drop]; omega
      refine ⟨A ++ C, s2, ?_, ?_, ?_⟩
      · rw [alternateaxes]
        simp only [← hn, ← hax]
        rw [e]
        simp only [Outcome.bind_ok]
        rw [if_pos h3, eA]
        simp only [Outcome.bind_ok]
        rw [ed, eC, et]
        rfl
      · exact ((hA.append hC).trans (by rw [List.take_append_drop])).trans hperm
      · intro hw
        obtain ⟨hh, _⟩ := hb (hw ax)
        rw [Int.toNat_natCast] at hh
        have hcross : ∀ x ∈ A, ∀ y ∈ C, leOf lt ax x y := fun x hx y hy =>
          hh x (hA.mem_iff.mp hx) y (hC.mem_iff.mp hy)
        by_cases hs : n ≤ 3
        · have hax0 : ax = false := by rw [hax, if_pos hs]
          rw [hax0] at hcross
          refine CutReady.small _ _ (by rw [List.length_append]; omega) ?_
          rw [List.pairwise_append]
          refine ⟨?_, cutReady_small (hcC hw) (by omega), hcross⟩
          match A, hAlen with
          | [], _ => exact List.Pairwise.nil
          | [x], _ => exact List.pairwise_singleton _ _
          | _ :: _ :: _, h => simp only [List.length_cons] at h; omega
        · have hax1 : ax = axis := by rw [hax, if_neg hs]
          rw [hax1] at hcross hcA hcC
          exact CutReady.cut axis A C (by omega) (by omega) hcross (hcA (by omega) hw) (hcC hw)
    · refine ⟨b, s, ?_, hperm, ?_⟩
      · rw [alternateaxes]
        simp only [← hn, ← hax]
        rw [e]
        simp only [Outcome.bind_ok]
        rw [if_neg h3]
        rfl
      · intro hw
        have h2 : n = 2 := by omega
        have hax0 : ax = false := by rw [hax, if_pos (by omega)]
        have := (hb (hw ax)).2 h2
        rw [hax0] at this
        exact CutReady.small _ _ (by omega) this

/-- The loop that discards duplicates, from a state in which the first `i + 1` cells hold what
is kept of the first `j` vertices of `a0`. -/
theorem dedup_spec (same : V → V → Bool) (a0 : List V) (a : List V) (i j : Nat) (dead : List V)
    (hij : i < j) (hj : j ≤ a.length) (hlen : a.length = a0.length)
    (hrest : a.drop j = a0.drop j) (hsub : (a.take (i + 1)).Sublist (a0.take j))
    (hperm : (a.take (i + 1) ++ dead).Perm (a0.take j))
    (hchain : (a.take (i + 1)).IsChain fun x y => same x y = false)
    (hdead : ∀ y ∈ dead, ∃ x ∈ a.take (i + 1), same x y = true) :
    ∃ b k dd, dedup same a i j dead = .ok (b, k, dd) ∧ k < b.length ∧
      (b.take (k + 1)).Sublist a0 ∧ (b.take (k + 1) ++ dd).Perm a0 ∧
      ((b.take (k + 1)).IsChain fun x y => same x y = false) ∧
      (∀ y ∈ dd, ∃ x ∈ b.take (k + 1), same x y = true) := by
  fun_induction dedup same a i j dead with
  | case1 a i j dead h x y ey ex hs ih =>
    have ex' : a[i]? = some x := by
      have := ((vecGet_iff _ _ _).mp ex).2; simpa using this
    have ey' : a[j]? = some y := by
      have := ((vecGet_iff _ _ _).mp ey).2; simpa using this
    have ey0 : a0[j]? = some y := by
      have h1 : (a.drop j)[0]? = (a0.drop j)[0]? := by rw [hrest]
      rw [List.getElem?_drop, List.getElem?_drop, Nat.add_zero] at h1
      rw [← h1]; exact ey'
    have et : a0.take (j + 1) = a0.take j ++ [y] := by
      rw [List.take_add_one, ey0]; rfl
    refine ih (by omega) (by omega) hlen ?_ ?_ ?_ hchain ?_
    · rw [← List.drop_drop, hrest, List.drop_drop]
    · exact hsub.trans (by rw [et]; exact List.sublist_append_left _ _)
    · rw [et, ← List.append_assoc]
      exact hperm.append_right _
    · intro z hz
      rcases List.mem_append.mp hz with hz | hz
      · exact hdead z hz
      · rw [List.mem_singleton] at hz
        subst hz
        refine ⟨x, ?_, hs⟩
        have h3 : (a.take (i + 1))[i]? = some x := by
          rw [List.getElem?_take, if_pos (by omega), ex']
        exact List.mem_of_getElem? h3
  | case2 a i j dead h x y ey ex hs hi ih =>
    have ex' : a[i]? = some x := by
      have := ((vecGet_iff _ _ _).mp ex).2; simpa using this
    have ey' : a[j]? = some y := by
      have := ((vecGet_iff _ _ _).mp ey).2; simpa using this
    have ey0 : a0[j]? = some y := by
      have h1 : (a.drop j)[0]? = (a0.drop j)[0]? := by rw [hrest]
      rw [List.getElem?_drop, List.getElem?_drop, Nat.add_zero] at h1
      rw [← h1]; exact ey'
    have et : a0.take (j + 1) = a0.take j ++ [y] := by
      rw [List.take_add_one, ey0]; rfl
    have ek : (a.set (i + 1) y).take (i + 1 + 1) = a.take (i + 1) ++ [y] := by
      rw [List.take_add_one, List.getElem?_set, if_pos rfl, if_pos hi, List.take_set]
      rw [List.set_eq_of_length_le (by rw [List.length_take]; omega)]
      rfl
    refine ih (by omega) (by rw [List.length_set]; omega) (by rw [List.length_set]; exact hlen)
      ?_ ?_ ?_ ?_ ?_
    · rw [List.drop_set_of_lt (by omega), ← List.drop_drop, hrest, List.drop_drop]
    · rw [ek, et]
      exact hsub.append (List.Sublist.refl _)
    · rw [ek, et, List.append_assoc]
      refine List.Perm.trans ?_ (hperm.append_right [y])
      rw [List.append_assoc]
      exact (List.perm_append_comm).append_left _
    · rw [ek, List.isChain_append]
      refine ⟨hchain, List.isChain_singleton _, ?_⟩
      intro u hu v hv
      have h3 : (a.take (i + 1)).getLast? = some x := by
        rw [List.getLast?_eq_getElem?, List.length_take, List.getElem?_take]
        have : min (i + 1) a.length - 1 = i := by omega
        rw [this, if_pos (by omega), ex']
      rw [h3] at hu
      cases hu
      cases hv
      simpa using hs
    · intro z hz
      obtain ⟨w, hw, h4⟩ := hdead z hz
      exact ⟨w, by rw [ek]; exact List.mem_append_left _ hw, h4⟩
  | case3 a i j dead h x y ey ex hs hi => omega
  | case4 a i j dead h hne =>
    obtain ⟨x, hx, _⟩ := vecGet_of_lt a i (by omega) (by omega)
    obtain ⟨y, hy, _⟩ := vecGet_of_lt a j (by omega) (by omega)
    exact absurd hy (hne x y hx)
  | case5 a i j dead h =>
    have hj' : j = a0.length := by omega
    subst hj'
    rw [List.take_length] at hsub hperm
    exact ⟨a, i, dead, rfl, by omega, hsub, hperm, hchain, hdead⟩

theorem recurseLeaves_spec : ∀ (d : Nat) (a : List V) (axis : Bool)
    (le : Bool → V → V → Prop), 2 ≤ a.length → a.length ≤ d → CutReady le axis a →
    ∃ ls, recurseLeaves d a = .ok ls ∧ ls.flatten = a ∧
      ∀ l ∈ ls, (l.length = 2 ∨ l.length = 3) ∧ l.Pairwise (le false) := by
  intro d
  induction d with
  | zero => intro a axis le h1 h2; omega
  | succ d ih =>
    intro a axis le h1 h2 hc
    rw [recurseLeaves]
    by_cases h3 : a.length ≤ 3
    · have hp := cutReady_small hc h3
      rcases (show a.length = 2 ∨ a.length = 3 by omega) with h | h
      · rw [if_pos h]
        exact ⟨[a], rfl, by simp, fun l hl => by
          rw [List.mem_singleton] at hl; subst hl; exact ⟨.inl h, hp⟩⟩
      · rw [if_neg (by omega), if_pos h]
        exact ⟨[a], rfl, by simp, fun l hl => by
          rw [List.mem_singleton] at hl; subst hl; exact ⟨.inr h, hp⟩⟩
    · rw [if_neg (by omega), if_neg (by omega)]
      cases hc with
      | small _ _ h => exact absurd h h3
      | cut _ l r h4 h5 h6 h7 h8 =>
        rw [List.length_append] at h1 h2 h3 ⊢
        rw [← h5, List.take_left, List.drop_left]
        obtain ⟨L, eL, fL, gL⟩ := ih l (!axis) le (by omega) (by omega) h7
        obtain ⟨R, eR, fR, gR⟩ := ih r (!axis) le (by omega) (by omega) h8
        refine ⟨L ++ R, by rw [eL, eR]; rfl, by rw [List.flatten_append, fL, fR], ?_⟩
        intro x hx
        rcases List.mem_append.mp hx with h | h
        · exact gL x h
        · exact gR x h

theorem recurseLeaves_diverges (d : Nat) (a : List V) (h : a.length < 2) :
    recurseLeaves d a = .ub := by
  induction d generalizing a with
  | zero => rfl
  | succ d ih =>
    rw [recurseLeaves, if_neg (by omega), if_neg (by omega), ih]
    · rfl
    · rw [List.length_take]; omega

theorem prepare_spec (lt : Bool → V → V → Bool) (hw : ∀ ax, Weak (lt ax)) (same : V → V → Bool)
    (a : List V) (seed : Nat) (h : 0 < a.length) :
    ∃ b dd s, prepare lt same a seed = .ok (b, dd, s) ∧ 0 < b.length ∧ (b ++ dd).Perm a ∧
      (∃ c : List V, c.Perm b ∧ (c.Pairwise (leOf lt false)) ∧
        c.IsChain fun x y => same x y = false) ∧
      (∀ y ∈ dd, ∃ x ∈ b, same x y = true) ∧ CutReady (leOf lt) false b := by
  obtain ⟨s0, sd, e1, hp1, hs1⟩ := vertexsort_spec (lt false) (hw false).irr a.length a seed h
    (le_refl _)
  have hsorted := hs1 (hw false)
  have hl1 := hp1.length_eq
  obtain ⟨b0, k, dd, e2, hk, hsub, hp2, hch, hdd⟩ := dedup_spec same s0 s0 0 1 [] (by omega)
    (by omega) rfl rfl (List.Sublist.refl _) (by rw [List.append_nil])
    (by
      match s0, hl1 with
      | x :: t, _ => exact List.isChain_singleton _
      | [], hl => simp only [List.length_nil] at hl; omega)
    (by simp)
  set b := b0.take (k + 1) with hb
  have hbl : b.length = k + 1 := by rw [hb, List.length_take]; omega
  have hpw : b.Pairwise (leOf lt false) := hsorted.sublist hsub
  set n := k + 1 with hn
  by_cases h3 : n - n / 2 ≥ 2
  · obtain ⟨A, s1, eA, hA, hcA⟩ : ∃ A s1,
        (if n / 2 ≥ 2 then (do
          let t ← alternateaxes lt (n / 2) (b.take (n / 2)) true sd
          return (t.1 ++ b.drop (n / 2), t.2)) else return (b, sd) : Outcome (List V × Nat))
          = .ok (A ++ b.drop (n / 2), s1) ∧ A.Perm (b.take (n / 2)) ∧
          (2 ≤ n / 2 → CutReady (leOf lt) true A) := by
      by_cases hd : n / 2 ≥ 2
      · obtain ⟨A, s1, eA, hA, hcA⟩ := alternateaxes_spec lt (fun ax => (hw ax).irr) (n / 2)
          (b.take (n / 2)) true sd (by rw [List.length_take]; omega)
          (by rw [List.length_take]; omega)
        exact ⟨A, s1, by rw [if_pos hd, eA]; rfl, hA, fun _ => hcA hw⟩
      · exact ⟨b.take (n / 2), sd, by rw [if_neg hd, List.take_append_drop]; rfl,
          List.Perm.refl _, fun h => absurd h hd⟩
    have hAlen : A.length = n / 2 := by rw [hA.length_eq, List.length_take]; omega
    obtain ⟨et, ed⟩ := take_append_eq A b (n / 2) (n / 2) hAlen (le_refl _)
    rw [Nat.sub_self, List.take_zero, List.append_nil] at et
    obtain ⟨C, s2, eC, hC, hcC⟩ := alternateaxes_spec lt (fun ax => (hw ax).irr) (n - n / 2)
      (b.drop (n / 2)) true s1 (by rw [List.length_drop]; omega)
      (by rw [List.length_drop]; omega)
    have hClen : C.length = n - n / 2 := by rw [hC.length_eq, List.length_drop]; omega
    have hAC : (A ++ C).Perm b := (hA.append hC).trans (by rw [List.take_append_drop])
    refine ⟨A ++ C, dd, s2, ?_, by rw [List.length_append]; omega, ?_, ⟨b, hAC.symm, hpw, hch⟩,
      ?_, ?_⟩
    · rw [prepare, e1]
      simp only [Outcome.bind_ok]
      rw [e2]
      simp only [Outcome.bind_ok, ← hn, ← hb]
      rw [if_pos h3, eA]
      simp only [Outcome.bind_ok]
      rw [ed, eC, et]
      rfl
    · exact ((hAC.append_right dd).trans hp2).trans hp1
    · intro y hy
      obtain ⟨x, hx, h5⟩ := hdd y hy
      exact ⟨x, hAC.mem_iff.mpr hx, h5⟩
    · have hcross : ∀ x ∈ A, ∀ y ∈ C, leOf lt false x y := by
        intro x hx y hy
        have := hpw
        rw [← List.take_append_drop (n / 2) b, List.pairwise_append] at this
        exact this.2.2 x (hA.mem_iff.mp hx) y (hC.mem_iff.mp hy)
      by_cases hs : n ≤ 3
      · refine CutReady.small _ _ (by rw [List.length_append]; omega) ?_
        rw [List.pairwise_append]
        refine ⟨?_, cutReady_small (hcC hw) (by omega), hcross⟩
        match A, hAlen with
        | [], _ => exact List.Pairwise.nil
        | [x], _ => exact List.pairwise_singleton _ _
        | _ :: _ :: _, h => simp only [List.length_cons] at h; omega
      · exact CutReady.cut false A C (by omega) (by omega) hcross (hcA (by omega)) (hcC hw)
  · refine ⟨b, dd, sd, ?_, by omega, hp2.trans hp1, ⟨b, List.Perm.refl _, hpw, hch⟩, hdd, ?_⟩
    · rw [prepare, e1]
      simp only [Outcome.bind_ok]
      rw [e2]
      simp only [Outcome.bind_ok, ← hn, ← hb]
      rw [if_neg h3]
      rfl
    · exact CutReady.small _ _ (by omega) hpw

end Delynoi.Tri
