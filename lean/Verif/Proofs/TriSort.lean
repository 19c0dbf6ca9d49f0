import Verif.Model.TriSort
/-!
# Lemmas about the splitting loop of Triangle's quicksort
-/
namespace Delynoi.Tri

set_option linter.unusedSectionVars false

variable {V : Type}

theorem vecGet_of_lt (a : List V) (i : Int) (h0 : 0 ≤ i) (h1 : i < a.length) :
    ∃ x, vecGet a i = .ok x ∧ a[i.toNat]? = some x := by
  have hi : i.toNat < a.length := by omega
  refine ⟨a[i.toNat], ?_, List.getElem?_eq_getElem hi⟩
  rw [vecGet, if_pos h0, List.getElem?_eq_getElem hi]

theorem vecGet_iff (a : List V) (i : Int) (x : V) :
    vecGet a i = .ok x ↔ 0 ≤ i ∧ a[i.toNat]? = some x := by
  unfold vecGet
  by_cases h : 0 ≤ i
  · rw [if_pos h]
    cases hx : a[i.toNat]? with
    | none => simp
    | some y => simp [h]
  · rw [if_neg h]
    simp [h]

theorem vecGet_lt (a : List V) (i : Int) (x : V) (h : vecGet a i = .ok x) :
    0 ≤ i ∧ i < a.length := by
  rw [vecGet_iff] at h
  have := (List.getElem?_eq_some_iff.mp h.2).1
  omega

theorem scanUp_spec (lt : V → Bool) (a : List V) (right left k : Int) (y : V) (hl : -1 ≤ left)
    (hk : left < k) (hkr : k ≤ right) (hy : vecGet a k = .ok y) (hlt : lt y = false) :
    ∃ l x, scanUp lt a right left = .ok l ∧ left < l ∧ l ≤ k ∧ vecGet a l = .ok x ∧
      lt x = false ∧ ∀ i z, left < i → i < l → vecGet a i = .ok z → lt z = true := by
  fun_induction scanUp lt a right left with
  | case1 left h x hx hlx ih =>
    have hne : left + 1 ≠ k := by
      rintro rfl
      rw [hx] at hy
      cases hy
      rw [hlt] at hlx
      cases hlx
    obtain ⟨l, w, e, h1, h2, h3, h4, h5⟩ := ih (by omega) (by omega)
    refine ⟨l, w, e, by omega, h2, h3, h4, fun i z hi hil hz => ?_⟩
    by_cases hi' : left + 1 = i
    · subst hi'
      rw [hx] at hz
      cases hz
      exact hlx
    · exact h5 i z (by omega) hil hz
  | case2 left h x hx hlx =>
    exact ⟨left + 1, x, rfl, by omega, by omega, hx, by simpa using hlx, fun i z _ _ _ => by omega⟩
  | case3 left h hx =>
    obtain ⟨x, hx', _⟩ := vecGet_of_lt a (left + 1) (by omega)
      (by have := vecGet_lt a k y hy; omega)
    rw [hx] at hx'
    cases hx'
  | case4 left h hx =>
    obtain ⟨x, hx', _⟩ := vecGet_of_lt a (left + 1) (by omega)
      (by have := vecGet_lt a k y hy; omega)
    rw [hx] at hx'
    cases hx'
  | case5 left h => omega

theorem scanDown_spec (gt : V → Bool) (a : List V) (left right : Int) (hl : 0 ≤ left)
    (hlr : left ≤ right) (hr : right ≤ a.length) :
    ∃ r, scanDown gt a left right = .ok r ∧ left - 1 ≤ r ∧ r < right ∧
      (∀ i z, r < i → i < right → vecGet a i = .ok z → gt z = true) ∧
      (left ≤ r → ∀ z, vecGet a r = .ok z → gt z = false) := by
  fun_induction scanDown gt a left right with
  | case1 right h x hx hgx ih =>
    obtain ⟨r, e, h1, h2, h3, h4⟩ := ih (by omega) (by omega)
    refine ⟨r, e, h1, by omega, fun i z hi hir hz => ?_, h4⟩
    by_cases hi' : right - 1 = i
    · subst hi'
      rw [hx] at hz
      cases hz
      exact hgx
    · exact h3 i z hi (by omega) hz
  | case2 right h x hx hgx =>
    refine ⟨right - 1, rfl, by omega, by omega, fun i z _ _ _ => by omega, fun _ z hz => ?_⟩
    rw [hx] at hz
    cases hz
    simpa using hgx
  | case3 right h hx =>
    obtain ⟨x, hx', _⟩ := vecGet_of_lt a (right - 1) (by omega) (by omega)
    rw [hx] at hx'
    cases hx'
  | case4 right h hx =>
    obtain ⟨x, hx', _⟩ := vecGet_of_lt a (right - 1) (by omega) (by omega)
    rw [hx] at hx'
    cases hx'
  | case5 right h =>
    exact ⟨right - 1, rfl, by omega, by omega, fun i z _ _ _ => by omega, fun _ => by omega⟩

theorem swap_spec (a : List V) (i j : Int) (x y : V) (hij : i < j) (hx : vecGet a i = .ok x)
    (hy : vecGet a j = .ok y) :
    ∃ b, swap a i j = .ok b ∧ b.Perm a ∧ vecGet b i = .ok y ∧ vecGet b j = .ok x ∧
      ∀ k, k ≠ i → k ≠ j → vecGet b k = vecGet a k := by
  have hi := vecGet_lt a i x hx
  have hj := vecGet_lt a j y hy
  refine ⟨(a.set i.toNat y).set j.toNat x, ?_, ?_, ?_, ?_, ?_⟩
  · simp [swap, hx, hy]
  · have h1 : i.toNat < a.length := by omega
    have h2 : j.toNat < a.length := by omega
    have e1 := ((vecGet_iff a i x).mp hx).2
    have e2 := ((vecGet_iff a j y).mp hy).2
    rw [List.getElem?_eq_getElem h1] at e1
    rw [List.getElem?_eq_getElem h2] at e2
    cases e1
    cases e2
    exact List.set_set_perm h1 h2
  · rw [vecGet_iff]
    refine ⟨hi.1, ?_⟩
    rw [List.getElem?_set, if_neg (by omega), List.getElem?_set, if_pos rfl, if_pos (by omega)]
  · rw [vecGet_iff]
    refine ⟨hj.1, ?_⟩
    rw [List.getElem?_set, if_pos rfl, if_pos (by simp; omega)]
  · intro k hki hkj
    unfold vecGet
    by_cases hk : 0 ≤ k
    · rw [if_pos hk, if_pos hk, List.getElem?_set, if_neg (by omega), List.getElem?_set,
        if_neg (by omega)]
    · rw [if_neg hk, if_neg hk]

/-- What the splitting loop achieves. -/
structure Cut (lt gt : V → Bool) (b : List V) (l r : Int) : Prop where
  r0 : 0 ≤ r
  ln : l < b.length
  near : l = r ∨ l = r + 1
  low : ∀ i z, i < l → vecGet b i = .ok z → lt z = true ∨ gt z = false
  high : ∀ i z, r < i → vecGet b i = .ok z → gt z = true ∨ lt z = false
  mid : l = r → ∀ z, vecGet b l = .ok z → lt z = false ∧ gt z = false

theorem splitLoop_spec (lt gt : V → Bool) : ∀ (n : Nat) (a : List V) (left right : Int),
    (right - left).toNat ≤ n → -1 ≤ left → left < right → right ≤ a.length →
    (∀ i z, i ≤ left → vecGet a i = .ok z → lt z = true ∨ gt z = false) →
    (∀ i z, right ≤ i → vecGet a i = .ok z → gt z = true ∨ lt z = false) →
    (0 ≤ left ∨ ∃ k p, left < k ∧ k < right ∧ vecGet a k = .ok p ∧ lt p = false ∧
      gt p = false) →
    (∃ k x, left < k ∧ k ≤ right ∧ vecGet a k = .ok x ∧ lt x = false) →
    ∃ b l r, splitLoop lt gt a left right = .ok (b, l, r) ∧ b.Perm a ∧ Cut lt gt b l r := by
  intro n
  induction n with
  | zero => intro a left right h1 h2 h3; omega
  | succ n ih =>
    intro a left right hn hl hlr hr hlow hhigh hpiv hstop
    obtain ⟨k, y, hk1, hk2, hy, hly⟩ := hstop
    obtain ⟨l, x, e1, l1, l2, hx, hlx, l3⟩ := scanUp_spec lt a right left k y hl hk1 hk2 hy hly
    obtain ⟨r, e2, r1, r2, r3, r4⟩ := scanDown_spec gt a l right (by omega) (by omega) hr
    have hkl := vecGet_lt a k y hy
    have hr0 : 0 ≤ r := by
      rcases hpiv with h | ⟨k', p, h1, h2, hp, hlp, hgp⟩
      · omega
      · by_contra hlt
        have := r3 k' p (by have := vecGet_lt a k' p hp; omega) h2 hp
        rw [hgp] at this
        cases this
    rw [splitLoop, if_pos hlr, e1]
    simp only
    rw [e2]
    simp only
    by_cases hlt : l < r
    · rw [if_pos hlt]
      obtain ⟨w, hw, _⟩ := vecGet_of_lt a r hr0 (by omega)
      obtain ⟨b, e3, hperm, hbl, hbr, hbk⟩ := swap_spec a l r x w hlt hx hw
      rw [e3]
      simp only
      have hlen := hperm.length_eq
      obtain ⟨c, l', r', e4, hp', hc⟩ := ih b l r (by omega) (by omega) hlt (by omega)
        (fun i z hi hz => by
          by_cases hil : i = l
          · subst hil
            rw [hbl] at hz
            cases hz
            exact .inr (r4 (by omega) _ hw)
          · rw [hbk i hil (by omega)] at hz
            by_cases hi2 : i ≤ left
            · exact hlow i z hi2 hz
            · exact .inl (l3 i z (by omega) (by omega) hz))
        (fun i z hi hz => by
          by_cases hir : i = r
          · subst hir
            rw [hbr] at hz
            cases hz
            exact .inr hlx
          · rw [hbk i (by omega) hir] at hz
            by_cases hi2 : right ≤ i
            · exact hhigh i z hi2 hz
            · exact .inl (r3 i z (by omega) (by omega) hz))
        (.inl (by omega)) ⟨r, x, hlt, le_refl _, hbr, hlx⟩
      exact ⟨c, l', r', e4, hp'.trans hperm, hc⟩
    · rw [if_neg hlt]
      refine ⟨a, l, r, rfl, List.Perm.refl _, ⟨hr0, by omega, by omega, ?_, ?_, ?_⟩⟩
      · intro i z hi hz
        by_cases hi2 : i ≤ left
        · exact hlow i z hi2 hz
        · exact .inl (l3 i z (by omega) hi hz)
      · intro i z hi hz
        by_cases hi2 : right ≤ i
        · exact hhigh i z hi2 hz
        · exact .inl (r3 i z hi (by omega) hz)
      · intro h z hz
        rw [hx] at hz
        cases hz
        subst h
        exact ⟨hlx, r4 (le_refl _) _ hx⟩

theorem randomnation_ok (choices seed : Nat) (h : 0 < choices) :
    ∃ v s, randomnation choices seed = .ok (v, s) ∧ v < choices ∧ s < 714025 := by
  refine ⟨_, _, by rw [randomnation, if_neg (by omega)], ?_, Nat.mod_lt _ (by norm_num)⟩
  have hs : (seed * 1366 + 150889) % 2 ^ 64 % 714025 < 714025 := Nat.mod_lt _ (by norm_num)
  rw [Nat.div_lt_iff_lt_mul (Nat.succ_pos _)]
  refine lt_of_lt_of_le hs ?_
  have h1 := Nat.div_add_mod 714025 choices
  have h2 := Nat.mod_lt 714025 h
  have e : choices * (714025 / choices).succ = choices * (714025 / choices) + choices :=
    Nat.mul_succ _ _
  rw [e]
  omega

/-- What `split` achieves, with the pivot. -/
theorem split_spec (lt : V → V → Bool) (hirr : ∀ v, lt v v = false) (a : List V) (seed : Nat)
    (h : 0 < a.length) :
    ∃ b l r s p, split lt a seed = .ok (b, l, r, s) ∧ b.Perm a ∧
      Cut (fun x => lt x p) (fun x => lt p x) b l r := by
  obtain ⟨v, s, e, hv, _⟩ := randomnation_ok a.length seed h
  obtain ⟨p, hp, _⟩ := vecGet_of_lt a v (by omega) (by omega)
  obtain ⟨b, l, r, e2, hperm, hc⟩ := splitLoop_spec (fun x => lt x p) (fun x => lt p x) _ a (-1)
    a.length (le_refl _) (le_refl _) (by omega) (le_refl _)
    (fun i z hi hz => by have := vecGet_lt a i z hz; omega)
    (fun i z hi hz => by have := vecGet_lt a i z hz; omega)
    (.inr ⟨v, p, by omega, by omega, hp, hirr p, hirr p⟩)
    ⟨v, p, by omega, by omega, hp, hirr p⟩
  exact ⟨b, l, r, s, p, by simp [split, e, hp, e2], hperm, hc⟩

end Delynoi.Tri
