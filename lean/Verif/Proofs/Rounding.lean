import Verif.Proofs.Double
import Verif.Proofs.UniqueList
import Mathlib.Tactic.GCongr
/-!
# Error calculus for rounded computations, and congruence of the unique list in its comparator
-/
namespace Delynoi

/-! ### The unique list only depends on the comparator's values on the elements in use -/

section Congr
variable {T : Type} {lt1 lt2 : T → T → Bool} {S : Set T}

/-- Two comparators agree on a set. -/
def Agree (lt1 lt2 : T → T → Bool) (S : Set T) : Prop := ∀ a ∈ S, ∀ b ∈ S, lt1 a b = lt2 a b

theorem insert_congr {V : Type} (h : Agree lt1 lt2 S) (m : List (T × V)) (k : T) (v : V)
    (hm : ∀ e ∈ m, e.1 ∈ S) (hk : k ∈ S) : SMap.insert lt1 m k v = SMap.insert lt2 m k v := by
  induction m with
  | nil => rfl
  | cons e m ih =>
    unfold SMap.insert
    have he := hm e (by simp)
    rw [ih (fun e he => hm e (by simp [he])), h _ he _ hk, h _ hk _ he]

theorem find_congr {V : Type} (h : Agree lt1 lt2 S) (m : List (T × V)) (k : T)
    (hm : ∀ e ∈ m, e.1 ∈ S) (hk : k ∈ S) : SMap.find lt1 m k = SMap.find lt2 m k := by
  induction m with
  | nil => rfl
  | cons e m ih =>
    unfold SMap.find
    have he := hm e (by simp)
    rw [ih (fun e he => hm e (by simp [he])), h _ he _ hk, h _ hk _ he]

theorem upperBound_congr {V : Type} (h : Agree lt1 lt2 S) (m : List (T × V)) (k : T)
    (hm : ∀ e ∈ m, e.1 ∈ S) (hk : k ∈ S) : SMap.upperBound lt1 m k = SMap.upperBound lt2 m k := by
  unfold SMap.upperBound
  induction m with
  | nil => rfl
  | cons e m ih =>
    rw [List.findIdx_cons, List.findIdx_cons, ih (fun e he => hm e (by simp [he])),
      h _ hk _ (hm e (by simp))]

/-- All elements the state knows are in `S`. -/
def Within (S : Set T) (u : UList T) : Prop := (∀ x ∈ u.list, x ∈ S) ∧ ∀ e ∈ u.map, e.1 ∈ S

theorem pushBack_congr (h : Agree lt1 lt2 S) (u : UList T) (x : T) (hu : Within S u) (hx : x ∈ S) :
    UList.pushBack lt1 u x = UList.pushBack lt2 u x ∧ Within S (UList.pushBack lt2 u x).1 := by
  have hf : Within S (⟨u.list ++ [x], SMap.insert lt2 u.map x u.list.length⟩ : UList T) := by
    refine ⟨?_, ?_⟩
    · intro y hy
      rcases List.mem_append.1 hy with hy | hy
      · exact hu.1 y hy
      · rw [List.mem_singleton.1 hy]; exact hx
    · intro e he
      rcases SMap.mem_insert u.map x _ e he with rfl | he
      · exact hx
      · exact hu.2 e he
  unfold UList.pushBack
  simp only
  rw [upperBound_congr h u.map x hu.2 hx, insert_congr h u.map x _ hu.2 hx]
  cases hg : (u.map.take (SMap.upperBound lt2 u.map x)).getLast? with
  | none => exact ⟨rfl, hf⟩
  | some e =>
    have he : e.1 ∈ S := hu.2 e (List.mem_of_mem_take (List.mem_of_getLast? hg))
    simp only
    rw [h _ he _ hx]
    refine ⟨rfl, ?_⟩
    split
    · exact hf
    · exact hu

theorem pushList_congr (h : Agree lt1 lt2 S) (xs : List T) (u : UList T) (hu : Within S u)
    (hx : ∀ x ∈ xs, x ∈ S) :
    UList.pushList lt1 u xs = UList.pushList lt2 u xs ∧ Within S (UList.pushList lt2 u xs).1 := by
  induction xs generalizing u with
  | nil => exact ⟨rfl, hu⟩
  | cons x xs ih =>
    obtain ⟨e1, h1⟩ := pushBack_congr h u x hu (hx x (by simp))
    obtain ⟨e2, h2⟩ := ih (UList.pushBack lt2 u x).1 h1 (fun y hy => hx y (by simp [hy]))
    unfold UList.pushList
    simp only
    rw [e1, e2]
    exact ⟨rfl, h2⟩

theorem reindex_congr (h : Agree lt1 lt2 S) (l : List T) (i : Nat) (m : List (T × Nat))
    (hm : ∀ e ∈ m, e.1 ∈ S) (hl : ∀ x ∈ l, x ∈ S) :
    UList.reindex lt1 l i m = UList.reindex lt2 l i m ∧ ∀ e ∈ UList.reindex lt2 l i m, e.1 ∈ S := by
  induction l generalizing i m with
  | nil => exact ⟨rfl, hm⟩
  | cons x l ih =>
    unfold UList.reindex
    rw [insert_congr h m x i hm (hl x (by simp))]
    refine ih _ _ ?_ (fun y hy => hl y (by simp [hy]))
    intro e he
    rcases SMap.mem_insert m x i e he with rfl | he
    · exact hl x (by simp)
    · exact hm e he

theorem delete_congr (h : Agree lt1 lt2 S) (u : UList T) (x : T) (hu : Within S u) (hx : x ∈ S) :
    UList.deleteElement lt1 u x = UList.deleteElement lt2 u x ∧ Within S (UList.deleteElement lt2 u x) := by
  have hl : ∀ i, ∀ y ∈ u.list.eraseIdx i, y ∈ S := fun i y hy => hu.1 y (List.mem_of_mem_eraseIdx hy)
  unfold UList.deleteElement UList.contains
  rw [find_congr h u.map x hu.2 hx]
  cases hf : SMap.find lt2 u.map x with
  | none => exact ⟨rfl, hu⟩
  | some i =>
    obtain ⟨e1, h1⟩ := reindex_congr h (u.list.eraseIdx i) 0 [] (by simp) (hl i)
    simp only [Option.isSome_some, if_true]
    rw [e1]
    exact ⟨rfl, hl i, h1⟩

/-- The elements an operation mentions. -/
def opElems : UList.Op T → List T
  | .push x => [x]
  | .pushAll xs => xs
  | .delete x => [x]
  | .clear => []

theorem step_congr (h : Agree lt1 lt2 S) (u : UList T) (op : UList.Op T) (hu : Within S u)
    (hx : ∀ x ∈ opElems op, x ∈ S) :
    UList.step lt1 u op = UList.step lt2 u op ∧ Within S (UList.step lt2 u op) := by
  cases op with
  | push x =>
    obtain ⟨e, h1⟩ := pushBack_congr h u x hu (hx x (by simp [opElems]))
    exact ⟨congrArg Prod.fst e, h1⟩
  | pushAll xs =>
    obtain ⟨e, h1⟩ := pushList_congr h xs u hu (fun x hh => hx x hh)
    exact ⟨congrArg Prod.fst e, h1⟩
  | delete x => exact delete_congr h u x hu (hx x (by simp [opElems]))
  | clear => exact ⟨rfl, by simp [UList.step, UList.clear, Within]⟩

theorem run_congr (h : Agree lt1 lt2 S) (ops : List (UList.Op T))
    (hx : ∀ op ∈ ops, ∀ x ∈ opElems op, x ∈ S) : UList.run lt1 ops = UList.run lt2 ops := by
  have key : ∀ (ops : List (UList.Op T)) (u : UList T), Within S u →
      (∀ op ∈ ops, ∀ x ∈ opElems op, x ∈ S) →
      ops.foldl (UList.step lt1) u = ops.foldl (UList.step lt2) u := by
    intro ops
    induction ops with
    | nil => intro u _ _; rfl
    | cons op ops ih =>
      intro u hu hx
      obtain ⟨e, h1⟩ := step_congr h u op hu (hx op (by simp))
      rw [List.foldl_cons, List.foldl_cons, e]
      exact ih _ h1 (fun o ho => hx o (by simp [ho]))
  exact key ops _ (by simp [Within, UList.empty]) hx

end Congr

/-! ### Error calculus -/

theorem gRnd_ge : 1 ≤ gRnd := by unfold gRnd; linarith [uRnd_pos]

theorem gRnd_pow_ge (k : Nat) : 1 ≤ gRnd ^ k := one_le_pow₀ gRnd_ge

theorem gRnd_pow_mono {j k : Nat} (h : j ≤ k) : gRnd ^ j ≤ gRnd ^ k := pow_le_pow_right₀ gRnd_ge h

/-- `x'` is an approximation of `x` after `k` roundings: the error is at most
`((1+u)^k - 1) s + c`, where `s` bounds `|x|`. -/
structure Apx (k : Nat) (c x' x s : ℚ) : Prop where
  size : |x| ≤ s
  err : |x' - x| ≤ (gRnd ^ k - 1) * s + c

namespace Apx
variable {k j : Nat} {c d x' x s y' y t : ℚ}

theorem nonneg (h : Apx k c x' x s) : 0 ≤ s := (abs_nonneg x).trans h.size

theorem exact (x : ℚ) : Apx 0 0 x x |x| := ⟨le_rfl, by simp⟩

theorem mono (h : Apx k c x' x s) (hk : k ≤ j) (hc : c ≤ d) : Apx j d x' x s := by
  refine ⟨h.size, h.err.trans ?_⟩
  have := mul_le_mul_of_nonneg_right (sub_le_sub_right (gRnd_pow_mono hk) 1) h.nonneg
  linarith

theorem size' (h : Apx k c x' x s) : |x'| ≤ gRnd ^ k * s + c := by
  have h1 : |x'| ≤ |x' - x| + |x| := by
    have := abs_add_le (x' - x) x; rwa [sub_add_cancel] at this
  have := h.err; have := h.size
  nlinarith

/-- A rounding with relative error only. -/
theorem flRel (h : Apx k c x' x s) (he : |fl x' - x'| ≤ uRnd * |x'|) : Apx (k + 1) (gRnd * c) (fl x') x s := by
  refine ⟨h.size, ?_⟩
  have h1 : |fl x' - x| ≤ |fl x' - x'| + |x' - x| := by
    have := abs_add_le (fl x' - x') (x' - x)
    rwa [show fl x' - x' + (x' - x) = fl x' - x by ring] at this
  have h2 := mul_le_mul_of_nonneg_left h.size' uRnd_pos.le
  have h3 := h.err
  have e : (gRnd ^ (k + 1) - 1) * s + gRnd * c =
      uRnd * (gRnd ^ k * s + c) + ((gRnd ^ k - 1) * s + c) := by
    rw [pow_succ]; unfold gRnd; ring
  rw [e]
  linarith

/-- Any rounding. -/
theorem fl (h : Apx k c x' x s) : Apx (k + 1) (gRnd * c + etaRnd) (fl x') x s := by
  refine ⟨h.size, ?_⟩
  have h0 := fl_error_add x'
  have h1 : |Delynoi.fl x' - x| ≤ |Delynoi.fl x' - x'| + |x' - x| := by
    have := abs_add_le (Delynoi.fl x' - x') (x' - x)
    rwa [show Delynoi.fl x' - x' + (x' - x) = Delynoi.fl x' - x by ring] at this
  have h2 := mul_le_mul_of_nonneg_left h.size' uRnd_pos.le
  have h3 := h.err
  have e : (gRnd ^ (k + 1) - 1) * s + (gRnd * c + etaRnd) =
      uRnd * (gRnd ^ k * s + c) + ((gRnd ^ k - 1) * s + c) + etaRnd := by
    rw [pow_succ]; unfold gRnd; ring
  rw [e]
  linarith

theorem add (h : Apx k c x' x s) (g : Apx k d y' y t) : Apx k (c + d) (x' + y') (x + y) (s + t) := by
  refine ⟨(abs_add_le x y).trans (add_le_add h.size g.size), ?_⟩
  have := abs_add_le (x' - x) (y' - y)
  rw [show x' + y' - (x + y) = x' - x + (y' - y) by ring]
  have := h.err; have := g.err
  linarith

theorem neg (h : Apx k c x' x s) : Apx k c (-x') (-x) s := by
  refine ⟨by rw [abs_neg]; exact h.size, ?_⟩
  rw [show -x' - -x = -(x' - x) by ring, abs_neg]; exact h.err

theorem sub (h : Apx k c x' x s) (g : Apx k d y' y t) : Apx k (c + d) (x' - y') (x - y) (s + t) := by
  rw [sub_eq_add_neg, sub_eq_add_neg]; exact h.add g.neg

theorem mul (h : Apx k 0 x' x s) (g : Apx j 0 y' y t) : Apx (k + j) 0 (x' * y') (x * y) (s * t) := by
  have hs := h.nonneg
  have ht := g.nonneg
  refine ⟨by rw [abs_mul]; exact mul_le_mul h.size g.size (abs_nonneg _) hs, ?_⟩
  rw [show x' * y' - x * y = (x' - x) * y' + x * (y' - y) by ring]
  refine (abs_add_le _ _).trans ?_
  rw [abs_mul, abs_mul]
  have h1 := h.err; have h2 := g.err; have h3 := g.size'; have h4 := h.size
  rw [add_zero] at h1 h2 h3
  have a : |x' - x| * |y'| ≤ ((gRnd ^ k - 1) * s) * (gRnd ^ j * t) :=
    mul_le_mul h1 h3 (abs_nonneg _) ((abs_nonneg _).trans h1)
  have b : |x| * |y' - y| ≤ s * ((gRnd ^ j - 1) * t) := mul_le_mul h4 h2 (abs_nonneg _) hs
  have e : (gRnd ^ (k + j) - 1) * (s * t) + 0 =
      ((gRnd ^ k - 1) * s) * (gRnd ^ j * t) + s * ((gRnd ^ j - 1) * t) := by rw [pow_add]; ring
  rw [e]; exact add_le_add a b

/-- Multiplying by a known number. -/
theorem smul (h : Apx k c x' x s) (a : ℚ) (ha : 0 ≤ a) : Apx k (a * c) (a * x') (a * x) (a * s) := by
  refine ⟨by rw [abs_mul, abs_of_nonneg ha]; exact mul_le_mul_of_nonneg_left h.size ha, ?_⟩
  rw [← mul_sub, abs_mul, abs_of_nonneg ha]
  have := mul_le_mul_of_nonneg_left h.err ha
  linarith

/-- Sign: when the exact value exceeds the error bound, the approximation has its sign. -/
theorem pos_iff (h : Apx k c x' x s) (hb : (gRnd ^ k - 1) * s + c < |x|) : 0 < x' ↔ 0 < x := by
  have h1 := h.err.trans_lt hb
  rw [abs_lt] at h1
  rcases le_total 0 x with hx | hx
  · rw [abs_of_nonneg hx] at h1 hb
    constructor
    · intro _
      rcases hx.lt_or_eq with h2 | h2
      · exact h2
      · rw [← h2] at h1; linarith
    · intro _; linarith
  · rw [abs_of_nonpos hx] at h1
    constructor
    · intro _; linarith
    · intro _; linarith

theorem neg_iff (h : Apx k c x' x s) (hb : (gRnd ^ k - 1) * s + c < |x|) : x' < 0 ↔ x < 0 := by
  have := h.neg.pos_iff (by rwa [abs_neg])
  rwa [neg_pos, neg_pos] at this

end Apx

/-- The difference of two binary64 numbers. -/
theorem apx_sub {a b : ℚ} (ha : IsDouble a) (hb : IsDouble b) : Apx 1 0 (fl (a - b)) (a - b) |a - b| := by
  have := (Apx.exact (a - b)).flRel (fl_sub_error ha hb)
  simpa using this

theorem apx_add {a b : ℚ} (ha : IsDouble a) (hb : IsDouble b) : Apx 1 0 (fl (a + b)) (a + b) |a + b| := by
  have := (Apx.exact (a + b)).flRel (fl_add_error ha hb)
  simpa using this

/-- The product of two approximations. -/
theorem apx_mul {k j : Nat} {x' x s y' y t : ℚ} (h : Apx k 0 x' x s) (g : Apx j 0 y' y t) :
    Apx (k + j + 1) etaRnd (fl (x' * y')) (x * y) (s * t) := by
  have := (h.mul g).fl
  simpa using this

/-- A summation loop over rounded terms. -/
theorem apx_sum (k : Nat) (c : ℚ) (hc : 0 ≤ c) : ∀ (ts : List (ℚ × ℚ × ℚ)) (j : Nat) (acc' acc s : ℚ),
    IsDouble acc' → Apx (k + j) (j * c * gRnd ^ j) acc' acc s →
    (∀ e ∈ ts, IsDouble e.1 ∧ Apx k c e.1 e.2.1 e.2.2) →
    Apx (k + j + ts.length) ((j + ts.length : Nat) * c * gRnd ^ (j + ts.length))
      (Rnd.sumLoop Delynoi.fl acc' (ts.map (fun e => e.1))) (acc + (ts.map (fun e => e.2.1)).sum)
      (s + (ts.map (fun e => e.2.2)).sum) := by
  intro ts
  induction ts with
  | nil =>
    intro j acc' acc s _ h _
    simpa [Rnd.sumLoop] using h
  | cons e ts ih =>
    intro j acc' acc s hd h hts
    obtain ⟨he1, he2⟩ := hts e (by simp)
    have h1 : Apx (k + j) (j * c * gRnd ^ j + c) (acc' + e.1) (acc + e.2.1) (s + e.2.2) :=
      h.add (he2.mono (by omega) le_rfl)
    have h2 := h1.flRel (fl_add_error hd he1)
    have h3 : Apx (k + (j + 1)) ((j + 1 : Nat) * c * gRnd ^ (j + 1)) (Delynoi.fl (acc' + e.1))
        (acc + e.2.1) (s + e.2.2) := by
      refine h2.mono (by omega) ?_
      have hg := gRnd_pow_ge j
      have : c ≤ c * gRnd ^ j := by nlinarith
      have h4 : gRnd * c ≤ gRnd * (c * gRnd ^ j) := mul_le_mul_of_nonneg_left this (by linarith [gRnd_ge])
      rw [pow_succ]
      push_cast
      nlinarith
    have h5 := ih (j + 1) _ _ _ (fl_isDouble _) h3 (fun e he => hts e (by simp [he]))
    simp only [List.map_cons, List.sum_cons, List.length_cons]
    rw [show k + j + (ts.length + 1) = k + (j + 1) + ts.length by omega,
      show j + (ts.length + 1) = j + 1 + ts.length by omega, ← add_assoc acc, ← add_assoc s]
    exact h5

end Delynoi
