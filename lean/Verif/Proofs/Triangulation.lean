import Verif.Model.Triangle
import Verif.Proofs.Area
import Verif.Proofs.Resolve
import Verif.Spec.Geometry
import Mathlib.Data.List.Forall2
import Mathlib.Data.List.Rotate
import Mathlib.Data.List.Nodup
/-! Lemmas for the ear and center triangulations. -/
namespace Delynoi
set_option linter.unusedSectionVars false

theorem resolve_iff_forall₂ {α : Type} {p : List α} {is : List Int} {l : List α} :
    resolve p is = .ok l ↔ List.Forall₂ (fun i a => vecGet p i = .ok a) is l := by
  induction is generalizing l with
  | nil => simp [resolve, eq_comm]
  | cons i is ih =>
    rw [resolve_cons_ok]
    constructor
    · rintro ⟨a, as, h1, h2, rfl⟩
      exact List.Forall₂.cons h1 (ih.1 h2)
    · intro h
      cases h with
      | cons h1 h2 => exact ⟨_, _, h1, ih.2 h2, rfl⟩

theorem forall₂_eraseIdx {α β : Type} {R : α → β → Prop} {l : List α} {m : List β}
    (h : List.Forall₂ R l m) (i : Nat) : List.Forall₂ R (l.eraseIdx i) (m.eraseIdx i) := by
  induction h generalizing i with
  | nil => simp
  | cons h1 h2 ih =>
    cases i with
    | zero => simpa using h2
    | succ i => simpa using List.Forall₂.cons h1 (ih i)

theorem resolve_eraseIdx {α : Type} {p : List α} {is : List Int} {l : List α}
    (h : resolve p is = .ok l) (i : Nat) : resolve p (is.eraseIdx i) = .ok (l.eraseIdx i) :=
  resolve_iff_forall₂.2 (forall₂_eraseIdx (resolve_iff_forall₂.1 h) i)

section
variable {K : Type} [Field K] [LinearOrder K] [IsStrictOrderedRing K]

/-- Sum of a function of the directed edges. -/
def edgeSum (g : Pt K → Pt K → K) (l : List (Pt K)) : K := ((cycPairs l).map (fun e => g e.1 e.2)).sum

theorem edgeSum_rotate (g : Pt K → Pt K → K) (l : List (Pt K)) (k : Nat) :
    edgeSum g (l.rotate k) = edgeSum g l := by
  unfold edgeSum
  rw [cycPairs_rotate]
  exact perm_sum _ (List.rotate_perm _ _)

theorem edgeSum_cons (g : Pt K → Pt K → K) (hg : ∀ a b, g a b = -g b a) (a b z : Pt K) (l : List (Pt K))
    (hz : (b :: l).getLast (by simp) = z) :
    edgeSum g (a :: b :: l) = edgeSum g (b :: l) + (g z a + g a b + g b z) := by
  unfold edgeSum
  rw [zip_closing, zip_closing]
  simp only [List.map_append, List.sum_append, List.map_cons, List.map_nil, List.sum_cons,
    List.sum_nil, List.zip_cons_cons]
  have h1 : (a :: b :: l).getLast (by simp) = z := by rw [← hz]; simp
  rw [h1, hz, hg b z]
  ring

theorem edgeSum_eraseIdx (g : Pt K → Pt K → K) (hg : ∀ a b, g a b = -g b a) (l : List (Pt K)) (h2 : 2 ≤ l.length) (i : Nat) (hi : i < l.length) :
    edgeSum g l = (g (l[(l.length + i - 1) % l.length]'(Nat.mod_lt _ (by omega))) l[i] +
      g l[i] (l[(l.length + i + 1) % l.length]'(Nat.mod_lt _ (by omega))) +
      g (l[(l.length + i + 1) % l.length]'(Nat.mod_lt _ (by omega)))
        (l[(l.length + i - 1) % l.length]'(Nat.mod_lt _ (by omega)))) + edgeSum g (l.eraseIdx i) := by
  have hrot : l.rotate i = l[i] :: (l.drop (i + 1) ++ l.take i) := by
    rw [List.rotate_eq_drop_append_take hi.le, List.drop_eq_getElem_cons hi, List.cons_append]
  have herot : (l.eraseIdx i).rotate i = l.drop (i + 1) ++ l.take i := by
    rw [List.eraseIdx_eq_take_drop_succ]
    have : (l.take i).length = i := by simp; omega
    have h := List.rotate_append_length_eq (l.take i) (l.drop (i + 1))
    rwa [this] at h
  rw [← edgeSum_rotate g l i, ← edgeSum_rotate g (l.eraseIdx i) i, hrot, herot]
  have hne : l.drop (i + 1) ++ l.take i ≠ [] := by
    intro h
    have := congrArg List.length h
    simp only [List.length_append, List.length_drop, List.length_take, List.length_nil] at this
    omega
  have hlast : (l.drop (i + 1) ++ l.take i).getLast hne =
      l[(l.length + i - 1) % l.length]'(Nat.mod_lt _ (by omega)) := by
    have hg : (l.drop (i + 1) ++ l.take i).getLast? =
        some (l[(l.length + i - 1) % l.length]'(Nat.mod_lt _ (by omega))) := by
      rw [List.getLast?_append]
      rcases Nat.eq_zero_or_pos i with rfl | h0
      · simp only [List.take_zero, List.getLast?_nil, Option.none_or]
        rw [List.getLast?_drop, if_neg (by omega), List.getLast?_eq_getElem?,
          List.getElem?_eq_getElem (by omega)]
        have : (l.length + 0 - 1) % l.length = l.length - 1 := Nat.mod_eq_of_lt (by omega)
        simp only [this]
      · have : (l.length + i - 1) % l.length = i - 1 := by
          rw [Nat.mod_eq_sub_mod (by omega), Nat.mod_eq_of_lt (by omega)]; omega
        simp only [this]
        have h3 : (l.take i).getLast? = some l[i - 1] := by
          rw [List.getLast?_eq_getElem?, List.getElem?_take_of_lt (by simp; omega)]
          have : (l.take i).length - 1 = i - 1 := by simp; omega
          rw [this, List.getElem?_eq_getElem (by omega)]
        rw [h3]; rfl
    rw [List.getLast?_eq_some_getLast hne] at hg
    exact Option.some.inj hg
  have hhead : (l.drop (i + 1) ++ l.take i)[0]? =
      some (l[(l.length + i + 1) % l.length]'(Nat.mod_lt _ (by omega))) := by
    by_cases h : i + 1 < l.length
    · have : (l.length + i + 1) % l.length = i + 1 := by
        rw [Nat.mod_eq_sub_mod (by omega), Nat.mod_eq_of_lt (by omega)]; omega
      rw [List.getElem?_append_left (by simp only [List.length_drop]; omega), List.getElem?_drop,
        List.getElem?_eq_getElem (by omega)]
      simp only [this]
    · have : (l.length + i + 1) % l.length = 0 := by
        have : l.length + i + 1 = 2 * l.length := by omega
        rw [this, Nat.mul_mod_left]
      rw [List.getElem?_append_right (by simp only [List.length_drop]; omega)]
      rw [List.length_drop, List.getElem?_take_of_lt (by omega), List.getElem?_eq_getElem (by omega)]
      have e : 0 - (l.length - (i + 1)) = 0 := by omega
      simp only [this, e]
  rw [← hlast]
  generalize l.drop (i + 1) ++ l.take i = r at *
  cases r with
  | nil => exact absurd rfl hne
  | cons b r =>
    have hb : b = l[(l.length + i + 1) % l.length]'(Nat.mod_lt _ (by omega)) := by simpa using hhead
    rw [edgeSum_cons g hg _ b _ r rfl, ← hb]; ring

/-- Every triangle passes the convexity test. -/
theorem isConvex_triangle (a b c : Pt K) : isConvex [a, b, c] = .ok true := by
  have e1 : orientation b c a = orientation a b c := by
    simp only [orientation, crossProduct, Pt.sub]; ring
  have e2 : orientation c a b = orientation a b c := by
    simp only [orientation, crossProduct, Pt.sub]; ring
  have h : ¬ orientation a b c * orientation a b c < 0 := not_lt.2 (mul_self_nonneg _)
  simp only [isConvex, cycTriples, List.drop, List.take, List.cons_append, List.nil_append,
    List.zip_cons_cons, List.zip_nil_right, List.tail_cons, List.all_cons, List.all_nil, e1, e2, h,
    not_false_eq_true, decide_true, Bool.and_self]

theorem earBlocked_ok (tol : K) (p t : List (Pt K)) (tri : List Int) :
    ∀ l : List Int, (∀ v ∈ l, 0 ≤ v ∧ v < p.length) → ∃ b, earBlocked tol p t tri l = .ok b := by
  intro l
  induction l with
  | nil => intro _; exact ⟨false, rfl⟩
  | cons v l ih =>
    intro h
    obtain ⟨b, hb⟩ := ih (fun w hw => h w (by simp [hw]))
    have hv := h v (by simp)
    have hg : vecGet p v = .ok (p[v.toNat]'(by omega)) :=
      vecGet_ok_iff.2 ⟨hv.1, List.getElem?_eq_getElem (by omega)⟩
    by_cases hm : isVertex tri v = true
    · exact ⟨false || b, by simp [earBlocked, hm, hb]⟩
    · exact ⟨containsPoint tol t (p[v.toNat]'(by omega)) || b, by simp only [earBlocked, if_neg hm, hg, Outcome.bind_ok, Outcome.pure_eq, hb]⟩

/-- What a successfully clipped ear guarantees. -/
structure EarStep (p : List (Pt K)) (l t l' : List Int) : Prop where
  tri : ∃ a b c, resolve p t = .ok [a, b, c] ∧ ∀ pts, resolve p l = .ok pts →
    ∃ pts', resolve p l' = .ok pts' ∧ ∀ g : Pt K → Pt K → K, (∀ a b, g a b = -g b a) →
      edgeSum g pts = (g a b + g b c + g c a) + edgeSum g pts'
  len : t.length = 3
  mem : ∀ v ∈ t, v ∈ l
  nodup : l.Nodup → t.Nodup
  sub : l'.Sublist l
  size : (l.length = 3 ∧ l' = []) ∨ (3 < l.length ∧ l'.length + 1 = l.length)

theorem earTriple (l : List Int) (h3 : 3 ≤ l.length) (i : Nat) (hi : i < l.length) :
    resolve l [((l.length + i - 1) % l.length : Nat), (i % l.length : Nat),
      ((l.length + i + 1) % l.length : Nat)] =
    .ok [l[(l.length + i - 1) % l.length]'(Nat.mod_lt _ (by omega)), l[i],
      l[(l.length + i + 1) % l.length]'(Nat.mod_lt _ (by omega))] := by
  have g : ∀ k : Nat, (hk : k < l.length) → vecGet l (k : Int) = .ok l[k] := by
    intro k hk
    exact vecGet_ok_iff.2 ⟨by omega, by simp [hk]⟩
  have hm : ∀ k, k % l.length < l.length := fun k => Nat.mod_lt _ (by omega)
  simp only [resolve, g _ (hm _), Outcome.bind_ok, Outcome.pure_eq, Nat.mod_eq_of_lt hi, g _ hi]

theorem ear_indices {n i : Nat} (h3 : 3 ≤ n) (hi : i < n) :
    (n + i - 1) % n ≠ i ∧ (n + i + 1) % n ≠ i ∧ (n + i - 1) % n ≠ (n + i + 1) % n := by
  have e1 : (n + i - 1) % n = if i = 0 then n - 1 else i - 1 := by
    split
    · rename_i h; subst h; exact Nat.mod_eq_of_lt (by omega)
    · rw [Nat.mod_eq_sub_mod (by omega), Nat.mod_eq_of_lt (by omega)]; omega
  have e2 : (n + i + 1) % n = if i + 1 = n then 0 else i + 1 := by
    split
    · have : n + i + 1 = 2 * n := by omega
      rw [this, Nat.mul_mod_left]
    · rw [Nat.mod_eq_sub_mod (by omega), Nat.mod_eq_of_lt (by omega)]; omega
  rw [e1, e2]
  split <;> split <;> omega

theorem findEar_spec (tol : K) (p : List (Pt K)) (l : List Int) (h4 : 3 < l.length)
    (hl : ∀ v ∈ l, 0 ≤ v ∧ v < p.length) :
    ∀ is : List Nat, (∀ i ∈ is, i < l.length) →
      ∃ r, findEar tol p l is = .ok r ∧ ∀ t l', r = some (t, l') → EarStep p l t l' := by
  intro is
  induction is with
  | nil => intro _; exact ⟨none, rfl, by simp⟩
  | cons i is ih =>
    intro his
    have hi := his i (by simp)
    obtain ⟨r, hr, hr'⟩ := ih (fun j hj => his j (by simp [hj]))
    have hpv : ∀ v ∈ l, ∃ a, vecGet p v = .ok a := by
      intro v hv
      have := hl v hv
      exact ⟨p[v.toNat]'(by omega), vecGet_ok_iff.2 ⟨this.1, List.getElem?_eq_getElem (by omega)⟩⟩
    have hm : ∀ k, k % l.length < l.length := fun k => Nat.mod_lt _ (by omega)
    set x := l[(l.length + i - 1) % l.length]'(hm _) with hx
    set z := l[(l.length + i + 1) % l.length]'(hm _) with hz
    have hxm : x ∈ l := List.getElem_mem _
    have hym : l[i] ∈ l := List.getElem_mem _
    have hzm : z ∈ l := List.getElem_mem _
    have htri := earTriple l (by omega) i hi
    rw [← hx, ← hz] at htri
    obtain ⟨a, ha⟩ : ∃ a, vecGet p x = .ok a := hpv _ hxm
    obtain ⟨b, hb⟩ : ∃ a, vecGet p l[i] = .ok a := hpv _ hym
    obtain ⟨c, hc⟩ : ∃ a, vecGet p z = .ok a := hpv _ hzm
    have hres : resolve p [x, l[i], z] = .ok [a, b, c] := by
      simp only [resolve, ha, hb, hc, Outcome.bind_ok, Outcome.pure_eq]
    obtain ⟨bl, hbl⟩ := earBlocked_ok tol p [a, b, c] [x, l[i], z] l hl
    cases bl with
    | true =>
      refine ⟨r, ?_, hr'⟩
      simp only [findEar, htri, hres, isConvex_triangle, hbl, Outcome.bind_ok, if_true]
      exact hr
    | false =>
      refine ⟨some ([x, l[i], z], l.eraseIdx i), ?_, ?_⟩
      · simp only [findEar, htri, hres, isConvex_triangle, hbl, Outcome.bind_ok, if_true,
          Bool.false_eq_true, if_false, Outcome.pure_eq]
      · intro t l' he
        have he := Option.some.inj he
        have e1 : t = [x, l[i], z] := (congrArg Prod.fst he).symm
        have e2 : l' = l.eraseIdx i := (congrArg Prod.snd he).symm
        subst e1 e2
        refine ⟨⟨a, b, c, hres, ?_⟩, rfl, ?_, ?_, List.eraseIdx_sublist _ _, Or.inr ⟨h4, ?_⟩⟩
        · intro pts hpts
          refine ⟨pts.eraseIdx i, resolve_eraseIdx hpts i, fun g hg => ?_⟩
          have hlen := resolve_length hpts
          rw [edgeSum_eraseIdx g hg pts (by omega) i (by omega)]
          have hget : ∀ k (hk : k < l.length) (w : Pt K), vecGet p l[k] = .ok w →
              pts[k]'(by omega) = w := by
            intro k hk w hw
            obtain ⟨w', hw1, hw2⟩ := resolve_getElem? hpts (List.getElem?_eq_getElem hk)
            rw [hw] at hw2
            rw [List.getElem?_eq_getElem (by omega)] at hw1
            rw [Option.some.inj hw1, Outcome.ok.inj hw2]
          have e1 := hget _ (hm _) a ha
          have e2 := hget _ hi b hb
          have e3 := hget _ (hm _) c hc
          simp only [hlen, e1, e2, e3]
        · intro v hv
          simp only [List.mem_cons, List.not_mem_nil, or_false] at hv
          rcases hv with rfl | rfl | rfl <;> assumption
        · intro hn
          obtain ⟨n1, n2, n3⟩ := ear_indices (n := l.length) (i := i) (by omega) hi
          have inj : ∀ j k (hj : j < l.length) (hk : k < l.length), j ≠ k → l[j] ≠ l[k] :=
            fun j k hj hk hjk h => hjk ((List.Nodup.getElem_inj_iff hn).1 h)
          have a1 : x ≠ l[i] := inj _ _ _ _ n1
          have a2 : x ≠ z := inj _ _ _ _ n3
          have a3 : l[i] ≠ z := inj _ _ _ _ (Ne.symm n2)
          simp [a1, a2, a3]
        · rw [List.length_eraseIdx_of_lt hi]; omega

theorem getEar_spec (tol : K) (p : List (Pt K)) (l : List Int) (hl : ∀ v ∈ l, 0 ≤ v ∧ v < p.length) :
    ∃ r, getEar tol p l = .ok r ∧ ∀ t l', r = some (t, l') → EarStep p l t l' := by
  unfold getEar
  by_cases h3 : l.length < 3
  · rw [if_pos h3]; exact ⟨none, rfl, by simp⟩
  rw [if_neg h3]
  by_cases h3' : l.length = 3
  · rw [if_pos h3']
    obtain ⟨pts, hpts⟩ := resolve_ok_iff.2 hl
    refine ⟨some (l, []), by rw [hpts]; rfl, ?_⟩
    intro t l' he
    have he := Option.some.inj he
    have e1 : t = l := (congrArg Prod.fst he).symm
    have e2 : l' = [] := (congrArg Prod.snd he).symm
    subst e1 e2
    have hlen : pts.length = 3 := (resolve_length hpts).trans h3'
    match pts, hlen with
    | [a, b, c], _ =>
      refine ⟨⟨a, b, c, hpts, ?_⟩, h3', fun v hv => hv, fun h => h, List.nil_sublist _, Or.inl ⟨h3', rfl⟩⟩
      intro pts' hpts'
      rw [hpts] at hpts'
      have := Outcome.ok.inj hpts'
      subst this
      refine ⟨[], rfl, fun g _ => ?_⟩
      simp only [edgeSum, cycPairs, List.drop, List.take, List.cons_append, List.nil_append,
        List.zip_cons_cons, List.zip_nil_right, List.map_cons, List.map_nil, List.sum_cons, List.sum_nil]
      ring
  · rw [if_neg h3']
    exact findEar_spec tol p l (by omega) hl _ (fun i hi => List.mem_range.1 hi)

theorem earLoop_spec (tol : K) (p : List (Pt K)) : ∀ (fuel : Nat) (l : List Int) (acc : List (List Int)),
    (∀ v ∈ l, 0 ≤ v ∧ v < p.length) → l.length ≤ fuel →
    ∃ ts rest tps, earLoop tol p fuel l acc = .ok (acc ++ ts) ∧ rest.Sublist l ∧
      (∀ t ∈ ts, t.length = 3 ∧ (∀ v ∈ t, v ∈ l) ∧ (l.Nodup → t.Nodup)) ∧
      List.Forall₂ (fun t (q : Pt K × Pt K × Pt K) => resolve p t = .ok [q.1, q.2.1, q.2.2]) ts tps ∧
      (3 ≤ l.length → (rest = [] ∧ ts.length + 2 = l.length) ∨ (4 ≤ rest.length ∧ ts.length + rest.length = l.length)) ∧
      (l.length < 3 → ts = [] ∧ rest = l) ∧
      ∀ pts, resolve p l = .ok pts → ∃ pts', resolve p rest = .ok pts' ∧
        ∀ g : Pt K → Pt K → K, (∀ a b, g a b = -g b a) → edgeSum g pts =
          (tps.map (fun q => g q.1 q.2.1 + g q.2.1 q.2.2 + g q.2.2 q.1)).sum + edgeSum g pts' := by
  intro fuel
  induction fuel with
  | zero =>
    intro l acc hl hf
    refine ⟨[], l, [], ?_, List.Sublist.refl _, by simp, List.Forall₂.nil, by omega, fun _ => ⟨rfl, rfl⟩, ?_⟩
    · unfold earLoop; rw [if_pos (by omega)]; simp
    · intro pts hpts; exact ⟨pts, hpts, fun g _ => by simp⟩
  | succ fuel ih =>
    intro l acc hl hf
    by_cases h3 : l.length < 3
    · refine ⟨[], l, [], ?_, List.Sublist.refl _, by simp, List.Forall₂.nil, by omega, fun _ => ⟨rfl, rfl⟩, ?_⟩
      · unfold earLoop; rw [if_pos (by omega)]; simp
      · intro pts hpts; exact ⟨pts, hpts, fun g _ => by simp⟩
    obtain ⟨r, hr, hr'⟩ := getEar_spec tol p l hl
    cases r with
    | none =>
      have h4 : 4 ≤ l.length := by
        by_contra hc
        have h3' : l.length = 3 := by omega
        unfold getEar at hr
        rw [if_neg h3, if_pos h3'] at hr
        obtain ⟨pts, hpts⟩ := resolve_ok_iff.2 hl
        rw [hpts] at hr
        simp only [Outcome.bind_ok, Outcome.pure_eq, Outcome.ok.injEq, reduceCtorEq] at hr
      refine ⟨[], l, [], ?_, List.Sublist.refl _, by simp, List.Forall₂.nil,
        fun _ => Or.inr ⟨h4, by simp⟩, fun h => absurd h h3, ?_⟩
      · unfold earLoop; rw [if_neg h3, hr]; simp
      · intro pts hpts; exact ⟨pts, hpts, fun g _ => by simp⟩
    | some r =>
      obtain ⟨t, l'⟩ := r
      have hs := hr' t l' rfl
      have hl' : ∀ v ∈ l', 0 ≤ v ∧ v < p.length := fun v hv => hl v (hs.sub.subset hv)
      have hlen : l'.length < l.length := by
        rcases hs.size with ⟨h, h'⟩ | ⟨h, h'⟩
        · rw [h']; simp; omega
        · omega
      obtain ⟨ts, rest, tps, g1, g2, g3, g4, g5, g6, g7⟩ := ih l' (acc ++ [t]) hl' (by omega)
      obtain ⟨a, b, c, ht, harea⟩ := hs.tri
      refine ⟨t :: ts, rest, (a, b, c) :: tps, ?_, g2.trans hs.sub, ?_, List.Forall₂.cons ht g4, ?_,
        fun h => absurd h h3, ?_⟩
      · unfold earLoop
        rw [if_neg h3, hr]
        simp only [Outcome.bind_ok]
        rw [g1]; simp
      · intro u hu
        rcases List.mem_cons.1 hu with rfl | hu
        · exact ⟨hs.len, hs.mem, hs.nodup⟩
        · obtain ⟨u1, u2, u3⟩ := g3 u hu
          exact ⟨u1, fun v hv => hs.sub.subset (u2 v hv), fun h => u3 (h.sublist hs.sub)⟩
      · intro _
        rcases hs.size with ⟨h, h'⟩ | ⟨h, h'⟩
        · subst h'
          obtain ⟨e1, e2⟩ := g6 (by simp)
          left; exact ⟨e2, by rw [e1]; simp [h]⟩
        · rcases g5 (by omega) with ⟨e1, e2⟩ | ⟨e1, e2⟩
          · left; exact ⟨e1, by simp only [List.length_cons]; omega⟩
          · right; exact ⟨e1, by simp only [List.length_cons]; omega⟩
      · intro pts hpts
        obtain ⟨pts', hp', hsum⟩ := harea pts hpts
        obtain ⟨pts'', hp'', hsum'⟩ := g7 pts' hp'
        refine ⟨pts'', hp'', fun g hg => ?_⟩
        rw [hsum g hg, hsum' g hg]
        simp only [List.map_cons, List.sum_cons]; ring

/-- Areas as edge sums. -/
theorem shoe_eq_edgeSum (l : List (Pt K)) : shoe l = edgeSum (fun a b => a.x * b.y - b.x * a.y) l := rfl

theorem edgeSum_turn (tps : List (Pt K × Pt K × Pt K)) :
    (tps.map (fun q => (q.1.x * q.2.1.y - q.2.1.x * q.1.y) + (q.2.1.x * q.2.2.y - q.2.2.x * q.2.1.y) +
      (q.2.2.x * q.1.y - q.1.x * q.2.2.y))).sum = (tps.map (fun q => turn q.1 q.2.1 q.2.2)).sum := by
  congr 1
  apply List.map_congr_left
  intro q _
  unfold turn; ring

end
end Delynoi
