import Verif.Proofs.Hull
import Verif.Proofs.Resolve
import Mathlib.Data.Finset.Max
import Mathlib.Data.Finset.Prod
import Mathlib.Tactic.Positivity
/-! From the calipers to the diameter. -/
namespace Delynoi
set_option linter.unusedSectionVars false
variable {K : Type} [Field K] [LinearOrder K] [IsStrictOrderedRing K]

theorem popWhile_ne_nil (bad : Pt K → Pt K → Pt K → Bool) (c : Pt K) : ∀ (s : List (Pt K)),
    s ≠ [] → popWhile bad c s ≠ [] := by
  intro s
  induction s with
  | nil => intro h; exact absurd rfl h
  | cons b s ih =>
    intro _
    match s, ih with
    | [], _ => simp [popWhile]
    | a :: r, ih =>
      rw [popWhile]
      split
      · exact ih (by simp)
      · simp

theorem chainStack_length (bad : Pt K → Pt K → Pt K → Bool) (pts : List (Pt K))
    (h : 2 ≤ pts.length) : ∃ b b' r, chainStack bad pts = b :: b' :: r := by
  have key : ∀ (todo s : List (Pt K)), 2 ≤ s.length →
      2 ≤ (todo.foldl (fun s c => c :: popWhile bad c s) s).length := by
    intro todo
    induction todo with
    | nil => intro s h; exact h
    | cons c todo ih =>
      intro s h
      rw [List.foldl_cons]
      apply ih
      have : popWhile bad c s ≠ [] := popWhile_ne_nil bad c s (by rintro rfl; simp at h)
      have := List.length_pos_iff.2 this
      simp only [List.length_cons]; omega
  match pts, h with
  | a :: b :: pts, _ =>
    have h2 : 2 ≤ (chainStack bad (a :: b :: pts)).length := by
      unfold chainStack
      simp only [List.foldl_cons]
      apply key
      simp [popWhile]
    match hc : chainStack bad (a :: b :: pts), h2 with
    | x :: y :: r, _ => exact ⟨x, y, r, rfl⟩

theorem dotP_neg (n v : Pt K) : dotP ⟨-n.x, -n.y⟩ v = -dotP n v := by
  unfold dotP; ring

/-- The calipers of a list of at least two points contain a pair at maximal distance. -/
theorem calipers_has_max (s : List (Pt K)) (hs : s.Pairwise LexLe) (h2 : 2 ≤ s.length)
    (p q : Pt K) (hp : p ∈ s) (hq : q ∈ s)
    (hmax : ∀ a ∈ s, ∀ b ∈ s, sqDist a b ≤ sqDist p q) :
    ∃ e ∈ calipers (chainStack upperBad s).reverse (chainStack lowerBad s),
      sqDist e.1 e.2 = sqDist p q := by
  have hU := sinv_chain goodUpper s hs
  have hL := sinv_chain goodLower s hs
  -- first pair
  obtain ⟨lo, hi, hfirst, hlo, hhi⟩ : ∃ lo hi,
      (lo, hi) ∈ calipers (chainStack upperBad s).reverse (chainStack lowerBad s) ∧
      s.head? = some lo ∧ s.getLast? = some hi := by
    obtain ⟨b, b', r, hb⟩ := chainStack_length lowerBad s h2
    obtain ⟨c, c', t, hc⟩ := chainStack_length upperBad s h2
    have hlen : 2 ≤ (chainStack upperBad s).reverse.length := by rw [hc]; simp
    match hu : (chainStack upperBad s).reverse, hlen with
    | a :: a' :: us, _ =>
      refine ⟨a, b, ?_, ?_, ?_⟩
      · rw [hb, calipers]; simp
      · rw [← hU.last, ← List.head?_reverse, hu]; rfl
      · rw [← hL.head, hb]; rfl
  have lo_le : ∀ x ∈ s, LexLe lo x := by
    intro x hx
    cases s with
    | nil => simp at hx
    | cons d ds =>
      have : d = lo := by simpa using hlo
      subst this
      rcases List.mem_cons.1 hx with rfl | hx
      · exact lexLe_refl _
      · exact (List.pairwise_cons.1 hs).1 x hx
  have le_hi : ∀ x ∈ s, LexLe x hi := by
    intro x hx
    obtain ⟨ds, rfl⟩ := List.getLast?_eq_some_iff.1 hhi
    rcases List.mem_append.1 hx with hx | hx
    · exact (List.pairwise_append.1 hs).2.2 x hx hi (by simp)
    · have : x = hi := by simpa using hx
      rw [this]; exact lexLe_refl _
  have lo_mem : lo ∈ s := List.mem_of_mem_head? hlo
  have hi_mem : hi ∈ s := List.mem_of_mem_getLast? hhi
  have comm : ∀ a b : Pt K, sqDist a b = sqDist b a := by intro a b; unfold sqDist; ring
  have nonneg : ∀ a b : Pt K, 0 ≤ sqDist a b := by intro a b; unfold sqDist; positivity
  rcases eq_or_lt_of_le (nonneg p q) with h0 | hpos
  · refine ⟨(lo, hi), hfirst, le_antisymm (hmax lo lo_mem hi hi_mem) ?_⟩
    rw [← h0]; exact nonneg _ _
  -- main case for an oriented pair
  have main : ∀ p ∈ s, ∀ q ∈ s, (∀ a ∈ s, ∀ b ∈ s, sqDist a b ≤ sqDist p q) → 0 < sqDist p q →
      (p.y < q.y ∨ (p.y = q.y ∧ p.x < q.x)) →
      ∃ e ∈ calipers (chainStack upperBad s).reverse (chainStack lowerBad s),
        sqDist e.1 e.2 = sqDist p q := by
    intro p hp q hq hmax hpos hor
    set n : Pt K := ⟨q.x - p.x, q.y - p.y⟩ with hn
    have umax : ∀ x ∈ s, x ≠ q → dotP n x < dotP n q := by
      intro x hx hne
      have h1 := hmax p hp x hx
      unfold sqDist at h1
      have hw : 0 < (x.x - q.x) ^ 2 + (x.y - q.y) ^ 2 := by
        by_contra hc
        apply hne
        have e1 : (x.x - q.x) ^ 2 = 0 := by nlinarith [sq_nonneg (x.x - q.x), sq_nonneg (x.y - q.y)]
        have e2 : (x.y - q.y) ^ 2 = 0 := by nlinarith [sq_nonneg (x.x - q.x), sq_nonneg (x.y - q.y)]
        have e1 := pow_eq_zero_iff (two_ne_zero) |>.1 e1
        have e2 := pow_eq_zero_iff (two_ne_zero) |>.1 e2
        exact Pt.ext (by linarith) (by linarith)
      unfold dotP
      simp only [hn]
      nlinarith
    have umin : ∀ x ∈ s, x ≠ p → dotP n p < dotP n x := by
      intro x hx hne
      have h1 := hmax x hx q hq
      unfold sqDist at h1
      have hw : 0 < (x.x - p.x) ^ 2 + (x.y - p.y) ^ 2 := by
        by_contra hc
        apply hne
        have e1 : (x.x - p.x) ^ 2 = 0 := by nlinarith [sq_nonneg (x.x - p.x), sq_nonneg (x.y - p.y)]
        have e2 : (x.y - p.y) ^ 2 = 0 := by nlinarith [sq_nonneg (x.x - p.x), sq_nonneg (x.y - p.y)]
        have e1 := pow_eq_zero_iff (two_ne_zero) |>.1 e1
        have e2 := pow_eq_zero_iff (two_ne_zero) |>.1 e2
        exact Pt.ext (by linarith) (by linarith)
      unfold dotP
      simp only [hn]
      nlinarith
    have hpq : p ≠ q := by rintro rfl; simp [sqDist] at hpos
    rcases hor with hy | ⟨hy, hx⟩
    · have hny : 0 < n.y := by simp only [hn]; linarith
      -- q on the upper chain, p on the lower chain
      have hqU : q ∈ chainStack upperBad s := by
        obtain ⟨v, hv, hv'⟩ := hU.dom q hq n hny.le
        by_cases hvq : v = q
        · rwa [← hvq]
        · exact absurd (umax v (hU.sub v hv) hvq) (not_lt.2 hv')
      have hpL : p ∈ chainStack lowerBad s := by
        obtain ⟨v, hv, hv'⟩ := hL.dom p hp ⟨-n.x, -n.y⟩ (by simp only; linarith)
        rw [dotP_neg, dotP_neg] at hv'
        by_cases hvp : v = p
        · rwa [← hvp]
        · have := umin v (hL.sub v hv) hvp
          linarith
      have notall : ¬ ∀ x ∈ s, ∀ y ∈ s, x = y := fun h => hpq (h p hp q hq)
      have sU : (chainStack upperBad s).Pairwise (fun a b => LexLt b a) :=
        hU.strict.resolve_right notall
      have sL : (chainStack lowerBad s).Pairwise (fun a b => LexLt b a) :=
        hL.strict.resolve_right notall
      have hqU' : q ∈ (chainStack upperBad s).reverse := List.mem_reverse.2 hqU
      obtain ⟨pre, post, hu⟩ := List.append_of_mem hqU'
      obtain ⟨pre', post', hl⟩ := List.append_of_mem hpL
      have aU : (pre ++ q :: post).Pairwise LexLt := by
        rw [← hu, List.pairwise_reverse]; exact sU
      have tU : Triples (fun a b c => upperBad a b c = false) (pre ++ q :: post) := by
        rw [← hu]; exact triples_reverse _ hU.turns
      have memU : ∀ v ∈ pre ++ q :: post, v ∈ s := by
        intro v hv; rw [← hu] at hv; exact hU.sub v (List.mem_reverse.1 hv)
      have bef := uni_before (unimodalUpper hny) q post pre aU tU (by
        intro z hz
        have hz' : z ∈ pre := List.mem_of_mem_getLast? hz
        have hlt := (List.pairwise_append.1 aU).2.2 z hz' q (by simp)
        exact umax z (memU z (List.mem_append_left _ hz')) hlt.ne)
      have aft : ∀ z, post.head? = some z → dotP n z < dotP n q := by
        intro z hz
        have hz' : z ∈ post := List.mem_of_mem_head? hz
        have hlt := (List.pairwise_cons.1 (List.pairwise_append.1 aU).2.1).1 z hz'
        exact umax z (memU z (by simp [hz'])) hlt.ne.symm
      -- lower chain, ascending
      have hasc : (pre' ++ p :: post').reverse = post'.reverse ++ p :: pre'.reverse := by simp
      have aL : (post'.reverse ++ p :: pre'.reverse).Pairwise LexLt := by
        rw [← hasc, List.pairwise_reverse, ← hl]; exact sL
      have tL : Triples (fun a b c => lowerBad a b c = false) (post'.reverse ++ p :: pre'.reverse) := by
        rw [← hasc, ← hl]; exact triples_reverse _ hL.turns
      have memL : ∀ v ∈ pre' ++ p :: post', v ∈ s := by
        intro v hv; rw [← hl] at hv; exact hL.sub v hv
      have sL' : (pre' ++ p :: post').Pairwise (fun a b => LexLt b a) := by rw [← hl]; exact sL
      have lowaft := uni_after (unimodalLower (n := ⟨-n.x, -n.y⟩) (by simp only; linarith))
        pre'.reverse p (List.pairwise_append.1 aL).2.1 (triples_append_right tL) (by
        intro z hz
        have hz' : z ∈ pre' := List.mem_reverse.1 (List.mem_of_mem_head? hz)
        have hlt := (List.pairwise_append.1 sL').2.2 z hz' p (by simp)
        have := umin z (memL z (List.mem_append_left _ hz')) hlt.ne.symm
        rw [dotP_neg, dotP_neg]; linarith)
      have lowbef : (pre' ++ [p]).Pairwise (fun a b => dotP n b < dotP n a) := by
        have e : pre' ++ [p] = (p :: pre'.reverse).reverse := by simp
        rw [e, List.pairwise_reverse]
        refine lowaft.imp ?_
        intro a b h
        rw [dotP_neg, dotP_neg] at h
        linarith
      have lowhead : ∀ z, post'.head? = some z → dotP n p < dotP n z := by
        intro z hz
        have hz' : z ∈ post' := List.mem_of_mem_head? hz
        have hlt := (List.pairwise_cons.1 (List.pairwise_append.1 sL').2.1).1 z hz'
        exact umin z (memL z (by simp [hz'])) hlt.ne
      rcases calipers_visits n hny q p _ pre post pre' post' rfl aU sL' bef aft lowbef lowhead
        with h | ⟨e1, e2⟩
      · refine ⟨(q, p), ?_, comm _ _⟩
        rw [hu, hl]; exact h
      · subst e1 e2
        refine ⟨(lo, hi), hfirst, ?_⟩
        have h1 : hi = q := by
          have : (chainStack upperBad s).head? = some q := by
            have : (chainStack upperBad s) = (pre ++ [q]).reverse := by rw [← hu]; simp
            rw [this]; simp
          rw [hU.head, hhi] at this
          exact Option.some.inj this
        have h2 : lo = p := by
          have : (chainStack lowerBad s).getLast? = some p := by rw [hl]; simp
          rw [hL.last, hlo] at this
          exact Option.some.inj this
        rw [h1, h2]
    · -- horizontal pair: the two ends of the sorted list
      refine ⟨(lo, hi), hfirst, ?_⟩
      have h1 : hi = q := by
        by_contra hc
        have := umax hi hi_mem hc
        unfold dotP at this
        simp only [hn, hy, sub_self, zero_mul, add_zero] at this
        have := (mul_lt_mul_iff_right₀ (sub_pos.2 hx)).1 this
        have := (le_hi q hq).x_le
        linarith
      have h2 : lo = p := by
        by_contra hc
        have := umin lo lo_mem hc
        unfold dotP at this
        simp only [hn, hy, sub_self, zero_mul, add_zero] at this
        have := (mul_lt_mul_iff_right₀ (sub_pos.2 hx)).1 this
        have := (lo_le p hp).x_le
        linarith
      rw [h1, h2]
  rcases lt_trichotomy p.y q.y with h | h | h
  · exact main p hp q hq hmax hpos (Or.inl h)
  · rcases lt_trichotomy p.x q.x with h' | h' | h'
    · exact main p hp q hq hmax hpos (Or.inr ⟨h, h'⟩)
    · exfalso; unfold sqDist at hpos; rw [h, h'] at hpos; simp at hpos
    · obtain ⟨e, he, he'⟩ := main q hq p hp (fun a ha b hb => by rw [comm q p]; exact hmax a ha b hb)
        (by rw [comm]; exact hpos) (Or.inr ⟨h.symm, h'⟩)
      exact ⟨e, he, by rw [he', comm]⟩
  · obtain ⟨e, he, he'⟩ := main q hq p hp (fun a ha b hb => by rw [comm q p]; exact hmax a ha b hb)
      (by rw [comm]; exact hpos) (Or.inl h)
    exact ⟨e, he, by rw [he', comm]⟩

theorem maxLoop_spec {M : Type} [LinearOrder M] (ds : List M) : ∀ (init : M),
    init ≤ maxLoop init ds ∧ (∀ d ∈ ds, d ≤ maxLoop init ds) ∧
    (maxLoop init ds = init ∨ maxLoop init ds ∈ ds) := by
  induction ds with
  | nil => intro init; simp [maxLoop]
  | cons d ds ih =>
    intro init
    have e : maxLoop init (d :: ds) = maxLoop (if d > init then d else init) ds := rfl
    rw [e]
    obtain ⟨h1, h2, h3⟩ := ih (if d > init then d else init)
    by_cases hd : d > init
    · simp only [hd, if_true] at h1 h2 h3 ⊢
      refine ⟨hd.le.trans h1, ?_, ?_⟩
      · intro x hx
        rcases List.mem_cons.1 hx with rfl | hx
        · exact h1
        · exact h2 x hx
      · rcases h3 with h3 | h3
        · right; rw [h3]; simp
        · right; exact List.mem_cons_of_mem _ h3
    · simp only [hd, if_false] at h1 h2 h3 ⊢
      refine ⟨h1, ?_, ?_⟩
      · intro x hx
        rcases List.mem_cons.1 hx with rfl | hx
        · exact (not_lt.1 hd).trans h1
        · exact h2 x hx
      · rcases h3 with h3 | h3
        · exact Or.inl h3
        · right; exact List.mem_cons_of_mem _ h3

theorem exists_max_pair (s : List (Pt K)) (hs : s ≠ []) :
    ∃ p ∈ s, ∃ q ∈ s, ∀ a ∈ s, ∀ b ∈ s, sqDist a b ≤ sqDist p q := by
  classical
  obtain ⟨x, hx⟩ := List.exists_mem_of_ne_nil s hs
  have hne : (s.toFinset ×ˢ s.toFinset).Nonempty :=
    ⟨(x, x), Finset.mem_product.2 ⟨List.mem_toFinset.2 hx, List.mem_toFinset.2 hx⟩⟩
  obtain ⟨e, he, hmax⟩ := Finset.exists_max_image (s.toFinset ×ˢ s.toFinset)
    (fun e => sqDist e.1 e.2) hne
  rw [Finset.mem_product] at he
  refine ⟨e.1, List.mem_toFinset.1 he.1, e.2, List.mem_toFinset.1 he.2, ?_⟩
  intro a ha b hb
  exact hmax (a, b) (Finset.mem_product.2 ⟨List.mem_toFinset.2 ha, List.mem_toFinset.2 hb⟩)

theorem triples_getElem {P : Pt K → Pt K → Pt K → Prop} : ∀ (l : List (Pt K)), Triples P l →
    ∀ (i : Nat) (h : i + 2 < l.length), P l[i] l[i + 1] l[i + 2] := by
  intro l
  induction l with
  | nil => intro _ i h; simp at h
  | cons a l ih =>
    intro ht i h
    match l, ih, ht, h with
    | [], _, _, h => simp at h
    | [_], _, _, h => simp at h
    | b :: c :: r, ih, ht, h =>
      cases i with
      | zero => exact ht.1
      | succ i =>
        have := ih ht.2 i (by simp at h ⊢; omega)
        exact this

theorem split_at_edge (u : List (Pt K)) (i : Nat) (h : i + 1 < u.length) :
    u = u.take i ++ u[i] :: u[i + 1] :: u.drop (i + 2) := by
  have h1 : u.drop i = u[i] :: u.drop (i + 1) := List.drop_eq_getElem_cons (by omega)
  have h2 : u.drop (i + 1) = u[i + 1] :: u.drop (i + 2) := List.drop_eq_getElem_cons h
  rw [← h2, ← h1, List.take_append_drop]

end Delynoi
