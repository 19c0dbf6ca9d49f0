import Verif.Proofs.TriMerge2
/-!
# Knitting two triangulations together: removing an edge of one of them
-/
set_option linter.unusedSectionVars false
namespace Delynoi.Tri
variable {m m' : Heap} {A : Nat → Prop} {m0 : Heap} {V : Nat → Prop} {s : Knit} {ll lr ul ur : Nat}

theorem upd6 {α β : Type} [DecidableEq α] (f : α → β) {a1 a2 a3 a4 a5 a6 : α} {v1 v2 v3 v4 v5 v6 : β} (N : [a1, a2, a3, a4, a5, a6].Nodup) :
    Function.update (Function.update (Function.update (Function.update (Function.update (Function.update f a1 v1) a2 v2) a3 v3) a4 v4) a5 v5) a6 v6 a1 = v1 ∧
    Function.update (Function.update (Function.update (Function.update (Function.update (Function.update f a1 v1) a2 v2) a3 v3) a4 v4) a5 v5) a6 v6 a2 = v2 ∧
    Function.update (Function.update (Function.update (Function.update (Function.update (Function.update f a1 v1) a2 v2) a3 v3) a4 v4) a5 v5) a6 v6 a3 = v3 ∧
    Function.update (Function.update (Function.update (Function.update (Function.update (Function.update f a1 v1) a2 v2) a3 v3) a4 v4) a5 v5) a6 v6 a4 = v4 ∧
    Function.update (Function.update (Function.update (Function.update (Function.update (Function.update f a1 v1) a2 v2) a3 v3) a4 v4) a5 v5) a6 v6 a5 = v5 ∧
    Function.update (Function.update (Function.update (Function.update (Function.update (Function.update f a1 v1) a2 v2) a3 v3) a4 v4) a5 v5) a6 v6 a6 = v6 ∧
    ∀ y, y ≠ a1 → y ≠ a2 → y ≠ a3 → y ≠ a4 → y ≠ a5 → y ≠ a6 →
      Function.update (Function.update (Function.update (Function.update (Function.update (Function.update f a1 v1) a2 v2) a3 v3) a4 v4) a5 v5) a6 v6 y = f y := by
  simp only [List.nodup_cons, List.mem_cons, List.not_mem_nil, or_false, not_or, List.nodup_nil, not_false_eq_true, and_true] at N
  obtain ⟨⟨p12, p13, p14, p15, p16⟩, ⟨p23, p24, p25, p26⟩, ⟨p34, p35, p36⟩, ⟨p45, p46⟩, p56⟩ := N
  refine ⟨?_, ?_, ?_, ?_, ?_, ?_, ?_⟩
  · rw [Function.update_of_ne p16, Function.update_of_ne p15, Function.update_of_ne p14, Function.update_of_ne p13, Function.update_of_ne p12, Function.update_self]
  · rw [Function.update_of_ne p26, Function.update_of_ne p25, Function.update_of_ne p24, Function.update_of_ne p23, Function.update_self]
  · rw [Function.update_of_ne p36, Function.update_of_ne p35, Function.update_of_ne p34, Function.update_self]
  · rw [Function.update_of_ne p46, Function.update_of_ne p45, Function.update_self]
  · rw [Function.update_of_ne p56, Function.update_self]
  · rw [Function.update_self]
  · intro y q1 q2 q3 q4 q5 q6
    rw [Function.update_of_ne q6, Function.update_of_ne q5, Function.update_of_ne q4, Function.update_of_ne q3, Function.update_of_ne q2, Function.update_of_ne q1]

theorem upd4 {α β : Type} [DecidableEq α] (f : α → β) {a1 a2 a3 a4 y : α} {v1 v2 v3 v4 : β} (q1 : y ≠ a1) (q2 : y ≠ a2) (q3 : y ≠ a3) (q4 : y ≠ a4) :
    Function.update (Function.update (Function.update (Function.update f a1 v1) a2 v2) a3 v3) a4 v4 y = f y := by
  rw [Function.update_of_ne q4, Function.update_of_ne q3, Function.update_of_ne q2, Function.update_of_ne q1]

/-- `x ∉ l` for a list `l` of edges, from hypotheses that say that edges are different. -/
macro "notin" : tactic => `(tactic| (simp only [List.mem_cons, List.not_mem_nil, or_false, not_or]; (repeat' apply And.intro) <;> first | assumption | (apply Ne.symm; assumption)))

macro "nodup" : tactic => `(tactic| (simp only [List.nodup_cons, List.mem_cons, List.not_mem_nil, or_false, not_or, List.nodup_nil, not_false_eq_true, and_true]; (repeat' apply And.intro) <;> first | assumption | (apply Ne.symm; assumption)))

set_option maxHeartbeats 400000 in
theorem Gap.eatLeft {na : Nat} (G : Gap m0 A V s ll lr ul ur) (hne : ul ≠ lr) (ha : s.mesh.corner (s.mesh.nbr (lprev s.left)) = some na) (hna : na ≠ lr) :
    Gap m0 A V { s with mesh := (s.mesh.eatLeft s.left (s.mesh.nbr (lprev s.left)) s.lowerleft s.upperleft (some na)).1,
                        left := (s.mesh.eatLeft s.left (s.mesh.nbr (lprev s.left)) s.lowerleft s.upperleft (some na)).2.1, upperleft := some na } ll lr na ur ∧
      (s.mesh.eatLeft s.left (s.mesh.nbr (lprev s.left)) s.lowerleft s.upperleft (some na)).2.2 =
        (s.mesh.eatLeft s.left (s.mesh.nbr (lprev s.left)) s.lowerleft s.upperleft (some na)).1.nbr
          (lprev (s.mesh.eatLeft s.left (s.mesh.nbr (lprev s.left)) s.lowerleft s.upperleft (some na)).2.1) ∧
      (∀ y : Otri, y.1 ≠ s.left.1 → y.1 ≠ (s.mesh.nbr (lprev s.left)).1 → (s.mesh.eatLeft s.left (s.mesh.nbr (lprev s.left)) s.lowerleft s.upperleft (some na)).1.corner y = s.mesh.corner y) ∧
      (s.mesh.eatLeft s.left (s.mesh.nbr (lprev s.left)) s.lowerleft s.upperleft (some na)).1.corner s.left = none ∧ (s.mesh.eatLeft s.left (s.mesh.nbr (lprev s.left)) s.lowerleft s.upperleft (some na)).1.corner (lprev (s.mesh.nbr (lprev s.left))) = none ∧
      (s.mesh.eatLeft s.left (s.mesh.nbr (lprev s.left)) s.lowerleft s.upperleft (some na)).1.nbr (lnext s.right) = s.mesh.nbr (lnext s.right) := by
  -- the base and the right candidate are not in the triangle of the left candidate
  have hrl : s.right.1 ≠ s.left.1 := fun h => hne (G.same h.symm).1
  have hbl : s.base.1 ≠ s.left.1 := fun h => by
    rcases edge_cases h with e | e | e
    · exact G.base_ne_left e
    · have := G.b1; rw [e, nn, G.l2] at this; cases this
    · have := G.b1; rw [e, np, G.l0] at this; exact hne (Option.some.inj this)
  have c2E : lprev s.left ∉ [s.base, s.left, s.right] := by
    simp only [List.mem_cons, List.not_mem_nil, or_false, not_or]
    exact ⟨fun e => hbl (by rw [← e]; rfl), prev_ne, fun e => hrl (by rw [← e]; rfl)⟩
  have c1E : lnext s.left ∉ [s.base, s.left, s.right] := by
    simp only [List.mem_cons, List.not_mem_nil, or_false, not_or]
    exact ⟨fun e => hbl (by rw [← e]; rfl), next_ne, fun e => hrl (by rw [← e]; rfl)⟩
  obtain ⟨na1, na2, na3, nf⟩ := G.shut (lprev s.left) G.al c2E
  obtain ⟨oa1, oa2, oa3, of⟩ := G.shut (lnext s.left) G.al c1E
  have hnl : (s.mesh.nbr (lprev s.left)).1 ≠ s.left.1 := fits_other G.proper (x := lprev s.left) G.al nf
  have hol : (s.mesh.nbr (lnext s.left)).1 ≠ s.left.1 := fits_other G.proper (x := lnext s.left) G.al of
  obtain ⟨n, hn⟩ : ∃ n, n = s.mesh.nbr (lprev s.left) := ⟨_, rfl⟩
  obtain ⟨outer, ho⟩ : ∃ n, n = s.mesh.nbr (lnext s.left) := ⟨_, rfl⟩
  rw [← hn] at na1 na2 na3 nf hnl ha ⊢
  rw [← ho] at oa1 oa2 oa3 of hol
  have n1c : s.mesh.corner (lnext n) = some ll := by rw [nf.next, pp, G.l1]
  have n2c : s.mesh.corner (lprev n) = some ul := by rw [nf.prev, np, G.l0]
  have ocn : s.mesh.corner (lprev outer) = none := by rw [of.prev, nn, G.l2]
  have noNull : ∀ y : Otri, y.1 = n.1 → s.mesh.corner y ≠ none := fun y hy e => by
    rcases edge_cases hy with rfl | rfl | rfl
    · rw [ha] at e; cases e
    · simp [n1c, n2c] at e
    · simp [n1c, n2c] at e
  have hon : outer.1 ≠ n.1 := fun h => noNull (lprev outer) h ocn
  have hrn : s.right.1 ≠ n.1 := fun h => noNull (lnext s.right) h G.r2
  have hbn : s.base.1 ≠ n.1 := fun h => by
    rcases edge_cases h with e | e | e
    · have := G.b1; rw [e, n1c] at this; exact G.ll_ne (Option.some.inj this)
    · have := G.b1; rw [e, nn, n2c] at this; exact hne (Option.some.inj this)
    · have := G.b1; rw [e, np, ha] at this; exact hna (Option.some.inj this)
  have n1E : lnext n ∉ [s.base, s.left, s.right] := by
    simp only [List.mem_cons, List.not_mem_nil, or_false, not_or]
    exact ⟨fun e => hbn (by rw [← e]; rfl), fun e => hnl (by rw [← e]; rfl), fun e => hrn (by rw [← e]; rfl)⟩
  have n2E : lprev n ∉ [s.base, s.left, s.right] := by
    simp only [List.mem_cons, List.not_mem_nil, or_false, not_or]
    exact ⟨fun e => hbn (by rw [← e]; rfl), fun e => hnl (by rw [← e]; rfl), fun e => hrn (by rw [← e]; rfl)⟩
  obtain ⟨ta1, ta2, ta3, tf⟩ := G.shut (lnext n) na1 n1E
  obtain ⟨sa1, sa2, sa3, sf⟩ := G.shut (lprev n) na1 n2E
  have htn : (s.mesh.nbr (lnext n)).1 ≠ n.1 := fits_other G.proper (x := lnext n) na1 tf
  have hsn : (s.mesh.nbr (lprev n)).1 ≠ n.1 := fits_other G.proper (x := lprev n) na1 sf
  obtain ⟨top, ht⟩ : ∃ n', n' = s.mesh.nbr (lnext n) := ⟨_, rfl⟩
  obtain ⟨side, hs⟩ : ∃ n', n' = s.mesh.nbr (lprev n) := ⟨_, rfl⟩
  rw [← ht] at ta1 ta2 ta3 tf htn
  rw [← hs] at sa1 sa2 sa3 sf hsn
  simp only [List.mem_cons, List.not_mem_nil, or_false, not_or] at na2 oa2 ta2 sa2
  have htl : top.1 ≠ s.left.1 := fun h => by
    rcases edge_cases h with e | e | e
    · exact ta2.2.1 e
    · have := tf.next; rw [e, nn, pn, ha, G.l2] at this; cases this
    · rw [e, ← hn] at ta3; exact next_ne ta3.symm
  have hsl : side.1 ≠ s.left.1 := fun h => by
    rcases edge_cases h with e | e | e
    · exact sa2.2.1 e
    · have := sf.next; rw [e, nn, pp, n1c, G.l2] at this; cases this
    · rw [e, ← hn] at sa3; exact prev_ne sa3.symm
  -- all these edges are different
  have d1 : lnext s.left ≠ s.left := next_ne
  have d2 : lprev s.left ≠ s.left := prev_ne
  have d3 : lprev s.left ≠ lnext s.left := prev_ne_next
  have d4 : lnext n ≠ n := next_ne
  have d5 : lprev n ≠ n := prev_ne
  have d6 : lprev n ≠ lnext n := prev_ne_next
  have other : ∀ {x y : Otri}, x.1 ≠ y.1 → x ≠ y := fun h e => h (by have := congrArg Prod.fst e; exact this)
  have e1 : n ≠ s.left := other hnl
  have e2 : n ≠ lnext s.left := other hnl
  have e3 : n ≠ lprev s.left := other hnl
  have e4 : lnext n ≠ s.left := other hnl
  have e5 : lnext n ≠ lnext s.left := other hnl
  have e6 : lnext n ≠ lprev s.left := other hnl
  have e7 : lprev n ≠ s.left := other hnl
  have e8 : lprev n ≠ lnext s.left := other hnl
  have e9 : lprev n ≠ lprev s.left := other hnl
  have f1 : top ≠ s.left := other htl
  have f2 : top ≠ lnext s.left := other htl
  have f3 : top ≠ lprev s.left := other htl
  have f4 : top ≠ n := other htn
  have f5 : top ≠ lnext n := other htn
  have f6 : top ≠ lprev n := other htn
  have g1 : side ≠ s.left := other hsl
  have g2 : side ≠ lnext s.left := other hsl
  have g3 : side ≠ lprev s.left := other hsl
  have g4 : side ≠ n := other hsn
  have g5 : side ≠ lnext n := other hsn
  have g6 : side ≠ lprev n := other hsn
  have h1 : outer ≠ s.left := other hol
  have h2 : outer ≠ lnext s.left := other hol
  have h3 : outer ≠ lprev s.left := other hol
  have h4 : outer ≠ n := other hon
  have h5 : outer ≠ lnext n := other hon
  have h6 : outer ≠ lprev n := other hon
  have i1 : s.base ≠ s.left := other hbl
  have i2 : s.base ≠ lnext s.left := other hbl
  have i3 : s.base ≠ lprev s.left := other hbl
  have i4 : s.base ≠ n := other hbn
  have i5 : s.base ≠ lnext n := other hbn
  have i6 : s.base ≠ lprev n := other hbn
  have j1 : s.right ≠ s.left := other hrl
  have j2 : s.right ≠ lnext s.left := other hrl
  have j3 : s.right ≠ lprev s.left := other hrl
  have j4 : s.right ≠ n := other hrn
  have j5 : s.right ≠ lnext n := other hrn
  have j6 : s.right ≠ lprev n := other hrn
  have k1 : top ≠ side := fun e => d6 (by rw [← sa3, ← e, ta3])
  have k2 : top ≠ outer := fun e => e5 (by rw [← ta3, e, oa3])
  have k3 : side ≠ outer := fun e => e8 (by rw [← sa3, e, oa3])
  have k4 : top ≠ s.base := ta2.1
  have k5 : top ≠ s.right := ta2.2.2
  have k6 : side ≠ s.base := sa2.1
  have k7 : side ≠ s.right := sa2.2.2
  have k8 : outer ≠ s.base := oa2.1
  have k9 : outer ≠ s.right := oa2.2.2
  have k0 : s.base ≠ s.right := G.base_ne_right
  -- cutting
  have S1 : Shut s.mesh A (lprev n :: side :: (lnext n :: top :: (lnext s.left :: outer :: (lprev s.left :: n :: [s.base, s.left, s.right])))) := by
    have S := (G.shut.cut (x := lprev s.left) G.al c2E)
    rw [← hn] at S
    have S := S.cut (x := lnext s.left) G.al (by notin)
    rw [← ho] at S
    have S := S.cut (x := lnext n) na1 (by notin)
    rw [← ht] at S
    have S := S.cut (x := lprev n) na1 (by notin)
    rw [← hs] at S
    exact S
  -- the new mesh
  have eo : ((s.mesh.bond (lprev n) top).bond s.left side).nbr (lnext s.left) = outer := by
    rw [ho]
    exact (upd4 s.mesh.nbr (a1 := lprev n) (a2 := top) (a3 := s.left) (a4 := side) (Ne.symm e8) (Ne.symm f2) d1 (Ne.symm g2))
  have eq1 : s.mesh.eatLeft s.left n s.lowerleft s.upperleft (some na) =
      ({ s.mesh with nbr := Function.update (Function.update (Function.update (Function.update (Function.update (Function.update s.mesh.nbr (lprev n) top) top (lprev n)) s.left side) side s.left) (lnext n) outer) outer (lnext n), corner := Function.update (Function.update (Function.update (Function.update (Function.update (Function.update s.mesh.corner (lprev s.left) (some ll)) s.left none) (lnext s.left) (some na)) (lprev n) none) n (some ul)) (lnext n) (some na) }, lnext s.left, side) := by
    rw [← eo]
    unfold Heap.eatLeft
    simp only [nn, pp, np, pn, Heap.sym, ← ht, ← hs]
    simp only [Heap.setorg, Heap.setdest, Heap.setapex, Heap.bond, nn, pp, np, pn, G.vll, G.vul, G.vlr, G.vur]
  rw [eq1]
  obtain ⟨N1, N2, N3, N4, N5, N6, N7⟩ := upd6 s.mesh.nbr (a1 := lprev n) (a2 := top) (a3 := s.left) (a4 := side) (a5 := lnext n) (a6 := outer)
    (v1 := top) (v2 := lprev n) (v3 := side) (v4 := s.left) (v5 := outer) (v6 := lnext n) (by nodup)
  obtain ⟨C1, C2, C3, C4, C5, C6, C7⟩ := upd6 s.mesh.corner (a1 := lprev s.left) (a2 := s.left) (a3 := lnext s.left) (a4 := lprev n) (a5 := n) (a6 := lnext n)
    (v1 := some ll) (v2 := none) (v3 := some na) (v4 := none) (v5 := some ul) (v6 := some na) (by nodup)
  obtain ⟨nb', hnb⟩ : ∃ f, f = Function.update (Function.update (Function.update (Function.update (Function.update (Function.update s.mesh.nbr (lprev n) top) top (lprev n)) s.left side) side s.left) (lnext n) outer) outer (lnext n) := ⟨_, rfl⟩
  obtain ⟨co', hco⟩ : ∃ f, f = Function.update (Function.update (Function.update (Function.update (Function.update (Function.update s.mesh.corner (lprev s.left) (some ll)) s.left none) (lnext s.left) (some na)) (lprev n) none) n (some ul)) (lnext n) (some na) := ⟨_, rfl⟩
  rw [← hnb] at N1 N2 N3 N4 N5 N6 N7 ⊢
  rw [← hco] at C1 C2 C3 C4 C5 C6 C7 ⊢
  have co1 : ∀ y : Otri, y.1 ≠ s.left.1 → y.1 ≠ n.1 → co' y = s.mesh.corner y := fun y h1 h2 =>
    C7 y (fun e => h1 (by have := congrArg Prod.fst e; exact this)) (fun e => h1 (by have := congrArg Prod.fst e; exact this)) (fun e => h1 (by have := congrArg Prod.fst e; exact this)) (fun e => h2 (by have := congrArg Prod.fst e; exact this)) (fun e => h2 (by have := congrArg Prod.fst e; exact this)) (fun e => h2 (by have := congrArg Prod.fst e; exact this))
  have keep : nb' (lnext s.right) = s.mesh.nbr (lnext s.right) := by
    refine N7 _ (fun e => hrn (by have := congrArg Prod.fst e; exact this)) (fun e => ?_) (fun e => hrl (by have := congrArg Prod.fst e; exact this)) (fun e => ?_)
      (fun e => hrn (by have := congrArg Prod.fst e; exact this)) (fun e => ?_)
    · have := tf.next; rw [← e, nn, pn, ha, G.r1] at this; exact hna (Option.some.inj this).symm
    · have := sf.next; rw [← e, nn, pp, n1c, G.r1] at this; exact G.ll_ne (Option.some.inj this).symm
    · rw [← e, pn, G.r0] at ocn; cases ocn
  refine ⟨?_, ?_, co1, C2, C4, keep⟩
  case refine_2 =>
    show side = nb' (lprev (lnext s.left))
    rw [pn, N3]
  refine Gap.mk (dummy := G.dummy) (proper := ?gp) (shut := ?gs) (ab := G.ab) (al := G.al) (ar := G.ar) (vll := G.vll) (vlr := G.vlr) (vul := rfl) (vur := G.vur)
    (b1 := ?gb1) (b2 := ?gb2) (l0 := C3) (l1 := ?gl1) (l2 := ?gl2) (r0 := ?gr0) (r1 := ?gr1) (r2 := ?gr2) (verts := ?gv) (frame := ?gf)
  case gb1 => exact (co1 (lnext s.base) hbl hbn).trans G.b1
  case gb2 => exact (co1 (lprev s.base) hbl hbn).trans G.b2
  case gr0 => exact (co1 s.right hrl hrn).trans G.r0
  case gr1 => exact (co1 (lprev s.right) hrl hrn).trans G.r1
  case gr2 => exact (co1 (lnext s.right) hrl hrn).trans G.r2
  case gl1 =>
    show co' (lnext (lnext s.left)) = _
    rw [nn]; exact C1
  case gl2 =>
    show co' (lprev (lnext s.left)) = _
    rw [pn]; exact C2
  case gp =>
    intro t ht o o' e
    have e : co' (t, o) = co' (t, o') := e
    have hnall : na ≠ ll := by
      rintro rfl
      exact G.proper.ne (x := n) (y := lnext n) na1 rfl d4 (by rw [ha, n1c])
    have hnaul : na ≠ ul := by
      rintro rfl
      exact G.proper.ne (x := n) (y := lprev n) na1 rfl d5 (by rw [ha, n2c])
    by_cases h : t = s.left.1
    · subst h
      exact proper_tri (m := { s.mesh with nbr := nb', corner := co' }) (x := s.left) (by show co' _ ≠ co' _; rw [C2, C3]; simp) (by show co' _ ≠ co' _; rw [C2, C1]; simp)
        (by show co' _ ≠ co' _; rw [C3, C1]; simpa using hnall) o o' e
    · by_cases h' : t = n.1
      · subst h'
        exact proper_tri (m := { s.mesh with nbr := nb', corner := co' }) (x := n) (by show co' _ ≠ co' _; rw [C5, C6]; simpa using hnaul.symm) (by show co' _ ≠ co' _; rw [C5, C4]; simp)
          (by show co' _ ≠ co' _; rw [C6, C4]; simp) o o' e
      · rw [co1 (t, o) h h', co1 (t, o') h h'] at e
        exact G.proper t ht o o' e
  case gs =>
    have S2 : Shut { s.mesh with nbr := nb', corner := co' } A (lprev n :: side :: (lnext n :: top :: (lnext s.left :: outer :: (lprev s.left :: n :: [s.base, s.left, s.right])))) := by
      refine S1.free (fun x _ hx => ?_) (fun x _ hx => ?_) <;> simp only [List.mem_cons, List.not_mem_nil, or_false, not_or] at hx <;> obtain ⟨x1, x2, x3, x4, x5, x6, x7, x8, x9, x10, x11⟩ := hx
      · exact N7 x x1 x4 x10 x2 x3 x6
      · have y1 : x.1 ≠ s.left.1 := fun h => by
          rcases edge_cases h with e | e | e
          · exact x10 e
          · exact x5 e
          · exact x7 e
        have y2 : x.1 ≠ n.1 := fun h => by
          rcases edge_cases h with e | e | e
          · exact x8 e
          · exact x3 e
          · exact x1 e
        exact ⟨co1 _ y1 y2, co1 _ y1 y2⟩
    have S3 : Shut { s.mesh with nbr := nb', corner := co' } A (lprev n :: top :: (s.left :: side :: (lnext n :: outer :: (lprev s.left :: n :: [s.base, lnext s.left, s.right])))) :=
      S2.congr (fun x => by simp only [List.mem_cons, List.not_mem_nil, or_false]; exact Iff.of_eq (by ac_rfl))
    have S4 := S3.seal na1 ta1 (by notin) (by notin) N1 N2 (by
      refine fits_mk ?_ ?_
      · show co' (lnext top) = co' (lprev (lprev n))
        rw [co1 (lnext top) htl htn, pp, C6, tf.next, pn, ha]
      · show co' (lprev top) = co' (lnext (lprev n))
        rw [co1 (lprev top) htl htn, np, C5, tf.prev, nn, n2c])
    have S5 := S4.seal G.al sa1 (by notin) (by notin) N3 N4 (by
      refine fits_mk ?_ ?_
      · show co' (lnext side) = co' (lprev s.left)
        rw [co1 (lnext side) hsl hsn, C1, sf.next, pp, n1c]
      · show co' (lprev side) = co' (lnext s.left)
        rw [co1 (lprev side) hsl hsn, C3, sf.prev, np, ha])
    have S6 := S5.seal na1 oa1 (by notin) (by notin) N5 N6 (by
      refine fits_mk ?_ ?_
      · show co' (lnext outer) = co' (lprev (lnext n))
        rw [co1 (lnext outer) hol hon, pn, C5, of.next, pn, G.l0]
      · show co' (lprev outer) = co' (lnext (lnext n))
        rw [co1 (lprev outer) hol hon, nn, C4, ocn])
    refine S6.seal G.al na1 (by notin) (by notin) ?_ ?_ ?_
    · show nb' _ = _
      rw [N7 (lprev s.left) (Ne.symm e9) (Ne.symm f3) d2 (Ne.symm g3) (Ne.symm e6) (Ne.symm h3)]
      exact hn.symm
    · show nb' _ = _
      rw [N7 n (Ne.symm d5) (Ne.symm f4) e1 (Ne.symm g4) (Ne.symm d4) (Ne.symm h4)]
      exact na3
    · refine fits_mk ?_ ?_
      · show co' (lnext n) = co' (lprev (lprev s.left))
        rw [C6, pp, C3]
      · show co' (lprev n) = co' (lnext (lprev s.left))
        rw [C4, np, C2]
  case gv =>
    intro v
    rw [G.verts v]
    constructor
    · rintro ⟨x, hx, e⟩
      have ex : ∀ y : Otri, A y.1 → co' y = s.mesh.corner x → ∃ y : Otri, A y.1 ∧ co' y = some v := fun y hy h => ⟨y, hy, h.trans e⟩
      show ∃ y : Otri, A y.1 ∧ co' y = some v
      by_cases h : x.1 = s.left.1
      · rcases edge_cases h with rfl | rfl | rfl
        · exact ex n na1 (by rw [C5, G.l0])
        · exact ex (lprev s.left) G.al (by rw [C1, G.l1])
        · rw [G.l2] at e; cases e
      · by_cases h' : x.1 = n.1
        · rcases edge_cases h' with rfl | rfl | rfl
          · exact ex (lnext s.left) G.al (by rw [C3, ha])
          · exact ex (lprev s.left) G.al (by rw [C1, n1c])
          · exact ex n na1 (by rw [C5, n2c])
        · exact ex x hx (co1 x h h')
    · rintro ⟨x, hx, e⟩
      have e : co' x = some v := e
      have ex : ∀ y : Otri, A y.1 → s.mesh.corner y = co' x → ∃ y : Otri, A y.1 ∧ s.mesh.corner y = some v := fun y hy h => ⟨y, hy, h.trans e⟩
      show ∃ y : Otri, A y.1 ∧ s.mesh.corner y = some v
      by_cases h : x.1 = s.left.1
      · rcases edge_cases h with rfl | rfl | rfl
        · rw [C2] at e; cases e
        · exact ex n na1 (by rw [C3, ha])
        · exact ex (lnext n) na1 (by rw [C1, n1c])
      · by_cases h' : x.1 = n.1
        · rcases edge_cases h' with rfl | rfl | rfl
          · exact ex s.left G.al (by rw [C5, G.l0])
          · exact ex n na1 (by rw [C6, ha])
          · rw [C4] at e; cases e
        · exact ex x hx (co1 x h h').symm
  case gf =>
    intro x hx
    have z : ∀ y : Otri, A y.1 → x ≠ y := fun y hy e => hx (e ▸ hy)
    have z1 : x.1 ≠ s.left.1 := fun h => hx (h ▸ G.al)
    have z2 : x.1 ≠ n.1 := fun h => hx (h ▸ na1)
    exact ⟨(N7 x (z _ na1) (z _ ta1) (z _ G.al) (z _ sa1) (z _ na1) (z _ oa1)).trans (G.frame x hx).1, (co1 x z1 z2).trans (G.frame x hx).2⟩

set_option maxHeartbeats 400000 in
theorem Gap.eatRight {na : Nat} (G : Gap m0 A V s ll lr ul ur) (hne : ur ≠ ll) (ha : s.mesh.corner (s.mesh.nbr (lnext s.right)) = some na) (hna : na ≠ ll) :
    Gap m0 A V { s with mesh := (s.mesh.eatRight s.right (s.mesh.nbr (lnext s.right)) s.lowerright s.upperright (some na)).1,
                        right := (s.mesh.eatRight s.right (s.mesh.nbr (lnext s.right)) s.lowerright s.upperright (some na)).2.1, upperright := some na } ll lr ul na ∧
      (s.mesh.eatRight s.right (s.mesh.nbr (lnext s.right)) s.lowerright s.upperright (some na)).2.2 =
        (s.mesh.eatRight s.right (s.mesh.nbr (lnext s.right)) s.lowerright s.upperright (some na)).1.nbr
          (lnext (s.mesh.eatRight s.right (s.mesh.nbr (lnext s.right)) s.lowerright s.upperright (some na)).2.1) ∧
      (∀ y : Otri, y.1 ≠ s.right.1 → y.1 ≠ (s.mesh.nbr (lnext s.right)).1 → (s.mesh.eatRight s.right (s.mesh.nbr (lnext s.right)) s.lowerright s.upperright (some na)).1.corner y = s.mesh.corner y) ∧
      (s.mesh.eatRight s.right (s.mesh.nbr (lnext s.right)) s.lowerright s.upperright (some na)).1.corner s.right = none ∧ (s.mesh.eatRight s.right (s.mesh.nbr (lnext s.right)) s.lowerright s.upperright (some na)).1.corner (lnext (s.mesh.nbr (lnext s.right))) = none ∧
      (s.mesh.eatRight s.right (s.mesh.nbr (lnext s.right)) s.lowerright s.upperright (some na)).1.nbr (lprev s.left) = s.mesh.nbr (lprev s.left) := by
  -- the base and the left candidate are not in the triangle of the right candidate
  have hrl : s.left.1 ≠ s.right.1 := fun h => hne (G.same h).2
  have hbl : s.base.1 ≠ s.right.1 := fun h => by
    rcases edge_cases h with e | e | e
    · exact G.base_ne_right e
    · have := G.b2; rw [e, pn, G.r0] at this; exact hne (Option.some.inj this)
    · have := G.b2; rw [e, pp, G.r2] at this; cases this
  have c2E : lnext s.right ∉ [s.base, s.left, s.right] := by
    simp only [List.mem_cons, List.not_mem_nil, or_false, not_or]
    exact ⟨fun e => hbl (by rw [← e]; rfl), fun e => hrl (by rw [← e]; rfl), next_ne⟩
  have c1E : lprev s.right ∉ [s.base, s.left, s.right] := by
    simp only [List.mem_cons, List.not_mem_nil, or_false, not_or]
    exact ⟨fun e => hbl (by rw [← e]; rfl), fun e => hrl (by rw [← e]; rfl), prev_ne⟩
  obtain ⟨na1, na2, na3, nf⟩ := G.shut (lnext s.right) G.ar c2E
  obtain ⟨oa1, oa2, oa3, of⟩ := G.shut (lprev s.right) G.ar c1E
  have hnl : (s.mesh.nbr (lnext s.right)).1 ≠ s.right.1 := fits_other G.proper (x := lnext s.right) G.ar nf
  have hol : (s.mesh.nbr (lprev s.right)).1 ≠ s.right.1 := fits_other G.proper (x := lprev s.right) G.ar of
  obtain ⟨n, hn⟩ : ∃ n, n = s.mesh.nbr (lnext s.right) := ⟨_, rfl⟩
  obtain ⟨outer, ho⟩ : ∃ n, n = s.mesh.nbr (lprev s.right) := ⟨_, rfl⟩
  rw [← hn] at na1 na2 na3 nf hnl ha ⊢
  rw [← ho] at oa1 oa2 oa3 of hol
  have n1c : s.mesh.corner (lprev n) = some lr := by rw [nf.prev, nn, G.r1]
  have n2c : s.mesh.corner (lnext n) = some ur := by rw [nf.next, pn, G.r0]
  have ocn : s.mesh.corner (lnext outer) = none := by rw [of.next, pp, G.r2]
  have noNull : ∀ y : Otri, y.1 = n.1 → s.mesh.corner y ≠ none := fun y hy e => by
    rcases edge_cases hy with rfl | rfl | rfl
    · rw [ha] at e; cases e
    · simp [n1c, n2c] at e
    · simp [n1c, n2c] at e
  have hon : outer.1 ≠ n.1 := fun h => noNull (lnext outer) h ocn
  have hrn : s.left.1 ≠ n.1 := fun h => noNull (lprev s.left) h G.l2
  have hbn : s.base.1 ≠ n.1 := fun h => by
    rcases edge_cases h with e | e | e
    · have := G.b2; rw [e, n1c] at this; exact G.ll_ne (Option.some.inj this).symm
    · have := G.b2; rw [e, pn, ha] at this; exact hna (Option.some.inj this)
    · have := G.b2; rw [e, pp, n2c] at this; exact hne (Option.some.inj this)
  have n1E : lprev n ∉ [s.base, s.left, s.right] := by
    simp only [List.mem_cons, List.not_mem_nil, or_false, not_or]
    exact ⟨fun e => hbn (by rw [← e]; rfl), fun e => hrn (by rw [← e]; rfl), fun e => hnl (by rw [← e]; rfl)⟩
  have n2E : lnext n ∉ [s.base, s.left, s.right] := by
    simp only [List.mem_cons, List.not_mem_nil, or_false, not_or]
    exact ⟨fun e => hbn (by rw [← e]; rfl), fun e => hrn (by rw [← e]; rfl), fun e => hnl (by rw [← e]; rfl)⟩
  obtain ⟨ta1, ta2, ta3, tf⟩ := G.shut (lprev n) na1 n1E
  obtain ⟨sa1, sa2, sa3, sf⟩ := G.shut (lnext n) na1 n2E
  have htn : (s.mesh.nbr (lprev n)).1 ≠ n.1 := fits_other G.proper (x := lprev n) na1 tf
  have hsn : (s.mesh.nbr (lnext n)).1 ≠ n.1 := fits_other G.proper (x := lnext n) na1 sf
  obtain ⟨top, ht⟩ : ∃ n', n' = s.mesh.nbr (lprev n) := ⟨_, rfl⟩
  obtain ⟨side, hs⟩ : ∃ n', n' = s.mesh.nbr (lnext n) := ⟨_, rfl⟩
  rw [← ht] at ta1 ta2 ta3 tf htn
  rw [← hs] at sa1 sa2 sa3 sf hsn
  simp only [List.mem_cons, List.not_mem_nil, or_false, not_or] at na2 oa2 ta2 sa2
  have htl : top.1 ≠ s.right.1 := fun h => by
    rcases (edge_cases h).imp id Or.symm with e | e | e
    · exact ta2.2.2 e
    · have := tf.prev; rw [e, pp, np, ha, G.r2] at this; cases this
    · rw [e, ← hn] at ta3; exact prev_ne ta3.symm
  have hsl : side.1 ≠ s.right.1 := fun h => by
    rcases (edge_cases h).imp id Or.symm with e | e | e
    · exact sa2.2.2 e
    · have := sf.prev; rw [e, pp, nn, n1c, G.r2] at this; cases this
    · rw [e, ← hn] at sa3; exact next_ne sa3.symm
  -- all these edges are different
  have d1 : lprev s.right ≠ s.right := prev_ne
  have d2 : lnext s.right ≠ s.right := next_ne
  have d3 : lnext s.right ≠ lprev s.right := Ne.symm prev_ne_next
  have d4 : lprev n ≠ n := prev_ne
  have d5 : lnext n ≠ n := next_ne
  have d6 : lnext n ≠ lprev n := Ne.symm prev_ne_next
  have other : ∀ {x y : Otri}, x.1 ≠ y.1 → x ≠ y := fun h e => h (by have := congrArg Prod.fst e; exact this)
  have e1 : n ≠ s.right := other hnl
  have e2 : n ≠ lprev s.right := other hnl
  have e3 : n ≠ lnext s.right := other hnl
  have e4 : lprev n ≠ s.right := other hnl
  have e5 : lprev n ≠ lprev s.right := other hnl
  have e6 : lprev n ≠ lnext s.right := other hnl
  have e7 : lnext n ≠ s.right := other hnl
  have e8 : lnext n ≠ lprev s.right := other hnl
  have e9 : lnext n ≠ lnext s.right := other hnl
  have f1 : top ≠ s.right := other htl
  have f2 : top ≠ lprev s.right := other htl
  have f3 : top ≠ lnext s.right := other htl
  have f4 : top ≠ n := other htn
  have f5 : top ≠ lprev n := other htn
  have f6 : top ≠ lnext n := other htn
  have g1 : side ≠ s.right := other hsl
  have g2 : side ≠ lprev s.right := other hsl
  have g3 : side ≠ lnext s.right := other hsl
  have g4 : side ≠ n := other hsn
  have g5 : side ≠ lprev n := other hsn
  have g6 : side ≠ lnext n := other hsn
  have h1 : outer ≠ s.right := other hol
  have h2 : outer ≠ lprev s.right := other hol
  have h3 : outer ≠ lnext s.right := other hol
  have h4 : outer ≠ n := other hon
  have h5 : outer ≠ lprev n := other hon
  have h6 : outer ≠ lnext n := other hon
  have i1 : s.base ≠ s.right := other hbl
  have i2 : s.base ≠ lprev s.right := other hbl
  have i3 : s.base ≠ lnext s.right := other hbl
  have i4 : s.base ≠ n := other hbn
  have i5 : s.base ≠ lprev n := other hbn
  have i6 : s.base ≠ lnext n := other hbn
  have j1 : s.left ≠ s.right := other hrl
  have j2 : s.left ≠ lprev s.right := other hrl
  have j3 : s.left ≠ lnext s.right := other hrl
  have j4 : s.left ≠ n := other hrn
  have j5 : s.left ≠ lprev n := other hrn
  have j6 : s.left ≠ lnext n := other hrn
  have k1 : top ≠ side := fun e => d6 (by rw [← sa3, ← e, ta3])
  have k2 : top ≠ outer := fun e => e5 (by rw [← ta3, e, oa3])
  have k3 : side ≠ outer := fun e => e8 (by rw [← sa3, e, oa3])
  have k4 : top ≠ s.base := ta2.1
  have k5 : top ≠ s.left := ta2.2.1
  have k6 : side ≠ s.base := sa2.1
  have k7 : side ≠ s.left := sa2.2.1
  have k8 : outer ≠ s.base := oa2.1
  have k9 : outer ≠ s.left := oa2.2.1
  have k0 : s.base ≠ s.left := G.base_ne_left
  -- cutting
  have S1 : Shut s.mesh A (lnext n :: side :: (lprev n :: top :: (lprev s.right :: outer :: (lnext s.right :: n :: [s.base, s.left, s.right])))) := by
    have S := (G.shut.cut (x := lnext s.right) G.ar c2E)
    rw [← hn] at S
    have S := S.cut (x := lprev s.right) G.ar (by notin)
    rw [← ho] at S
    have S := S.cut (x := lprev n) na1 (by notin)
    rw [← ht] at S
    have S := S.cut (x := lnext n) na1 (by notin)
    rw [← hs] at S
    exact S
  -- the new mesh
  have eo : ((s.mesh.bond (lnext n) top).bond s.right side).nbr (lprev s.right) = outer := by
    rw [ho]
    exact (upd4 s.mesh.nbr (a1 := lnext n) (a2 := top) (a3 := s.right) (a4 := side) (Ne.symm e8) (Ne.symm f2) d1 (Ne.symm g2))
  have eq1 : s.mesh.eatRight s.right n s.lowerright s.upperright (some na) =
      ({ s.mesh with nbr := Function.update (Function.update (Function.update (Function.update (Function.update (Function.update s.mesh.nbr (lnext n) top) top (lnext n)) s.right side) side s.right) (lprev n) outer) outer (lprev n), corner := Function.update (Function.update (Function.update (Function.update (Function.update (Function.update s.mesh.corner s.right none) (lnext s.right) (some lr)) (lprev s.right) (some na)) n (some ur)) (lnext n) none) (lprev n) (some na) }, lprev s.right, side) := by
    rw [← eo]
    unfold Heap.eatRight
    simp only [pp, nn, pn, np, Heap.sym, ← ht, ← hs]
    simp only [Heap.setdest, Heap.setorg, Heap.setapex, Heap.bond, pp, nn, pn, np, G.vlr, G.vur, G.vll, G.vul]
  rw [eq1]
  obtain ⟨N1, N2, N3, N4, N5, N6, N7⟩ := upd6 s.mesh.nbr (a1 := lnext n) (a2 := top) (a3 := s.right) (a4 := side) (a5 := lprev n) (a6 := outer)
    (v1 := top) (v2 := lnext n) (v3 := side) (v4 := s.right) (v5 := outer) (v6 := lprev n) (by nodup)
  obtain ⟨C1, C2, C3, C4, C5, C6, C7⟩ := upd6 s.mesh.corner (a1 := s.right) (a2 := lnext s.right) (a3 := lprev s.right) (a4 := n) (a5 := lnext n) (a6 := lprev n)
    (v1 := none) (v2 := some lr) (v3 := some na) (v4 := some ur) (v5 := none) (v6 := some na) (by nodup)
  obtain ⟨nb', hnb⟩ : ∃ f, f = Function.update (Function.update (Function.update (Function.update (Function.update (Function.update s.mesh.nbr (lnext n) top) top (lnext n)) s.right side) side s.right) (lprev n) outer) outer (lprev n) := ⟨_, rfl⟩
  obtain ⟨co', hco⟩ : ∃ f, f = Function.update (Function.update (Function.update (Function.update (Function.update (Function.update s.mesh.corner s.right none) (lnext s.right) (some lr)) (lprev s.right) (some na)) n (some ur)) (lnext n) none) (lprev n) (some na) := ⟨_, rfl⟩
  rw [← hnb] at N1 N2 N3 N4 N5 N6 N7 ⊢
  rw [← hco] at C1 C2 C3 C4 C5 C6 C7 ⊢
  have co1 : ∀ y : Otri, y.1 ≠ s.right.1 → y.1 ≠ n.1 → co' y = s.mesh.corner y := fun y h1 h2 =>
    C7 y (fun e => h1 (by have := congrArg Prod.fst e; exact this)) (fun e => h1 (by have := congrArg Prod.fst e; exact this)) (fun e => h1 (by have := congrArg Prod.fst e; exact this)) (fun e => h2 (by have := congrArg Prod.fst e; exact this)) (fun e => h2 (by have := congrArg Prod.fst e; exact this)) (fun e => h2 (by have := congrArg Prod.fst e; exact this))
  have keep : nb' (lprev s.left) = s.mesh.nbr (lprev s.left) := by
    refine N7 _ (fun e => hrn (by have := congrArg Prod.fst e; exact this)) (fun e => ?_) (fun e => hrl (by have := congrArg Prod.fst e; exact this)) (fun e => ?_)
      (fun e => hrn (by have := congrArg Prod.fst e; exact this)) (fun e => ?_)
    · have := tf.prev; rw [← e, pp, np, ha, G.l1] at this; exact hna (Option.some.inj this).symm
    · have := sf.prev; rw [← e, pp, nn, n1c, G.l1] at this; exact G.ll_ne (Option.some.inj this)
    · rw [← e, np, G.l0] at ocn; cases ocn
  refine ⟨?_, ?_, co1, C1, C5, keep⟩
  case refine_2 =>
    show side = nb' (lnext (lprev s.right))
    rw [np, N3]
  refine Gap.mk (dummy := G.dummy) (proper := ?gp) (shut := ?gs) (ab := G.ab) (ar := G.ar) (al := G.al) (vlr := G.vlr) (vll := G.vll) (vur := rfl) (vul := G.vul)
    (b2 := ?gb2) (b1 := ?gb1) (r0 := C3) (r1 := ?gr1) (r2 := ?gr2) (l0 := ?gl0) (l1 := ?gl1) (l2 := ?gl2) (verts := ?gv) (frame := ?gf)
  case gb2 => exact (co1 (lprev s.base) hbl hbn).trans G.b2
  case gb1 => exact (co1 (lnext s.base) hbl hbn).trans G.b1
  case gl0 => exact (co1 s.left hrl hrn).trans G.l0
  case gl1 => exact (co1 (lnext s.left) hrl hrn).trans G.l1
  case gl2 => exact (co1 (lprev s.left) hrl hrn).trans G.l2
  case gr1 =>
    show co' (lprev (lprev s.right)) = _
    rw [pp]; exact C2
  case gr2 =>
    show co' (lnext (lprev s.right)) = _
    rw [np]; exact C1
  case gp =>
    intro t ht o o' e
    have e : co' (t, o) = co' (t, o') := e
    have hnall : na ≠ lr := by
      rintro rfl
      exact G.proper.ne (x := n) (y := lprev n) na1 rfl d4 (by rw [ha, n1c])
    have hnaul : na ≠ ur := by
      rintro rfl
      exact G.proper.ne (x := n) (y := lnext n) na1 rfl d5 (by rw [ha, n2c])
    by_cases h : t = s.right.1
    · subst h
      exact proper_tri (m := { s.mesh with nbr := nb', corner := co' }) (x := s.right) (by show co' _ ≠ co' _; rw [C1, C2]; simp) (by show co' _ ≠ co' _; rw [C1, C3]; simp)
        (by show co' _ ≠ co' _; rw [C2, C3]; simpa using hnall.symm) o o' e
    · by_cases h' : t = n.1
      · subst h'
        exact proper_tri (m := { s.mesh with nbr := nb', corner := co' }) (x := n) (by show co' _ ≠ co' _; rw [C4, C5]; simp) (by show co' _ ≠ co' _; rw [C4, C6]; simpa using hnaul.symm)
          (by show co' _ ≠ co' _; rw [C5, C6]; simp) o o' e
      · rw [co1 (t, o) h h', co1 (t, o') h h'] at e
        exact G.proper t ht o o' e
  case gs =>
    have S2 : Shut { s.mesh with nbr := nb', corner := co' } A (lnext n :: side :: (lprev n :: top :: (lprev s.right :: outer :: (lnext s.right :: n :: [s.base, s.left, s.right])))) := by
      refine S1.free (fun x _ hx => ?_) (fun x _ hx => ?_) <;> simp only [List.mem_cons, List.not_mem_nil, or_false, not_or] at hx <;> obtain ⟨x1, x2, x3, x4, x5, x6, x7, x8, x9, x10, x11⟩ := hx
      · exact N7 x x1 x4 x11 x2 x3 x6
      · have y1 : x.1 ≠ s.right.1 := fun h => by
          rcases edge_cases h with e | e | e
          · exact x11 e
          · exact x7 e
          · exact x5 e
        have y2 : x.1 ≠ n.1 := fun h => by
          rcases edge_cases h with e | e | e
          · exact x8 e
          · exact x1 e
          · exact x3 e
        exact ⟨co1 _ y1 y2, co1 _ y1 y2⟩
    have S3 : Shut { s.mesh with nbr := nb', corner := co' } A (lnext n :: top :: (s.right :: side :: (lprev n :: outer :: (lnext s.right :: n :: [s.base, s.left, lprev s.right])))) :=
      S2.congr (fun x => by simp only [List.mem_cons, List.not_mem_nil, or_false]; exact Iff.of_eq (by ac_rfl))
    have S4 := S3.seal na1 ta1 (by notin) (by notin) N1 N2 (by
      refine fits_mk' ?_ ?_
      · show co' (lprev top) = co' (lnext (lnext n))
        rw [co1 (lprev top) htl htn, nn, C6, tf.prev, np, ha]
      · show co' (lnext top) = co' (lprev (lnext n))
        rw [co1 (lnext top) htl htn, pn, C4, tf.next, pp, n2c])
    have S5 := S4.seal G.ar sa1 (by notin) (by notin) N3 N4 (by
      refine fits_mk' ?_ ?_
      · show co' (lprev side) = co' (lnext s.right)
        rw [co1 (lprev side) hsl hsn, C2, sf.prev, nn, n1c]
      · show co' (lnext side) = co' (lprev s.right)
        rw [co1 (lnext side) hsl hsn, C3, sf.next, pn, ha])
    have S6 := S5.seal na1 oa1 (by notin) (by notin) N5 N6 (by
      refine fits_mk' ?_ ?_
      · show co' (lprev outer) = co' (lnext (lprev n))
        rw [co1 (lprev outer) hol hon, np, C4, of.prev, np, G.r0]
      · show co' (lnext outer) = co' (lprev (lprev n))
        rw [co1 (lnext outer) hol hon, pp, C5, ocn])
    refine S6.seal G.ar na1 (by notin) (by notin) ?_ ?_ ?_
    · show nb' _ = _
      rw [N7 (lnext s.right) (Ne.symm e9) (Ne.symm f3) d2 (Ne.symm g3) (Ne.symm e6) (Ne.symm h3)]
      exact hn.symm
    · show nb' _ = _
      rw [N7 n (Ne.symm d5) (Ne.symm f4) e1 (Ne.symm g4) (Ne.symm d4) (Ne.symm h4)]
      exact na3
    · refine fits_mk' ?_ ?_
      · show co' (lprev n) = co' (lnext (lnext s.right))
        rw [C6, nn, C3]
      · show co' (lnext n) = co' (lprev (lnext s.right))
        rw [C5, pn, C1]
  case gv =>
    intro v
    rw [G.verts v]
    constructor
    · rintro ⟨x, hx, e⟩
      have ex : ∀ y : Otri, A y.1 → co' y = s.mesh.corner x → ∃ y : Otri, A y.1 ∧ co' y = some v := fun y hy h => ⟨y, hy, h.trans e⟩
      show ∃ y : Otri, A y.1 ∧ co' y = some v
      by_cases h : x.1 = s.right.1
      · rcases edge_cases h with rfl | rfl | rfl
        · exact ex n na1 (by rw [C4, G.r0])
        · rw [G.r2] at e; cases e
        · exact ex (lnext s.right) G.ar (by rw [C2, G.r1])
      · by_cases h' : x.1 = n.1
        · rcases edge_cases h' with rfl | rfl | rfl
          · exact ex (lprev s.right) G.ar (by rw [C3, ha])
          · exact ex n na1 (by rw [C4, n2c])
          · exact ex (lnext s.right) G.ar (by rw [C2, n1c])
        · exact ex x hx (co1 x h h')
    · rintro ⟨x, hx, e⟩
      have e : co' x = some v := e
      have ex : ∀ y : Otri, A y.1 → s.mesh.corner y = co' x → ∃ y : Otri, A y.1 ∧ s.mesh.corner y = some v := fun y hy h => ⟨y, hy, h.trans e⟩
      show ∃ y : Otri, A y.1 ∧ s.mesh.corner y = some v
      by_cases h : x.1 = s.right.1
      · rcases edge_cases h with rfl | rfl | rfl
        · rw [C1] at e; cases e
        · exact ex (lprev n) na1 (by rw [C2, n1c])
        · exact ex n na1 (by rw [C3, ha])
      · by_cases h' : x.1 = n.1
        · rcases edge_cases h' with rfl | rfl | rfl
          · exact ex s.right G.ar (by rw [C4, G.r0])
          · rw [C5] at e; cases e
          · exact ex n na1 (by rw [C6, ha])
        · exact ex x hx (co1 x h h').symm
  case gf =>
    intro x hx
    have z : ∀ y : Otri, A y.1 → x ≠ y := fun y hy e => hx (e ▸ hy)
    have z1 : x.1 ≠ s.right.1 := fun h => hx (h ▸ G.ar)
    have z2 : x.1 ≠ n.1 := fun h => hx (h ▸ na1)
    exact ⟨(N7 x (z _ na1) (z _ ta1) (z _ G.ar) (z _ sa1) (z _ na1) (z _ oa1)).trans (G.frame x hx).1, (co1 x z1 z2).trans (G.frame x hx).2⟩

end Delynoi.Tri
