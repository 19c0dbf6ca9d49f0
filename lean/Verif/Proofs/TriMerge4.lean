import Verif.Proofs.TriMerge3
import Verif.Proofs.TriCarve6
import Mathlib.Tactic.Linarith
import Mathlib.Tactic.Positivity
/-!
# Knitting two triangulations together: the loops
-/
set_option linter.unusedSectionVars false
namespace Delynoi.Tri
variable {K : Type} [Field K] [LinearOrder K] [IsStrictOrderedRing K] {pos : Nat → Pt K}
variable {m m' : Heap} {A : Nat → Prop} {m0 : Heap} {V : Nat → Prop} {s : Knit} {ll lr ul ur : Nat}

/-- A point `d` in the circle through `a`, `b`, `c`, beyond the edge from `c` to `a`, is left of the edge from `a` to `b`. -/
theorem hidden_left {a b c d : Pt K} (h1 : 0 < turn c a b) (h2 : 0 < turn a c d) (h3 : 0 < incircleDet a b c d) : 0 < turn d a b := by
  by_contra hn
  have hr : 0 ≤ -turn d a b := by linarith [not_lt.mp hn]
  have hq : 0 ≤ turn a c d := h2.le
  have hs : turn d b c + -turn a c d - -turn d a b = turn c a b := by unfold turn; ring
  have hp : 0 < turn d b c := by linarith
  have key : turn d b c * incircleDet a b c d = -(turn a c d * (-turn d a b) * ((b.x - c.x) ^ 2 + (b.y - c.y) ^ 2)) -
      turn c a b * (turn a c d * ((b.x - d.x) ^ 2 + (b.y - d.y) ^ 2) + (-turn d a b) * ((c.x - d.x) ^ 2 + (c.y - d.y) ^ 2)) := by
    simp only [turn, incircleDet]; ring
  have k1 : 0 ≤ turn a c d * (-turn d a b) * ((b.x - c.x) ^ 2 + (b.y - c.y) ^ 2) := mul_nonneg (mul_nonneg hq hr) (by positivity)
  have k2 : 0 ≤ turn c a b * (turn a c d * ((b.x - d.x) ^ 2 + (b.y - d.y) ^ 2) + (-turn d a b) * ((c.x - d.x) ^ 2 + (c.y - d.y) ^ 2)) :=
    mul_nonneg h1.le (add_nonneg (mul_nonneg hq (by positivity)) (mul_nonneg hr (by positivity)))
  have k3 : 0 < turn d b c * incircleDet a b c d := mul_pos hp h3
  linarith

theorem hidden_right {a b c d : Pt K} (h1 : 0 < turn c a b) (h2 : 0 < turn c b d) (h3 : 0 < incircleDet a b c d) : 0 < turn d a b := by
  by_contra hn
  have hr : 0 ≤ -turn d a b := by linarith [not_lt.mp hn]
  have hq : 0 ≤ turn c b d := h2.le
  have hs : turn d c a + -turn c b d - -turn d a b = turn c a b := by unfold turn; ring
  have hp : 0 < turn d c a := by linarith
  have key : turn d c a * incircleDet a b c d = -(turn c b d * (-turn d a b) * ((a.x - c.x) ^ 2 + (a.y - c.y) ^ 2)) -
      turn c a b * (turn c b d * ((a.x - d.x) ^ 2 + (a.y - d.y) ^ 2) + (-turn d a b) * ((c.x - d.x) ^ 2 + (c.y - d.y) ^ 2)) := by
    simp only [turn, incircleDet]; ring
  have k1 : 0 ≤ turn c b d * (-turn d a b) * ((a.x - c.x) ^ 2 + (a.y - c.y) ^ 2) := mul_nonneg (mul_nonneg hq hr) (by positivity)
  have k2 : 0 ≤ turn c a b * (turn c b d * ((a.x - d.x) ^ 2 + (a.y - d.y) ^ 2) + (-turn d a b) * ((c.x - d.x) ^ 2 + (c.y - d.y) ^ 2)) :=
    mul_nonneg h1.le (add_nonneg (mul_nonneg hq (by positivity)) (mul_nonneg hr (by positivity)))
  have k3 : 0 < turn d c a * incircleDet a b c d := mul_pos hp h3
  linarith

theorem Upright.holes {z1 z2 : Otri} (U : Upright pos m A) (h : ∀ y : Otri, y.1 ≠ z1.1 → y.1 ≠ z2.1 → m'.corner y = m.corner y)
    (h1 : m'.corner z1 = none) (h2 : m'.corner z2 = none) : Upright pos m' A := by
  intro x hx a b c ea eb ec
  have ea : m'.corner (lnext x) = some a := ea
  have eb : m'.corner (lprev x) = some b := eb
  have all : ∀ y : Otri, y.1 = x.1 → m'.corner y ≠ none := fun y hy e => by
    rcases edge_cases hy with rfl | rfl | rfl
    · rw [ec] at e; cases e
    · rw [ea] at e; cases e
    · rw [eb] at e; cases e
  have n1 : x.1 ≠ z1.1 := fun e => all z1 e.symm h1
  have n2 : x.1 ≠ z2.1 := fun e => all z2 e.symm h2
  exact U x hx a b c ((h (lnext x) n1 n2).symm.trans ea) ((h (lprev x) n1 n2).symm.trans eb) ((h x n1 n2).symm.trans ec)

theorem Upright.one {z : Otri} {u v w : Nat} (U : Upright pos m A) (h : ∀ y : Otri, y.1 ≠ z.1 → m'.corner y = m.corner y)
    (h0 : m'.corner z = some u) (h1 : m'.corner (lnext z) = some v) (h2 : m'.corner (lprev z) = some w) (ht : 0 < turn (pos u) (pos v) (pos w)) : Upright pos m' A := by
  intro x hx a b c ea eb ec
  have ea : m'.corner (lnext x) = some a := ea
  have eb : m'.corner (lprev x) = some b := eb
  by_cases e : x.1 = z.1
  · rcases edge_cases e with rfl | rfl | rfl
    · rw [h0] at ec; rw [h1] at ea; rw [h2] at eb
      cases ea; cases eb; cases ec
      unfold turn at ht ⊢; linarith
    · rw [h1] at ec; rw [nn, h2] at ea; rw [pn, h0] at eb
      cases ea; cases eb; cases ec
      unfold turn at ht ⊢; linarith
    · rw [h2] at ec; rw [np, h0] at ea; rw [pp, h1] at eb
      cases ea; cases eb; cases ec
      exact ht
  · exact U x hx a b c ((h (lnext x) e).symm.trans ea) ((h (lprev x) e).symm.trans eb) ((h x e).symm.trans ec)

/-- The triangle behind the left candidate. -/
theorem Gap.behindLeft (G : Gap m0 A V s ll lr ul ur) (hne : ul ≠ lr) : A (s.mesh.nbr (lprev s.left)).1 ∧
    s.mesh.corner (lnext (s.mesh.nbr (lprev s.left))) = some ll ∧ s.mesh.corner (lprev (s.mesh.nbr (lprev s.left))) = some ul := by
  have hrl : s.right.1 ≠ s.left.1 := fun h => hne (G.same h.symm).1
  have hbl : s.base.1 ≠ s.left.1 := fun h => by
    rcases edge_cases h with e | e | e
    · exact G.base_ne_left e
    · have := G.b1; rw [e, nn, G.l2] at this; cases this
    · have := G.b1; rw [e, np, G.l0] at this; exact hne (Option.some.inj this)
  have c2E : lprev s.left ∉ [s.base, s.left, s.right] := by
    simp only [List.mem_cons, List.not_mem_nil, or_false, not_or]
    exact ⟨fun e => hbl (by rw [← e]; rfl), prev_ne, fun e => hrl (by rw [← e]; rfl)⟩
  obtain ⟨a, -, -, f⟩ := G.shut (lprev s.left) G.al c2E
  exact ⟨a, by rw [f.next, pp, G.l1], by rw [f.prev, np, G.l0]⟩

/-- The triangle behind the right candidate. -/
theorem Gap.behindRight (G : Gap m0 A V s ll lr ul ur) (hne : ur ≠ ll) : A (s.mesh.nbr (lnext s.right)).1 ∧
    s.mesh.corner (lprev (s.mesh.nbr (lnext s.right))) = some lr ∧ s.mesh.corner (lnext (s.mesh.nbr (lnext s.right))) = some ur := by
  have hrl : s.left.1 ≠ s.right.1 := fun h => hne (G.same h).2
  have hbl : s.base.1 ≠ s.right.1 := fun h => by
    rcases edge_cases h with e | e | e
    · exact G.base_ne_right e
    · have := G.b2; rw [e, pn, G.r0] at this; exact hne (Option.some.inj this)
    · have := G.b2; rw [e, pp, G.r2] at this; cases this
  have c2E : lnext s.right ∉ [s.base, s.left, s.right] := by
    simp only [List.mem_cons, List.not_mem_nil, or_false, not_or]
    exact ⟨fun e => hbl (by rw [← e]; rfl), fun e => hrl (by rw [← e]; rfl), next_ne⟩
  obtain ⟨a, -, -, f⟩ := G.shut (lnext s.right) G.ar c2E
  exact ⟨a, by rw [f.prev, nn, G.r1], by rw [f.next, pn, G.r0]⟩

theorem Gap.eatsLeft {ll lr ur : Nat} : ∀ (fuel : Nat) (s : Knit) (ul : Nat), Gap m0 A V s ll lr ul ur → Upright pos s.mesh A → 0 < turn (pos ul) (pos ll) (pos lr) →
    ∃ r, eatLefts pos s.lowerleft s.lowerright fuel s.mesh s.left s.upperleft (s.mesh.nbr (lprev s.left)) = .ok r ∧
      ∀ r', r = some r' → ∃ ul', 0 < turn (pos ul') (pos ll) (pos lr) ∧ Gap m0 A V { s with mesh := r'.1, left := r'.2.1, upperleft := r'.2.2 } ll lr ul' ur ∧ Upright pos r'.1 A ∧
        (∀ w, r'.1.corner (r'.1.nbr (lprev r'.2.1)) = some w → incircleDet (pos ll) (pos lr) (pos ul') (pos w) ≤ 0) ∧
        (ur ≠ ll → r'.1.corner (r'.1.nbr (lnext s.right)) = s.mesh.corner (s.mesh.nbr (lnext s.right))) := by
  intro fuel
  induction fuel with
  | zero => intro s ul G U hu; exact ⟨none, rfl, fun r' h => by cases h⟩
  | succ fuel ih =>
    intro s ul G U hu
    have hne : ul ≠ lr := by rintro rfl; simp [turn] at hu
    obtain ⟨na1, n1c, n2c⟩ := G.behindLeft hne
    cases ha : s.mesh.corner (s.mesh.nbr (lprev s.left)) with
    | none =>
      refine ⟨some (s.mesh, s.left, s.upperleft), by simp [eatLefts, Heap.apex, ha], ?_⟩
      intro r' h
      obtain rfl := Option.some.inj h
      exact ⟨ul, hu, G, U, (fun w hw => by have hw : s.mesh.corner (s.mesh.nbr (lprev s.left)) = some w := hw; rw [ha] at hw; cases hw), fun _ => rfl⟩
    | some na =>
      by_cases hd : 0 < incircleDet (pos ll) (pos lr) (pos ul) (pos na)
      · have hna' : 0 < turn (pos na) (pos ll) (pos lr) :=
          hidden_left hu (U (s.mesh.nbr (lprev s.left)) na1 ll ul na n1c n2c ha) hd
        have hna : na ≠ lr := by rintro rfl; simp [turn] at hna'
        obtain ⟨G', e, hc, z1, z2, keep⟩ := G.eatLeft hne ha hna
        have U' : Upright pos (s.mesh.eatLeft s.left (s.mesh.nbr (lprev s.left)) s.lowerleft s.upperleft (some na)).1 A :=
          U.holes (z1 := s.left) (z2 := lprev (s.mesh.nbr (lprev s.left))) hc z1 z2
        obtain ⟨r, hr, h⟩ := ih _ na G' U' hna'
        have keep' : ur ≠ ll → (s.mesh.eatLeft s.left (s.mesh.nbr (lprev s.left)) s.lowerleft s.upperleft (some na)).1.corner
            ((s.mesh.eatLeft s.left (s.mesh.nbr (lprev s.left)) s.lowerleft s.upperleft (some na)).1.nbr (lnext s.right)) = s.mesh.corner (s.mesh.nbr (lnext s.right)) := fun hr => by
          have kc := (G.behindRight hr).2.1
          rw [keep]
          refine hc _ (fun h => ?_) (fun h => ?_)
          · rcases edge_cases (x := s.left) (y := lprev (s.mesh.nbr (lnext s.right))) h with k | k | k <;> rw [k] at kc <;>
              simp only [G.l0, G.l1, G.l2, Option.some.injEq, reduceCtorEq] at kc
            · exact hne kc
            · exact G.ll_ne kc
          · rcases edge_cases (x := s.mesh.nbr (lprev s.left)) (y := lprev (s.mesh.nbr (lnext s.right))) h with k | k | k <;> rw [k] at kc <;>
              simp only [ha, n1c, n2c, Option.some.injEq] at kc
            · exact hna kc
            · exact G.ll_ne kc
            · exact hne kc
        refine ⟨r, ?_, fun r' hr' => ?_⟩
        rotate_left
        · obtain ⟨ul', p1, p2, p3, p4, p5⟩ := h r' hr'
          exact ⟨ul', p1, p2, p3, p4, fun k => (p5 k).trans (keep' k)⟩
        rw [← hr, ← e]
        simp only [eatLefts, Heap.apex, ha, incircleV, G.vll, G.vlr, G.vul, G.vur, deref, Outcome.bind_ok, if_pos hd]
        simp
      · refine ⟨some (s.mesh, s.left, s.upperleft), by simp [eatLefts, Heap.apex, ha, incircleV, G.vll, G.vlr, G.vul, G.vur, deref, hd], ?_⟩
        intro r' h
        obtain rfl := Option.some.inj h
        exact ⟨ul, hu, G, U, (fun w hw => by have hw : s.mesh.corner (s.mesh.nbr (lprev s.left)) = some w := hw; rw [ha] at hw; cases hw; exact not_lt.mp hd), fun _ => rfl⟩

theorem Gap.trimLeft (fuel : Nat) (fin : Bool) (G : Gap m0 A V s ll lr ul ur) (U : Upright pos s.mesh A) (hu : fin = false → 0 < turn (pos ul) (pos ll) (pos lr)) :
    ∃ r, s.trimLeft pos fuel fin = .ok r ∧ ∀ s', r = some s' → ∃ ul', (fin = false → 0 < turn (pos ul') (pos ll) (pos lr)) ∧ Gap m0 A V s' ll lr ul' ur ∧ Upright pos s'.mesh A ∧
      (fin = false → ∀ w, s'.mesh.corner (s'.mesh.nbr (lprev s'.left)) = some w → incircleDet (pos ll) (pos lr) (pos ul') (pos w) ≤ 0) ∧
      (ur ≠ ll → s'.mesh.corner (s'.mesh.nbr (lnext s'.right)) = s.mesh.corner (s.mesh.nbr (lnext s.right))) := by
  cases fin with
  | true =>
    refine ⟨some s, rfl, fun s' h => ?_⟩
    obtain rfl := Option.some.inj h
    exact ⟨ul, (fun h => by cases h), G, U, (fun h => by cases h), fun _ => rfl⟩
  | false =>
    obtain ⟨r, hr, h⟩ := Gap.eatsLeft fuel s ul G U (hu rfl)
    refine ⟨r.map fun r => { s with mesh := r.1, left := r.2.1, upperleft := r.2.2 }, ?_, ?_⟩
    · unfold Knit.trimLeft
      rw [if_neg (by simp)]
      simp only [Heap.sym]
      rw [hr]
      rfl
    · intro s' e
      cases r with
      | none => cases e
      | some r =>
        obtain rfl := Option.some.inj e
        obtain ⟨ul', h1, h2, h3, h4, h5⟩ := h r rfl
        exact ⟨ul', fun _ => h1, h2, h3, fun _ => h4, h5⟩

theorem Gap.eatsRight {ll lr ul : Nat} : ∀ (fuel : Nat) (s : Knit) (ur : Nat), Gap m0 A V s ll lr ul ur → Upright pos s.mesh A → 0 < turn (pos ur) (pos ll) (pos lr) →
    ∃ r, eatRights pos s.lowerleft s.lowerright fuel s.mesh s.right s.upperright (s.mesh.nbr (lnext s.right)) = .ok r ∧
      ∀ r', r = some r' → ∃ ur', 0 < turn (pos ur') (pos ll) (pos lr) ∧ Gap m0 A V { s with mesh := r'.1, right := r'.2.1, upperright := r'.2.2 } ll lr ul ur' ∧ Upright pos r'.1 A ∧
        (∀ w, r'.1.corner (r'.1.nbr (lnext r'.2.1)) = some w → incircleDet (pos ll) (pos lr) (pos ur') (pos w) ≤ 0) ∧
        (ul ≠ lr → r'.1.corner (r'.1.nbr (lprev s.left)) = s.mesh.corner (s.mesh.nbr (lprev s.left))) := by
  intro fuel
  induction fuel with
  | zero => intro s ur G U hu; exact ⟨none, rfl, fun r' h => by cases h⟩
  | succ fuel ih =>
    intro s ur G U hu
    have hne : ur ≠ ll := by rintro rfl; simp [turn] at hu
    obtain ⟨na1, n1c, n2c⟩ := G.behindRight hne
    cases ha : s.mesh.corner (s.mesh.nbr (lnext s.right)) with
    | none =>
      refine ⟨some (s.mesh, s.right, s.upperright), by simp [eatRights, Heap.apex, ha], ?_⟩
      intro r' h
      obtain rfl := Option.some.inj h
      exact ⟨ur, hu, G, U, (fun w hw => by have hw : s.mesh.corner (s.mesh.nbr (lnext s.right)) = some w := hw; rw [ha] at hw; cases hw), fun _ => rfl⟩
    | some na =>
      by_cases hd : 0 < incircleDet (pos ll) (pos lr) (pos ur) (pos na)
      · have hna' : 0 < turn (pos na) (pos ll) (pos lr) :=
          hidden_right hu (U (s.mesh.nbr (lnext s.right)) na1 ur lr na n2c n1c ha) hd
        have hna : na ≠ ll := by rintro rfl; simp [turn] at hna'
        obtain ⟨G', e, hc, z1, z2, keep⟩ := G.eatRight hne ha hna
        have U' : Upright pos (s.mesh.eatRight s.right (s.mesh.nbr (lnext s.right)) s.lowerright s.upperright (some na)).1 A :=
          U.holes (z1 := s.right) (z2 := lnext (s.mesh.nbr (lnext s.right))) hc z1 z2
        obtain ⟨r, hr, h⟩ := ih _ na G' U' hna'
        have keep' : ul ≠ lr → (s.mesh.eatRight s.right (s.mesh.nbr (lnext s.right)) s.lowerright s.upperright (some na)).1.corner
            ((s.mesh.eatRight s.right (s.mesh.nbr (lnext s.right)) s.lowerright s.upperright (some na)).1.nbr (lprev s.left)) = s.mesh.corner (s.mesh.nbr (lprev s.left)) := fun hr => by
          have kc := (G.behindLeft hr).2.1
          rw [keep]
          refine hc _ (fun h => ?_) (fun h => ?_)
          · rcases edge_cases (x := s.right) (y := lnext (s.mesh.nbr (lprev s.left))) h with k | k | k <;> rw [k] at kc <;>
              simp only [G.r0, G.r1, G.r2, Option.some.injEq, reduceCtorEq] at kc
            · exact hne kc
            · exact G.ll_ne kc.symm
          · rcases edge_cases (x := s.mesh.nbr (lnext s.right)) (y := lnext (s.mesh.nbr (lprev s.left))) h with k | k | k <;> rw [k] at kc <;>
              simp only [ha, n1c, n2c, Option.some.injEq] at kc
            · exact hna kc
            · exact hne kc
            · exact G.ll_ne kc.symm
        refine ⟨r, ?_, fun r' hr' => ?_⟩
        rotate_left
        · obtain ⟨ur', p1, p2, p3, p4, p5⟩ := h r' hr'
          exact ⟨ur', p1, p2, p3, p4, fun k => (p5 k).trans (keep' k)⟩
        rw [← hr, ← e]
        simp only [eatRights, Heap.apex, ha, incircleV, G.vlr, G.vll, G.vur, G.vul, deref, Outcome.bind_ok, if_pos hd]
        simp
      · refine ⟨some (s.mesh, s.right, s.upperright), by simp [eatRights, Heap.apex, ha, incircleV, G.vlr, G.vll, G.vur, G.vul, deref, hd], ?_⟩
        intro r' h
        obtain rfl := Option.some.inj h
        exact ⟨ur, hu, G, U, (fun w hw => by have hw : s.mesh.corner (s.mesh.nbr (lnext s.right)) = some w := hw; rw [ha] at hw; cases hw; exact not_lt.mp hd), fun _ => rfl⟩

theorem Gap.trimRight (fuel : Nat) (fin : Bool) (G : Gap m0 A V s ll lr ul ur) (U : Upright pos s.mesh A) (hu : fin = false → 0 < turn (pos ur) (pos ll) (pos lr)) :
    ∃ r, s.trimRight pos fuel fin = .ok r ∧ ∀ s', r = some s' → ∃ ur', (fin = false → 0 < turn (pos ur') (pos ll) (pos lr)) ∧ Gap m0 A V s' ll lr ul ur' ∧ Upright pos s'.mesh A ∧
      (fin = false → ∀ w, s'.mesh.corner (s'.mesh.nbr (lnext s'.right)) = some w → incircleDet (pos ll) (pos lr) (pos ur') (pos w) ≤ 0) ∧
      (ul ≠ lr → s'.mesh.corner (s'.mesh.nbr (lprev s'.left)) = s.mesh.corner (s.mesh.nbr (lprev s.left))) := by
  cases fin with
  | true =>
    refine ⟨some s, rfl, fun s' h => ?_⟩
    obtain rfl := Option.some.inj h
    exact ⟨ur, (fun h => by cases h), G, U, (fun h => by cases h), fun _ => rfl⟩
  | false =>
    obtain ⟨r, hr, h⟩ := Gap.eatsRight fuel s ur G U (hu rfl)
    refine ⟨r.map fun r => { s with mesh := r.1, right := r.2.1, upperright := r.2.2 }, ?_, ?_⟩
    · unfold Knit.trimRight
      rw [if_neg (by simp)]
      simp only [Heap.sym]
      rw [hr]
      rfl
    · intro s' e
      cases r with
      | none => cases e
      | some r =>
        obtain rfl := Option.some.inj e
        obtain ⟨ur', h1, h2, h3, h4, h5⟩ := h r rfl
        exact ⟨ur', fun _ => h1, h2, h3, fun _ => h4, h5⟩


theorem Gap.upRight (G : Gap m0 A V s ll lr ul ur) (U : Upright pos s.mesh A) (hu : 0 < turn (pos ur) (pos ll) (pos lr)) : Upright pos s.knitRight.mesh A := by
  have e : s.knitRight.mesh.corner = Function.update s.mesh.corner (lnext s.right) (some ll) := by
    rw [← pp, ← G.vll]; rfl
  refine U.one (z := s.right) (u := ur) (v := ll) (w := lr) (fun y hy => ?_) ?_ ?_ ?_ hu
  · rw [e, Function.update_of_ne (fun h => hy (by have := congrArg Prod.fst h; exact this))]
  · rw [e, Function.update_of_ne (Ne.symm next_ne)]; exact G.r0
  · rw [e, Function.update_self]
  · rw [e, Function.update_of_ne prev_ne_next]; exact G.r1

theorem Gap.upLeft (G : Gap m0 A V s ll lr ul ur) (U : Upright pos s.mesh A) (hu : 0 < turn (pos ul) (pos ll) (pos lr)) : Upright pos s.knitLeft.mesh A := by
  have e : s.knitLeft.mesh.corner = Function.update s.mesh.corner (lprev s.left) (some lr) := by
    rw [← nn, ← G.vlr]; rfl
  refine U.one (z := s.left) (u := ul) (v := ll) (w := lr) (fun y hy => ?_) ?_ ?_ ?_ hu
  · rw [e, Function.update_of_ne (fun h => hy (by have := congrArg Prod.fst h; exact this))]
  · rw [e, Function.update_of_ne (Ne.symm prev_ne)]; exact G.l0
  · rw [e, Function.update_of_ne (Ne.symm prev_ne_next)]; exact G.l1
  · rw [e, Function.update_self]

end Delynoi.Tri
