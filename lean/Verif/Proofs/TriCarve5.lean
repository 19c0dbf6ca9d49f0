import Verif.Proofs.TriCarve4
/-! # `infecthull` -/
set_option linter.unusedSectionVars false
namespace Delynoi.Tri

variable {m : Heap} {L : Nat → Prop}

/-- The chain of clockwise turns from the first triangle of a fan. -/
theorem turnHull_spec (h : Linked m L) (f : Fans m L) {hs : List Otri} (hhs : ∀ y, L y.1 → y ∈ hs) {v : Nat}
    {x : Otri} (hx : Star m L v x) (h0 : m.onext x = (0, 0)) {turns : Nat} (hf : hs.length ≤ turns + 1) :
    ∃ V last, Chain (Star m L v) m.oprev x V last ∧ m.nbr last = (0, 0) ∧ Carve.turnHull m turns x = .ok last ∧
      ∀ y, Star m L v y → y ∈ V := by
  have noback : ∀ V2 last2, Chain (Star m L v) m.oprev x V2 last2 → Star m L v (m.oprev last2) → m.oprev last2 ≠ x := by
    intro V2 last2 C2 hs2 hx2
    have e := onext_oprev h (C2.star _ C2.last_mem).1 hs2.1
    rw [hx2, h0] at e
    have := (C2.star _ C2.last_mem).1
    rw [← e] at this; exact h.dummy this
  have key : ∀ (fuel : Nat) (V : List Otri) (last : Otri), Chain (Star m L v) m.oprev x V last →
      hs.length ≤ fuel + V.length → ∃ V' last', Chain (Star m L v) m.oprev x V' last' ∧ m.nbr last' = (0, 0) ∧
        Carve.turnHull m fuel last = .ok last' := by
    intro fuel
    induction fuel with
    | zero =>
      intro V last C hf
      rcases star_oprev h (C.star _ C.last_mem) with ⟨h1, h2⟩ | h1
      · exact ⟨V, last, C, h1, by unfold Carve.turnHull; simp [h2]⟩
      · exfalso
        have C' := C.extend (fun a b => oprev_inj h) h1 (noback _ _ C h1)
        have := (List.subperm_of_subset C'.nodup (fun z hz => hhs z (C'.star z hz).1)).length_le
        simp only [List.length_cons] at this
        omega
    | succ fuel ih =>
      intro V last C hf
      rcases star_oprev h (C.star _ C.last_mem) with ⟨h1, h2⟩ | h1
      · exact ⟨V, last, C, h1, by unfold Carve.turnHull; simp [h2]⟩
      · have C' := C.extend (fun a b => oprev_inj h) h1 (noback _ _ C h1)
        obtain ⟨V', last', C2, e2, r2⟩ := ih _ _ C' (by simp; omega)
        refine ⟨V', last', C2, e2, ?_⟩
        have hn0 : (m.oprev last).1 ≠ 0 := fun h00 => h.dummy (h00 ▸ h1.1)
        rw [Carve.turnHull, if_neg hn0]; exact r2
  obtain ⟨V, last, C, e, r⟩ := key turns [x] x (Chain.single m.oprev hx) (by simpa using hf)
  refine ⟨V, last, C, e, r, fun y hy => ?_⟩
  refine f.mem h (fun z => z ∈ V) ?_ hx hy C.first_mem
  intro a ha hfa
  constructor
  · intro b
    by_cases hax : a = x
    · rw [hax, h0] at hfa; exact absurd hfa.1 h.dummy
    · obtain ⟨z', b1, b2, b3⟩ := C.pred _ b hax
      rw [← b3, onext_oprev h (C.star _ b1).1 (b3 ▸ ha.1)]; exact b1
  · intro b
    have eo := oprev_onext h ha.1 hfa.1
    by_cases hal : m.onext a = last
    · have : m.oprev last = (0, 1) := by
        unfold Heap.oprev Heap.sym; rw [e]; rfl
      rw [hal, this] at eo
      have := ha.1; rw [← eo] at this; exact absurd this h.dummy
    · have := C.succ _ b hal
      rwa [eo] at this

/-- The next edge of the boundary. -/
def nextHull (m : Heap) (turns : Nat) (x : Otri) : Otri :=
  match Carve.turnHull m turns (lnext x) with
  | .ok y => y
  | _ => (0, 0)

section
variable (h : Linked m L) (f : Fans m L) {hs : List Otri} (hhs : ∀ y, L y.1 → y ∈ hs) {turns : Nat}
  (hf : hs.length ≤ turns + 1)
include h f hhs hf

theorem nextHull_spec {x : Otri} (hx : Hull m L x) {v : Nat} (hv : m.corner (lprev x) = some v) :
    Carve.turnHull m turns (lnext x) = .ok (nextHull m turns x) ∧ Hull m L (nextHull m turns x) ∧
    m.corner (lnext (nextHull m turns x)) = some v ∧
    (∀ y, Hull m L y → m.corner (lnext y) = some v → y = nextHull m turns x) ∧
    (∀ y, Hull m L y → m.corner (lprev y) = some v → y = x) := by
  have hs1 : Star m L v (lnext x) := ⟨hx.1, by rw [lnext_lnext]; exact hv⟩
  have h0 : m.onext (lnext x) = (0, 0) := by
    unfold Heap.onext Heap.sym; rw [lprev_lnext]; exact hx.2
  obtain ⟨V, last, C, e, r, hall⟩ := turnHull_spec h f hhs hs1 h0 hf
  have en : nextHull m turns x = last := by unfold nextHull; rw [r]
  rw [en]
  have hl := C.star _ C.last_mem
  refine ⟨r, ⟨hl.1, e⟩, hl.2, ?_, ?_⟩
  · intro y hy hyv
    by_contra hne
    have := C.star _ (C.succ y (hall y ⟨hy.1, hyv⟩) hne)
    unfold Heap.oprev Heap.sym at this
    rw [hy.2] at this
    exact h.dummy this.1
  · intro y hy hyv
    have hys : Star m L v (lnext y) := ⟨hy.1, by rw [lnext_lnext]; exact hyv⟩
    by_contra hne
    obtain ⟨z', b1, b2, b3⟩ := C.pred _ (hall _ hys) (fun hh => hne (lnext_inj hh))
    have e1 := onext_oprev h (C.star _ b1).1 (b3 ▸ hys.1)
    rw [b3] at e1
    have e2 : m.onext (lnext y) = (0, 0) := by
      unfold Heap.onext Heap.sym; rw [lprev_lnext]; exact hy.2
    rw [e2] at e1
    have := (C.star _ b1).1
    rw [← e1] at this; exact h.dummy this

theorem nextHull_inj {a b : Otri} (ha : Hull m L a) (hb : Hull m L b) (e : nextHull m turns a = nextHull m turns b) : a = b := by
  obtain ⟨v, hv⟩ := h.corners a.1 ha.1 (lprev a).2
  obtain ⟨w, hw⟩ := h.corners b.1 hb.1 (lprev b).2
  obtain ⟨-, -, a3, -, -⟩ := nextHull_spec h f hhs hf ha (v := v) hv
  obtain ⟨-, -, b3, -, b5⟩ := nextHull_spec h f hhs hf hb (v := w) hw
  rw [e, b3] at a3
  cases a3
  exact b5 a ha hv

/-- A set of boundary edges closed under `nextHull` in both directions is everything. -/
theorem hull_all (o : OneHull m L) {S : Otri → Prop} (hS : ∀ a, Hull m L a → (S a ↔ S (nextHull m turns a)))
    {x y : Otri} (hx : Hull m L x) (hy : Hull m L y) (hSx : S x) : S y := by
  have key : ∀ a b, Relation.EqvGen (fun a b : Otri => Hull m L a ∧ Hull m L b ∧
      m.corner (a.1, a.2 + 2) = m.corner (b.1, b.2 + 1)) a b → (S a ↔ S b) := by
    intro a b hab
    induction hab with
    | rel a b hab =>
      obtain ⟨ha, hb, e⟩ := hab
      obtain ⟨v, hv⟩ := h.corners a.1 ha.1 (a.2 + 2)
      obtain ⟨-, -, -, a4, -⟩ := nextHull_spec h f hhs hf ha (v := v) hv
      rw [hS a ha, a4 b hb (e.symm.trans hv)]
    | refl a => exact Iff.rfl
    | symm a b _ ih => exact ih.symm
    | trans a b c _ _ ih1 ih2 => exact ih1.trans ih2
  exact (key x y (o x y hx hy)).1 hSx

end

/-- While going around the boundary: the edges `V` have been looked at. -/
structure InvH (m : Heap) (L : Nat → Prop) (s0 : Carve) (V : List Otri) (pool : List Nat) (s : Carve) : Prop where
  eq : s = { s0 with sick := s.sick, smark := s.smark, vmark := s.vmark }
  sick : ∀ t, s.sick t = true ↔ t ∈ pool
  nodup : pool.Nodup
  mem : ∀ t, t ∈ pool ↔ ∃ x ∈ V, x.1 = t ∧ (m.sub x).1 = 0
  marked : ∀ x ∈ V, (m.sub x).1 ≠ 0 → x.1 ∉ pool → s.smark (m.sub x).1 ≠ 0 ∧
    (s0.smark (m.sub x).1 = 0 → ∀ v w, m.Dir L x v w → s.vmark v ≠ 0 ∧ s.vmark w ≠ 0)
  smarks : ∀ k, s.smark k = s0.smark k ∨ (s0.smark k = 0 ∧ s.smark k = 1 ∧ ∃ x ∈ V, (m.sub x).1 = k ∧ k ≠ 0)
  vmarks : ∀ v, s.vmark v = s0.vmark v ∨ (s0.vmark v = 0 ∧ s.vmark v = 1 ∧
    ∃ x ∈ V, (m.sub x).1 ≠ 0 ∧ ∃ w, m.Dir L x v w ∨ m.Dir L x w v)

theorem infectEdge_inv (h : Linked m L) (g : Segmented m L) {s0 s : Carve} (hm : s0.mesh = m) {V : List Otri}
    {pool : List Nat} (I : InvH m L s0 V pool s) {x : Otri} (hx : Hull m L x) (hV : ∀ y ∈ V, Hull m L y) (hxV : x ∉ V) :
    ∃ s' pool', Carve.infectEdge x s pool = .ok (s', pool') ∧ InvH m L s0 (x :: V) pool' s' := by
  have esub : s.mesh = m := by rw [I.eq]; exact hm
  have only : ∀ y ∈ V, (m.sub x).1 ≠ 0 → (m.sub y).1 ≠ (m.sub x).1 := by
    intro y hy hs e
    rcases g.same x y hx.1 (hV y hy).1 hs e.symm with rfl | rfl
    · exact hxV hy
    · have := (hV _ hy).1; rw [hx.2] at this; exact h.dummy this
  obtain ⟨v, hv⟩ := h.corners x.1 hx.1 (x.2 + 1)
  obtain ⟨w, hw⟩ := h.corners x.1 hx.1 (x.2 + 2)
  have hd : m.Dir L x v w := ⟨hx.1, hv, hw⟩
  have sm : ∀ k, (∃ y ∈ V, (m.sub y).1 = k ∧ k ≠ 0) → ∃ y ∈ x :: V, (m.sub y).1 = k ∧ k ≠ 0 :=
    fun k ⟨y, hy, e⟩ => ⟨y, List.mem_cons_of_mem _ hy, e⟩
  have vm : ∀ v, (∃ y ∈ V, (m.sub y).1 ≠ 0 ∧ ∃ w, m.Dir L y v w ∨ m.Dir L y w v) →
      ∃ y ∈ x :: V, (m.sub y).1 ≠ 0 ∧ ∃ w, m.Dir L y v w ∨ m.Dir L y w v :=
    fun k ⟨y, hy, e⟩ => ⟨y, List.mem_cons_of_mem _ hy, e⟩
  have smarks : ∀ k, s.smark k = s0.smark k ∨ (s0.smark k = 0 ∧ s.smark k = 1 ∧ ∃ y ∈ x :: V, (m.sub y).1 = k ∧ k ≠ 0) :=
    fun k => (I.smarks k).imp id (fun ⟨a, b, c⟩ => ⟨a, b, sm k c⟩)
  have vmarks : ∀ v, s.vmark v = s0.vmark v ∨ (s0.vmark v = 0 ∧ s.vmark v = 1 ∧
      ∃ y ∈ x :: V, (m.sub y).1 ≠ 0 ∧ ∃ w, m.Dir L y v w ∨ m.Dir L y w v) :=
    fun k => (I.vmarks k).imp id (fun ⟨a, b, c⟩ => ⟨a, b, vm k c⟩)
  unfold Carve.infectEdge
  by_cases hs : s.sick x.1 = true
  · rw [if_pos hs]
    have hp := (I.sick _).1 hs
    refine ⟨s, pool, rfl, I.eq, I.sick, I.nodup, ?_, ?_, smarks, vmarks⟩
    · intro t
      rw [I.mem]
      constructor
      · rintro ⟨y, hy, e⟩; exact ⟨y, List.mem_cons_of_mem _ hy, e⟩
      · rintro ⟨y, hy, e⟩
        rcases List.mem_cons.1 hy with rfl | hy
        · rw [← e.1]; exact (I.mem _).1 hp
        · exact ⟨y, hy, e⟩
    · intro y hy h1 h2
      rcases List.mem_cons.1 hy with rfl | hy
      · exact absurd hp h2
      · exact I.marked y hy h1 h2
  · rw [if_neg hs]
    have hp : x.1 ∉ pool := fun hh => hs ((I.sick _).2 hh)
    simp only [Heap.tspivot, esub]
    by_cases h0 : (m.sub x).1 = 0
    · rw [if_pos h0]
      refine ⟨_, _, rfl, ?_, ?_, ?_, ?_, ?_, smarks, vmarks⟩
      · unfold Carve.infect; conv_lhs => rw [I.eq]
      · intro t
        simp only [Carve.infect, Function.update_apply, List.mem_append, List.mem_singleton]
        split_ifs with e
        · simp [e]
        · rw [I.sick]; simp [e]
      · rw [List.nodup_append]
        refine ⟨I.nodup, by simp, ?_⟩
        intro a ha b hb
        rw [List.mem_singleton] at hb; subst hb
        rintro rfl; exact hp ha
      · intro t
        rw [List.mem_append, List.mem_singleton, I.mem]
        constructor
        · rintro (⟨y, hy, e⟩ | rfl)
          · exact ⟨y, List.mem_cons_of_mem _ hy, e⟩
          · exact ⟨x, by simp, rfl, h0⟩
        · rintro ⟨y, hy, e⟩
          rcases List.mem_cons.1 hy with rfl | hy
          · exact Or.inr e.1.symm
          · exact Or.inl ⟨y, hy, e⟩
      · intro y hy h1 h2
        rcases List.mem_cons.1 hy with rfl | hy
        · exact absurd h0 h1
        · exact I.marked y hy h1 (fun hh => h2 (by simp [hh]))
    · rw [if_neg h0]
      have poolEq : ∀ t, t ∈ pool ↔ ∃ y ∈ x :: V, y.1 = t ∧ (m.sub y).1 = 0 := by
        intro t
        rw [I.mem]
        constructor
        · rintro ⟨y, hy, e⟩; exact ⟨y, List.mem_cons_of_mem _ hy, e⟩
        · rintro ⟨y, hy, e⟩
          rcases List.mem_cons.1 hy with rfl | hy
          · exact absurd e.2 h0
          · exact ⟨y, hy, e⟩
      by_cases hk : s.smark (m.sub x).1 = 0
      · rw [if_pos hk]
        have e0 : s0.smark (m.sub x).1 = 0 := by
          rcases I.smarks (m.sub x).1 with e | ⟨e, -⟩
          · rw [← e]; exact hk
          · exact e
        have et : s.touchSeg (m.sub x).1 = { s with smark := Function.update s.smark (m.sub x).1 1 } := by
          unfold Carve.touchSeg; rw [if_pos hk]
        rw [et]
        have eorg : ({ s with smark := Function.update s.smark (m.sub x).1 1 } : Carve).mesh.org x = some v := by
          show s.mesh.corner (lnext x) = some v
          rw [esub]; exact hv
        rw [eorg]
        obtain ⟨s1, r1, e1, f1⟩ := touchVertex_some { s with smark := Function.update s.smark (m.sub x).1 1 } v
        rw [r1]
        simp only [Outcome.bind_ok]
        have edest : s1.mesh.dest x = some w := by
          rw [e1]
          show s.mesh.corner (lprev x) = some w
          rw [esub]; exact hw
        rw [edest]
        obtain ⟨s2, r2, e2, f2⟩ := touchVertex_some s1 w
        rw [r2]
        simp only [Outcome.bind_ok]
        have es1 : s1.vmark = if s.vmark v = 0 then Function.update s.vmark v 1 else s.vmark := f1
        have hvm : ∀ u, s2.vmark u = if s.vmark u = 0 ∧ (u = w ∨ u = v) then 1 else s.vmark u := by
          intro u
          rw [f2, es1]
          exact touch_two s.vmark w v u
        have nz1 : ∀ u, (u = w ∨ u = v) → s2.vmark u ≠ 0 := by
          intro u hu
          rw [hvm]
          split_ifs with c
          · decide
          · exact fun hz => c ⟨hz, hu⟩
        have nz2 : ∀ u, s.vmark u ≠ 0 → s2.vmark u ≠ 0 := by
          intro u hu
          rw [hvm, if_neg (fun c => hu c.1)]; exact hu
        have hsm : s2.smark = Function.update s.smark (m.sub x).1 1 := by rw [e2, e1]
        have hsk : s2.sick = s.sick := by rw [e2, e1]
        refine ⟨s2, pool, rfl, ?_, ?_, I.nodup, poolEq, ?_, ?_, ?_⟩
        · conv_lhs => rw [e2, e1, I.eq]
          rw [hsm, hsk]
        · rw [hsk]; exact I.sick
        · intro y hy h1 h2
          rcases List.mem_cons.1 hy with rfl | hy
          · rw [hsm]
            refine ⟨by simp, fun _ v' w' hd' => ?_⟩
            have i1 := hd.2.1.symm.trans hd'.2.1
            have i2 := hd.2.2.symm.trans hd'.2.2
            cases i1; cases i2
            exact ⟨nz1 _ (Or.inr rfl), nz1 _ (Or.inl rfl)⟩
          · obtain ⟨m1, m2⟩ := I.marked y hy h1 h2
            rw [hsm]
            refine ⟨?_, fun e v' w' hd' => ?_⟩
            · rw [Function.update_of_ne (only y hy h0)]; exact m1
            · obtain ⟨n1, n2⟩ := m2 e v' w' hd'
              exact ⟨nz2 _ n1, nz2 _ n2⟩
        · intro k
          rw [hsm]
          by_cases hkk : k = (m.sub x).1
          · subst hkk
            exact Or.inr ⟨e0, by simp, x, by simp, rfl, h0⟩
          · rw [Function.update_of_ne hkk]; exact smarks k
        · intro u
          rw [hvm]
          split_ifs with hu
          · right
            refine ⟨?_, rfl, x, by simp, h0, ?_⟩
            · rcases I.vmarks u with e | ⟨e, -⟩
              · rw [← e]; exact hu.1
              · exact e
            · rcases hu.2 with rfl | rfl
              · exact ⟨v, Or.inr hd⟩
              · exact ⟨w, Or.inl hd⟩
          · exact vmarks u
      · rw [if_neg hk]
        refine ⟨s, pool, rfl, I.eq, I.sick, I.nodup, poolEq, ?_, smarks, vmarks⟩
        intro y hy h1 h2
        rcases List.mem_cons.1 hy with rfl | hy
        · refine ⟨hk, fun e v' w' hd' => ?_⟩
          exfalso
          rcases I.smarks (m.sub y).1 with e' | ⟨-, -, z, hz, ez, -⟩
          · rw [e', e] at hk; exact hk rfl
          · exact only z hz h0 ez
        · exact I.marked y hy h1 h2

/-- The loop around the boundary. -/
theorem hullLoop_spec (h : Linked m L) (g : Segmented m L) (f : Fans m L) (o : OneHull m L) {hs : List Otri}
    (hhs : ∀ y, L y.1 → y ∈ hs) {turns : Nat} (hf : hs.length ≤ turns + 1) {s0 : Carve} (hm : s0.mesh = m)
    {start : Otri} : ∀ (fuel : Nat) (V : List Otri) (last : Otri) (pool : List Nat) (s : Carve),
    Chain (Hull m L) (nextHull m turns) start (last :: V) last → (∀ y ∈ V, Hull m L y) → InvH m L s0 V pool s →
    hs.length ≤ fuel + V.length →
    ∃ V' pool' s', Carve.hullLoop start turns fuel last s pool = .ok (s', pool') ∧ InvH m L s0 V' pool' s' ∧
      ∀ x, x ∈ V' ↔ Hull m L x := by
  intro fuel
  induction fuel with
  | zero =>
    intro V last pool s C hV I hfu
    exfalso
    have := (List.subperm_of_subset C.nodup (fun z hz => hhs z (C.star z hz).1)).length_le
    simp only [List.length_cons] at this
    omega
  | succ fuel ih =>
    intro V last pool s C hV I hfu
    have hl := C.star _ C.last_mem
    obtain ⟨s1, pool1, r1, I1⟩ := infectEdge_inv h g hm I hl hV (List.nodup_cons.1 C.nodup).1
    obtain ⟨v, hv⟩ := h.corners last.1 hl.1 (lprev last).2
    obtain ⟨t1, t2, -⟩ := nextHull_spec h f hhs hf hl (v := v) hv
    have em : s1.mesh = m := by rw [I1.eq]; exact hm
    rw [Carve.hullLoop, r1]
    simp only [Outcome.bind_ok]
    rw [em, t1]
    simp only [Outcome.bind_ok]
    by_cases he : nextHull m turns last = start
    · rw [if_pos he]
      refine ⟨_, pool1, s1, rfl, I1, fun x => ⟨fun hx => C.star x hx, fun hx => ?_⟩⟩
      refine hull_all h f hhs hf o (S := fun z => z ∈ last :: V) ?_ (C.star _ C.first_mem) hx C.first_mem
      intro a ha
      constructor
      · intro b
        by_cases hal : a = last
        · show nextHull m turns a ∈ _
          rw [hal, he]; exact C.first_mem
        · exact C.succ a b hal
      · intro b
        by_cases hax : nextHull m turns a = start
        · rw [nextHull_inj h f hhs hf ha hl (hax.trans he.symm)]; exact C.last_mem
        · obtain ⟨z', b1, b2, b3⟩ := C.pred _ b hax
          rw [nextHull_inj h f hhs hf ha (C.star _ b1) b3.symm]; exact b1
    · rw [if_neg he]
      have C' := C.extend (fun a b ha hb _ e => nextHull_inj h f hhs hf ha hb e) t2 he
      exact ih (last :: V) _ pool1 s1 C' (fun y hy => C.star y hy) I1 (by simp; omega)

/-- `infecthull` infects exactly the triangles with an unprotected edge on the boundary. -/
theorem infecthull_spec {ts : List Nat} {s : Carve} (h : Linked s.mesh (· ∈ ts)) (g : Segmented s.mesh (· ∈ ts))
    (f : Fans s.mesh (· ∈ ts)) (o : OneHull s.mesh (· ∈ ts)) (h0 : Hull s.mesh (· ∈ ts) (s.mesh.nbr (0, 0)))
    (hsick : ∀ t, s.sick t = false) {fuel : Nat} (hf : 3 * ts.length ≤ fuel) :
    ∃ V' pool' s', Carve.infecthull fuel s = .ok (s', pool') ∧ InvH s.mesh (· ∈ ts) s V' pool' s' ∧
      ∀ x, x ∈ V' ↔ Hull s.mesh (· ∈ ts) x := by
  obtain ⟨hs, hmem, hlen⟩ := handles ts
  have hhs : ∀ y : Otri, y.1 ∈ ts → y ∈ hs := fun y hy => (hmem y).2 hy
  unfold Carve.infecthull
  refine hullLoop_spec h g f o hhs (by omega) rfl fuel [] _ [] s (Chain.single _ h0) (by simp) ?_ (by simp; omega)
  exact ⟨rfl, by simp [hsick], by simp, by simp, by simp, fun k => Or.inl rfl, fun k => Or.inl rfl⟩

end Delynoi.Tri
