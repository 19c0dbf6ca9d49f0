import Verif.Proofs.TriCarve
/-! # Walking around a vertex -/
set_option linter.unusedSectionVars false
namespace Delynoi.Tri

/-- `V` is a chain of `f` from `x` to `last`. -/
structure Chain (P : Otri → Prop) (f : Otri → Otri) (x : Otri) (V : List Otri) (last : Otri) : Prop where
  nodup : V.Nodup
  last_mem : last ∈ V
  first_mem : x ∈ V
  star : ∀ z ∈ V, P z
  succ : ∀ z ∈ V, z ≠ last → f z ∈ V
  pred : ∀ z ∈ V, z ≠ x → ∃ z' ∈ V, z' ≠ last ∧ f z' = z
  gen : ∀ S : Otri → Prop, S x → (∀ a, P a → S a → P (f a) → S (f a)) → ∀ z ∈ V, S z

theorem Chain.single {star : Otri → Prop} (f : Otri → Otri) {x : Otri} (hx : star x) : Chain star f x [x] x where
  nodup := by simp
  last_mem := by simp
  first_mem := by simp
  star := by simpa using hx
  succ := by
    intro z hz hne
    rw [List.mem_singleton] at hz
    exact absurd hz hne
  pred := by
    intro z hz hne
    rw [List.mem_singleton] at hz
    exact absurd hz hne
  gen := by
    intro S hS _ z hz
    rw [List.mem_singleton] at hz
    rw [hz]; exact hS

theorem Chain.extend {star : Otri → Prop} {f : Otri → Otri} {x last : Otri} {V : List Otri}
    (C : Chain star f x V last) (inj : ∀ a b, star a → star b → star (f a) → f a = f b → a = b)
    (hs : star (f last)) (hx : f last ≠ x) : Chain star f x (f last :: V) (f last) := by
  have hl := C.star _ C.last_mem
  have hnew : f last ∉ V := by
    intro hh
    obtain ⟨z', h1, h2, h3⟩ := C.pred _ hh hx
    exact h2 (inj _ _ (C.star _ h1) hl (h3 ▸ hs) h3)
  exact {
    nodup := List.nodup_cons.2 ⟨hnew, C.nodup⟩
    last_mem := by simp
    first_mem := by simp [C.first_mem]
    star := by
      intro z hz
      rcases List.mem_cons.1 hz with rfl | hz
      · exact hs
      · exact C.star _ hz
    succ := by
      intro z hz hne
      rcases List.mem_cons.1 hz with rfl | hz
      · exact absurd rfl hne
      · by_cases hzl : z = last
        · subst hzl; simp
        · exact List.mem_cons_of_mem _ (C.succ _ hz hzl)
    pred := by
      intro z hz hne
      rcases List.mem_cons.1 hz with rfl | hz
      · exact ⟨last, by simp [C.last_mem], fun hh => hnew (hh ▸ C.last_mem), rfl⟩
      · obtain ⟨z', h1, h2, h3⟩ := C.pred _ hz hne
        exact ⟨z', List.mem_cons_of_mem _ h1, fun hh => hnew (hh ▸ h1), h3⟩
    gen := by
      intro S h1 h2 z hz
      rcases List.mem_cons.1 hz with rfl | hz
      · exact h2 _ hl (C.gen S h1 h2 _ C.last_mem) hs
      · exact C.gen S h1 h2 _ hz }

/-- The triangles `W` have been visited, starting from `sB`. -/
structure Visited (sB : Carve) (W : Otri → Prop) (s : Carve) (k : Bool) : Prop where
  eq : s = { sB with mesh := { sB.mesh with corner := s.mesh.corner } }
  corner : ∀ c, (∃ z, W z ∧ c = lnext z ∧ sB.sick z.1 = true) → s.mesh.corner c = none
  corner' : ∀ c, (∀ z, W z → c = lnext z → sB.sick z.1 = false) → s.mesh.corner c = sB.mesh.corner c
  kill : k = true ↔ ∀ z, W z → sB.sick z.1 = true

theorem lnext_inj {a b : Otri} (h : lnext a = lnext b) : a = b := by
  have := congrArg lprev h
  rwa [lprev_lnext, lprev_lnext] at this

theorem Visited.visit {sB s : Carve} {W : Otri → Prop} {k : Bool} (hv : Visited sB W s k) {y : Otri}
    (hd : y.1 ∉ sB.dead) :
    ∃ s' k', Carve.visit y s k = .ok (s', k') ∧ Visited sB (fun z => W z ∨ z = y) s' k' := by
  have e1 : s.dead = sB.dead := by rw [hv.eq]
  have e2 : s.sick = sB.sick := by rw [hv.eq]
  unfold Carve.visit
  rw [e1, if_neg hd, e2]
  by_cases hs : sB.sick y.1 = true
  · rw [if_pos hs]
    refine ⟨_, _, rfl, ?_, ?_, ?_, ?_⟩
    · conv_lhs => rw [hv.eq]
      rfl
    · rintro c ⟨z, hz | rfl, rfl, hk⟩
      · simp only [Heap.setorg, Function.update_apply]
        split_ifs
        · rfl
        · exact hv.corner _ ⟨z, hz, rfl, hk⟩
      · simp [Heap.setorg]
    · intro c hc
      have hcy : c ≠ lnext y := by
        intro hh
        have := hc y (Or.inr rfl) hh
        rw [this] at hs; cases hs
      simp only [Heap.setorg, Function.update_apply, hcy, if_false]
      exact hv.corner' c (fun z hz => hc z (Or.inl hz))
    · rw [hv.kill]
      constructor
      · rintro a z (hz | rfl)
        · exact a z hz
        · exact hs
      · exact fun a z hz => a z (Or.inl hz)
  · rw [if_neg hs]
    have hs' : sB.sick y.1 = false := by simpa using hs
    refine ⟨_, _, rfl, hv.eq, ?_, ?_, ?_⟩
    · rintro c ⟨z, hz | rfl, rfl, hk⟩
      · exact hv.corner _ ⟨z, hz, rfl, hk⟩
      · exact absurd hk hs
    · exact fun c hc => hv.corner' c (fun z hz => hc z (Or.inl hz))
    · simp only [Bool.false_eq_true, false_iff, not_forall]
      exact ⟨y, Or.inr rfl, hs⟩

section
variable {m : Heap} {L : Nat → Prop} (h : Linked m L) {v : Nat}

/-- The handles at a vertex. -/
def Star (m : Heap) (L : Nat → Prop) (v : Nat) (y : Otri) : Prop := L y.1 ∧ m.corner (lnext y) = some v

include h
theorem star_onext {y : Otri} (hy : Star m L v y) : m.onext y = (0, 0) ∨ Star m L v (m.onext y) := by
  unfold Heap.onext Heap.sym
  rcases h.links (lprev y) hy.1 with h0 | ⟨a, b, k1, k2⟩
  · exact Or.inl h0
  · right
    rw [dir_iff] at k1 k2
    obtain ⟨-, -, k1⟩ := k1
    rw [lprev_lprev, hy.2] at k1
    cases k1
    exact ⟨k2.1, k2.2.1⟩

theorem star_oprev {y : Otri} (hy : Star m L v y) : (m.nbr y = (0, 0) ∧ m.oprev y = (0, 1)) ∨ Star m L v (m.oprev y) := by
  unfold Heap.oprev Heap.sym
  rcases h.links y hy.1 with h0 | ⟨a, b, k1, k2⟩
  · exact Or.inl ⟨h0, by rw [h0]; rfl⟩
  · right
    rw [dir_iff] at k1 k2
    obtain ⟨-, k1, -⟩ := k1
    rw [hy.2] at k1
    cases k1
    refine ⟨k2.1, ?_⟩
    rw [lnext_lnext]; exact k2.2.2

theorem onext_oprev {y : Otri} (hy : L y.1) (hn : L (m.oprev y).1) : m.onext (m.oprev y) = y := by
  unfold Heap.oprev Heap.onext Heap.sym at *
  rw [lprev_lnext]
  have : m.nbr y ≠ (0, 0) := by
    intro h0; rw [h0] at hn; exact h.dummy hn
  exact (h.across hy this).2.1

theorem oprev_onext {y : Otri} (hy : L y.1) (hn : L (m.onext y).1) : m.oprev (m.onext y) = y := by
  unfold Heap.oprev Heap.onext Heap.sym at *
  have : m.nbr (lprev y) ≠ (0, 0) := by
    intro h0; rw [h0] at hn; exact h.dummy hn
  rw [(h.across (x := lprev y) hy this).2.1, lnext_lprev]

theorem onext_inj {a b : Otri} (ha : Star m L v a) (hb : Star m L v b) (hs : Star m L v (m.onext a))
    (e : m.onext a = m.onext b) : a = b := by
  rw [← oprev_onext h ha.1 hs.1, e, oprev_onext h hb.1 (e ▸ hs.1)]

theorem oprev_inj {a b : Otri} (ha : Star m L v a) (hb : Star m L v b) (hs : Star m L v (m.oprev a))
    (e : m.oprev a = m.oprev b) : a = b := by
  rw [← onext_oprev h ha.1 hs.1, e, onext_oprev h hb.1 (e ▸ hs.1)]

variable {sB : Carve} (hnb : ∀ y, Star m L v y → sB.mesh.onext y = m.onext y ∧ sB.mesh.oprev y = m.oprev y)
  (hdead : ∀ y, Star m L v y → y.1 ∉ sB.dead) {hs : List Otri} (hhs : ∀ y, Star m L v y → y ∈ hs)
include hnb hdead hhs

theorem walkCcw_spec {x : Otri} : ∀ (fuel : Nat) (V : List Otri) (last : Otri) (s : Carve) (k : Bool),
    Chain (Star m L v) m.onext x V last → Visited sB (fun z => z ∈ V) s k → hs.length ≤ fuel + V.length →
    ∃ V' last' s' k', Chain (Star m L v) m.onext x V' last' ∧ Visited sB (fun z => z ∈ V') s' k' ∧
      (m.onext last' = (0, 0) ∨ m.onext last' = x) ∧
      Carve.walkCcw x fuel (m.onext last) s k = .ok (s', k', m.onext last') := by
  intro fuel
  induction fuel with
  | zero =>
    intro V last s k C W hf
    have hl := C.star _ C.last_mem
    rcases star_onext h hl with h0 | h0
    · exact ⟨V, last, s, k, C, W, Or.inl h0, by unfold Carve.walkCcw; simp [h0]⟩
    · by_cases hx : m.onext last = x
      · exact ⟨V, last, s, k, C, W, Or.inr hx, by unfold Carve.walkCcw; simp [hx]⟩
      · exfalso
        have C' := C.extend (fun a b => onext_inj h) h0 hx
        have := (List.subperm_of_subset C'.nodup (fun z hz => hhs z (C'.star z hz))).length_le
        simp only [List.length_cons] at this
        omega
  | succ fuel ih =>
    intro V last s k C W hf
    have hl := C.star _ C.last_mem
    rcases star_onext h hl with h0 | h0
    · exact ⟨V, last, s, k, C, W, Or.inl h0, by unfold Carve.walkCcw; simp [h0]⟩
    · by_cases hx : m.onext last = x
      · exact ⟨V, last, s, k, C, W, Or.inr hx, by unfold Carve.walkCcw; simp [hx]⟩
      · have C' := C.extend (fun a b => onext_inj h) h0 hx
        obtain ⟨s1, k1, e1, W1⟩ := W.visit (hdead _ h0)
        have W2 : Visited sB (fun z => z ∈ m.onext last :: V) s1 k1 := by
          have : (fun z => z ∈ V ∨ z = m.onext last) = fun z => z ∈ m.onext last :: V := by
            funext z; apply propext; rw [List.mem_cons]; exact or_comm
          rw [this] at W1; exact W1
        obtain ⟨V', last', s', k', C3, W3, r3, e3⟩ := ih _ _ s1 k1 C' W2 (by simp; omega)
        refine ⟨V', last', s', k', C3, W3, r3, ?_⟩
        have hn0 : (m.onext last).1 ≠ 0 := fun h00 => h.dummy (h00 ▸ h0.1)
        rw [Carve.walkCcw, if_neg (by simp [hn0, hx])]
        simp only [e1, Outcome.bind_ok]
        have : s1.mesh.onext (m.onext last) = m.onext (m.onext last) := by
          rw [W1.eq]; exact (hnb _ h0).1
        rw [this]; exact e3

/-- The clockwise walk, when the other one has come to the boundary. -/
theorem walkCw_spec {x : Otri} {V : List Otri} {last : Otri} (C0 : Chain (Star m L v) m.onext x V last)
    (hend : m.onext last = (0, 0)) : ∀ (fuel : Nat) (V2 : List Otri) (last2 : Otri) (s : Carve) (k : Bool),
    Chain (Star m L v) m.oprev x V2 last2 → Visited sB (fun z => z ∈ V ∨ z ∈ V2) s k → hs.length ≤ fuel + V2.length →
    ∃ V' last' s' k', Chain (Star m L v) m.oprev x V' last' ∧ Visited sB (fun z => z ∈ V ∨ z ∈ V') s' k' ∧
      (m.oprev last').1 = 0 ∧ Carve.walkCw fuel (m.oprev last2) s k = .ok (s', k') := by
  -- the walk does not come back
  have noback : ∀ V2 last2, Chain (Star m L v) m.oprev x V2 last2 → Star m L v (m.oprev last2) → m.oprev last2 ≠ x := by
    intro V2 last2 C2 h0 hx
    have hsub : ∀ z ∈ V, z ∈ V2 := by
      refine C0.gen (fun z => z ∈ V2) C2.first_mem ?_
      intro a ha haV hfa
      by_cases hax : a = x
      · rw [hax, ← hx, onext_oprev h (C2.star _ C2.last_mem).1 h0.1]; exact C2.last_mem
      · obtain ⟨z', b1, b2, b3⟩ := C2.pred a haV hax
        rw [← b3, onext_oprev h (C2.star _ b1).1 (b3 ▸ ha.1)]; exact b1
    have hlV2 := hsub _ C0.last_mem
    have hl := C0.star _ C0.last_mem
    by_cases hax : last = x
    · rw [hax, ← hx, onext_oprev h (C2.star _ C2.last_mem).1 h0.1] at hend
      have := (C2.star _ C2.last_mem).1
      rw [hend] at this; exact h.dummy this
    · obtain ⟨z', b1, b2, b3⟩ := C2.pred last hlV2 hax
      rw [← b3, onext_oprev h (C2.star _ b1).1 (b3 ▸ hl.1)] at hend
      have := (C2.star _ b1).1
      rw [hend] at this; exact h.dummy this
  intro fuel
  induction fuel with
  | zero =>
    intro V2 last2 s k C W hf
    have hl := C.star _ C.last_mem
    rcases star_oprev h hl with ⟨-, h0⟩ | h0
    · exact ⟨V2, last2, s, k, C, W, by rw [h0], by unfold Carve.walkCw; simp [h0]⟩
    · exfalso
      have C' := C.extend (fun a b => oprev_inj h) h0 (noback _ _ C h0)
      have := (List.subperm_of_subset C'.nodup (fun z hz => hhs z (C'.star z hz))).length_le
      simp only [List.length_cons] at this
      omega
  | succ fuel ih =>
    intro V2 last2 s k C W hf
    have hl := C.star _ C.last_mem
    rcases star_oprev h hl with ⟨-, h0⟩ | h0
    · exact ⟨V2, last2, s, k, C, W, by rw [h0], by unfold Carve.walkCw; simp [h0]⟩
    · have C' := C.extend (fun a b => oprev_inj h) h0 (noback _ _ C h0)
      obtain ⟨s1, k1, e1, W1⟩ := W.visit (hdead _ h0)
      have W2 : Visited sB (fun z => z ∈ V ∨ z ∈ m.oprev last2 :: V2) s1 k1 := by
        have : (fun z => (z ∈ V ∨ z ∈ V2) ∨ z = m.oprev last2) = fun z => z ∈ V ∨ z ∈ m.oprev last2 :: V2 := by
          funext z; apply propext; rw [List.mem_cons, or_assoc]; exact or_congr_right or_comm
        rw [this] at W1; exact W1
      obtain ⟨V', last', s', k', C3, W3, r3, e3⟩ := ih _ _ s1 k1 C' W2 (by simp; omega)
      refine ⟨V', last', s', k', C3, W3, r3, ?_⟩
      have hn0 : (m.oprev last2).1 ≠ 0 := fun h00 => h.dummy (h00 ▸ h0.1)
      rw [Carve.walkCw, if_neg hn0]
      simp only [e1, Outcome.bind_ok]
      have : s1.mesh.oprev (m.oprev last2) = m.oprev (m.oprev last2) := by
        rw [W1.eq]; exact (hnb _ h0).2
      rw [this]; exact e3
end
end Delynoi.Tri
