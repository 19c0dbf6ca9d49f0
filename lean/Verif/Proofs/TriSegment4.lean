import Verif.Proofs.TriSegment3
import Verif.Proofs.TriCarve5
/-! # `markhull` and `makevertexmap` -/
set_option linter.unusedSectionVars false
namespace Delynoi.Tri
variable {m m' : Heap} {L : Nat → Prop} {ts : List Nat}

theorem turnHull_congr (e : m'.nbr = m.nbr) : ∀ (n : Nat) (x : Otri), Carve.turnHull m' n x = Carve.turnHull m n x := by
  have eo : m'.oprev = m.oprev := by funext x; unfold Heap.oprev Heap.sym; rw [e]
  intro n
  induction n with
  | zero => intro x; rw [Carve.turnHull, Carve.turnHull, eo]
  | succ n ih => intro x; rw [Carve.turnHull, Carve.turnHull, eo]; simp only [ih]

theorem subbedAll_none (s : Segs) : SubbedAll s s L (fun _ => False) where
  nbr := rfl
  corner := rfl
  other := fun _ _ _ => rfl
  kept := fun _ h => h.elim
  new := fun _ h => h.elim
  smark := fun _ _ _ h => by obtain ⟨_, h, _⟩ := h; exact h.elim
  smark' := fun _ _ _ _ => rfl
  vmark := fun _ h => by obtain ⟨_, h, _⟩ := h; exact h.elim
  vmark' := fun _ _ => rfl

theorem subbedAll_step {s0 s s1 : Segs} {H : Otri → Prop} (hH : ∀ y, H y → L y.1) (M : SegMesh s0 L) (hcount : s0.count ≤ s.count) (hsub : ∀ y, L y.1 → (s.mesh.sub y).1 ≤ s.count)
    (A : SubbedAll s0 s L H) {x : Otri} {v w : Nat} (hd : s0.mesh.Dir L x v w) (hn : s0.mesh.nbr x = (0, 0)) (hx : ¬ H x)
    (b : Subbed s s1 L x v w 1) : SubbedAll s0 s1 L (fun y => y = x ∨ H y) := by
  have ex : s.mesh.sub x = s0.mesh.sub x := A.other x hd.1 hx
  have hoth : ∀ y, L y.1 → y ≠ x → s1.mesh.sub y = s.mesh.sub y := by
    intro y hy hne
    refine b.other y hy hne ?_
    rw [A.nbr, hn]
    rintro rfl
    exact M.linked.dummy hy
  have hmark : ∀ n, 0 < n → n ≤ s.count → s.smark n ≠ 0 → s1.smark n = s.smark n := by
    intro n h0 hn2 hne
    by_cases e : n = (s.mesh.sub x).1
    · have := (b.old (by omega)).2.2
      rw [e] at hne ⊢
      rw [this, if_neg hne]
    · exact b.smark n hn2 e
  have c1 : ∀ u, (s0.mesh.corner (x.1, x.2 + 1) = some u ∨ s0.mesh.corner (x.1, x.2 + 2) = some u) ↔ (u = v ∨ u = w) := by
    intro u
    rw [hd.2.1, hd.2.2]
    simp only [Option.some.injEq, eq_comm]
  refine ⟨b.nbr.trans A.nbr, b.corner.trans A.corner, ?_, ?_, ?_, ?_, ?_, ?_, ?_⟩
  · intro y hy h
    rw [not_or] at h
    rw [hoth y hy h.1, A.other y hy h.2]
  · intro y hy h0
    by_cases e : y = x
    · subst e
      rw [(b.old (by rw [ex]; exact h0)).1, ex]
    · have hy := hy.resolve_left e
      rw [hoth y (hH y hy) e, A.kept y hy h0]
  · intro y hy h0
    by_cases e : y = x
    · subst e
      obtain ⟨n1, n2, n3, -⟩ := b.new (by rw [ex]; exact h0)
      rw [n2]
      exact ⟨by omega, n3⟩
    · have hy := hy.resolve_left e
      obtain ⟨k1, k2⟩ := A.new y hy h0
      rw [hoth y (hH y hy) e]
      refine ⟨k1, ?_⟩
      rw [hmark _ (by omega) (hsub y (hH y hy)) (by rw [k2]; decide), k2]
  · rintro n h0 hc ⟨y, hy, e⟩ hs
    by_cases hex : ∃ y, H y ∧ (s0.mesh.sub y).1 = n
    · have := A.smark n h0 hc hex hs
      rw [hmark n h0 (by omega) (by rw [this]; decide), this]
    · have hyx : y = x := hy.resolve_right fun h => hex ⟨y, h, e⟩
      subst hyx
      have hs' := A.smark' n h0 hc (Or.inl fun y hy e => hex ⟨y, hy, e⟩)
      have := (b.old (by rw [ex]; omega)).2.2
      rw [ex, e, hs', if_pos hs] at this
      exact this
  · intro n h0 hc h
    have h' : (∀ y, H y → (s0.mesh.sub y).1 ≠ n) ∨ s0.smark n ≠ 0 := h.imp (fun h y hy => h y (Or.inr hy)) id
    have hs' := A.smark' n h0 hc h'
    rcases h with h | h
    · rw [b.smark n (by omega) (by rw [ex]; exact (h x (Or.inl rfl)).symm), hs']
    · rw [hmark n h0 (by omega) (by rw [hs']; exact h), hs']
  · rintro u ⟨y, hy, e⟩ hs
    rw [b.vmark]
    by_cases hex : ∃ y, H y ∧ (s0.mesh.corner (y.1, y.2 + 1) = some u ∨ s0.mesh.corner (y.1, y.2 + 2) = some u)
    · have := A.vmark u hex hs
      rw [if_neg (by rw [this]; simp), this]
    · have hyx : y = x := hy.resolve_right fun h => hex ⟨y, h, e⟩
      subst hyx
      have hv' := A.vmark' u (Or.inl fun y hy => not_or.1 fun e => hex ⟨y, hy, e⟩)
      rw [if_pos ⟨(c1 u).1 e, by rw [hv', hs]⟩]
  · intro u h
    have h' := A.vmark' u (h.imp (fun h y hy => h y (Or.inr hy)) id)
    rw [b.vmark, h']
    refine if_neg ?_
    rintro ⟨hu, h0⟩
    rcases h with h | h
    · have := h x (Or.inl rfl)
      rcases (c1 u).2 hu with e | e
      · exact this.1 e
      · exact this.2 e
    · exact h h0

/-- The loop. -/
theorem markLoop_spec {s0 : Segs} (M0 : SegMesh s0 L) (f : Fans s0.mesh L) (o : OneHull s0.mesh L) {hs : List Otri}
    (hhs : ∀ y, L y.1 → y ∈ hs) {turns : Nat} (hf : hs.length ≤ turns + 1) {start : Otri} :
    ∀ (fuel : Nat) (V : List Otri) (last : Otri) (s : Segs),
    Chain (Hull s0.mesh L) (nextHull s0.mesh turns) start (last :: V) last → (∀ y ∈ V, Hull s0.mesh L y) → SegMesh s L →
    SubbedAll s0 s L (· ∈ V) → s0.count ≤ s.count → hs.length ≤ fuel + V.length →
    ∃ s', markLoop start turns fuel last s = .ok s' ∧ SegMesh s' L ∧ SubbedAll s0 s' L (Hull s0.mesh L) := by
  have h := M0.linked
  intro fuel
  induction fuel with
  | zero =>
    intro V last s C hV M A hc hfu
    exfalso
    have := (List.subperm_of_subset C.nodup (fun z hz => hhs z (C.star z hz).1)).length_le
    simp only [List.length_cons] at this
    omega
  | succ fuel ih =>
    intro V last s C hV M A hc hfu
    have hl := C.star _ C.last_mem
    obtain ⟨a, ha⟩ := h.corners last.1 hl.1 (lnext last).2
    obtain ⟨v, hv⟩ := h.corners last.1 hl.1 (lprev last).2
    have hd0 : s0.mesh.Dir L last a v := ⟨hl.1, ha, hv⟩
    obtain ⟨s1, e1, M1, b1⟩ := insertsubseg_spec M ((dir_congr A.corner).2 hd0) 1
    have A1 := subbedAll_step (fun y hy => (hV y hy).1) M0 hc M.endpointed.made A hd0 hl.2 (List.nodup_cons.1 C.nodup).1 b1
    have A1 : SubbedAll s0 s1 L (· ∈ last :: V) := by simpa only [List.mem_cons] using A1
    have hc1 : s0.count ≤ s1.count := by
      by_cases h0 : (s.mesh.sub last).1 = 0
      · rw [(b1.new h0).1]; omega
      · rw [(b1.old h0).2.1]; exact hc
    obtain ⟨t1, t2, -⟩ := nextHull_spec h f hhs hf hl (v := v) hv
    rw [markLoop, e1]
    simp only [Outcome.bind_ok]
    rw [turnHull_congr (A1.nbr), t1]
    simp only [Outcome.bind_ok]
    by_cases he : nextHull s0.mesh turns last = start
    · rw [if_pos he]
      refine ⟨s1, rfl, M1, ?_⟩
      have hall : (fun z => z ∈ last :: V) = Hull s0.mesh L := by
        funext x
        refine propext ⟨fun hx => C.star x hx, fun hx => ?_⟩
        refine hull_all h f hhs hf o (S := fun z => z ∈ last :: V) ?_ (C.star _ C.first_mem) hx C.first_mem
        intro a ha
        constructor
        · intro b
          by_cases hal : a = last
          · show nextHull s0.mesh turns a ∈ _
            rw [hal, he]; exact C.first_mem
          · exact C.succ a b hal
        · intro b
          by_cases hax : nextHull s0.mesh turns a = start
          · rw [nextHull_inj h f hhs hf ha hl (hax.trans he.symm)]; exact C.last_mem
          · obtain ⟨z', b1, b2, b3⟩ := C.pred _ b hax
            rw [nextHull_inj h f hhs hf ha (C.star _ b1) b3.symm]; exact b1
      rw [← hall]
      exact A1
    · rw [if_neg he]
      have C' := C.extend (fun a b ha hb _ e => nextHull_inj h f hhs hf ha hb e) t2 he
      exact ih (last :: V) _ s1 C' (fun y hy => C.star y hy) M1 A1 hc1 (by simp; omega)

theorem markhull_spec {s : Segs} (M : SegMesh s (· ∈ ts)) (f : Fans s.mesh (· ∈ ts)) (o : OneHull s.mesh (· ∈ ts))
    (h0 : Hull s.mesh (· ∈ ts) (s.mesh.nbr (0, 0))) {fuel : Nat} (hf : 3 * ts.length ≤ fuel) :
    ∃ s', markhull fuel s = .ok s' ∧ SegMesh s' (· ∈ ts) ∧ SubbedAll s s' (· ∈ ts) (Hull s.mesh (· ∈ ts)) := by
  obtain ⟨hs, hmem, hlen⟩ := handles ts
  have hhs : ∀ y : Otri, y.1 ∈ ts → y ∈ hs := fun y hy => (hmem y).2 hy
  unfold markhull
  refine markLoop_spec M f o hhs (by omega) fuel [] _ s (Chain.single _ h0) (by simp) M ?_ (le_refl _) (by simp; omega)
  simpa using subbedAll_none s

/-- Every corner has a triangle, and vertices that are not corners keep theirs. -/
theorem makevertexmap_spec (hc : ∀ t ∈ ts, ∀ o, ∃ v, m.corner (t, o) = some v) :
    ∀ (v2t : Nat → Option Otri), ∃ v2t', makevertexmap m ts v2t = .ok v2t' ∧
      ∀ v, (∃ x, x.1 ∈ ts ∧ m.org x = some v ∧ v2t' v = some x) ∨
        ((∀ x, x.1 ∈ ts → m.org x ≠ some v) ∧ v2t' v = v2t v) := by
  induction ts with
  | nil => intro v2t; exact ⟨v2t, rfl, fun v => Or.inr ⟨by simp, rfl⟩⟩
  | cons t ts ih =>
    intro v2t
    obtain ⟨a, ha⟩ := hc t (by simp) 1
    obtain ⟨b, hb⟩ := hc t (by simp) 2
    obtain ⟨c, hc0⟩ := hc t (by simp) 0
    have o0 : m.org (t, 0) = some a := ha
    have o1 : m.org (t, 1) = some b := hb
    have o2 : m.org (t, 2) = some c := hc0
    obtain ⟨v2t', e, h⟩ := ih (fun t ht => hc t (by simp [ht]))
      (Function.update (Function.update (Function.update v2t a (some (t, 0))) b (some (t, 1))) c (some (t, 2)))
    refine ⟨v2t', by rw [makevertexmap, o0, o1, o2]; exact e, fun v => ?_⟩
    rcases h v with ⟨x, h1, h2, h3⟩ | ⟨h1, h2⟩
    · exact Or.inl ⟨x, by simp [h1], h2, h3⟩
    · by_cases vc : v = c
      · exact Or.inl ⟨(t, 2), by simp, by rw [o2, vc], by rw [h2, vc, Function.update_self]⟩
      rw [Function.update_of_ne vc] at h2
      by_cases vb : v = b
      · exact Or.inl ⟨(t, 1), by simp, by rw [o1, vb], by rw [h2, vb, Function.update_self]⟩
      rw [Function.update_of_ne vb] at h2
      by_cases va : v = a
      · exact Or.inl ⟨(t, 0), by simp, by rw [o0, va], by rw [h2, va, Function.update_self]⟩
      rw [Function.update_of_ne va] at h2
      refine Or.inr ⟨?_, h2⟩
      rintro ⟨t', o⟩ hx
      rcases List.mem_cons.1 hx with e | hx
      · have e : t' = t := e
        subst e
        rcases (by decide : ∀ o : Fin 3, o = 0 ∨ o = 1 ∨ o = 2) o with rfl | rfl | rfl
        · rw [o0]; exact fun h => va (Option.some.inj h).symm
        · rw [o1]; exact fun h => vb (Option.some.inj h).symm
        · rw [o2]; exact fun h => vc (Option.some.inj h).symm
      · exact h1 _ hx

end Delynoi.Tri
