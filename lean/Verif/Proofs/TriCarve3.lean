import Verif.Proofs.TriCarve2
import Mathlib.Data.Finset.Card
import Mathlib.Data.Finset.Prod
import Mathlib.Data.Fintype.Prod
/-! # The second phase of `plague` -/
set_option linter.unusedSectionVars false
namespace Delynoi.Tri

variable {m : Heap} {L : Nat → Prop}

theorem Fans.mem (h : Linked m L) (f : Fans m L) {v : Nat} (S : Otri → Prop)
    (hS : ∀ a, Star m L v a → Star m L v (m.onext a) → (S a ↔ S (m.onext a)))
    {x y : Otri} (hx : Star m L v x) (hy : Star m L v y) (hSx : S x) : S y := by
  have dir : ∀ z, Star m L v z → ∃ w, m.Dir L z v w := by
    intro z hz
    obtain ⟨w, hw⟩ := h.corners z.1 hz.1 (z.2 + 2)
    exact ⟨w, hz.1, hz.2, hw⟩
  obtain ⟨w, hw⟩ := dir x hx
  obtain ⟨w', hw'⟩ := dir y hy
  have key : ∀ a b, Relation.EqvGen (fun a b : Otri => L a.1 ∧ L b.1 ∧ m.nbr (a.1, a.2 + 2) = b) a b →
      (Star m L v a ↔ Star m L v b) ∧ (Star m L v a → (S a ↔ S b)) := by
    intro a b hab
    induction hab with
    | rel a b hab =>
      obtain ⟨ha, hb, e⟩ := hab
      have e' : m.onext a = b := e
      have st : Star m L v a ↔ Star m L v b := by
        constructor
        · intro hh
          rcases star_onext h hh with h0 | h0
          · rw [← e', h0] at hb; exact absurd hb h.dummy
          · rw [← e']; exact h0
        · intro hh
          rcases star_oprev h hh with ⟨-, h0⟩ | h0
          · have := oprev_onext h ha (e' ▸ hb)
            rw [e', h0] at this
            rw [← this] at ha; exact absurd ha h.dummy
          · have := oprev_onext h ha (e' ▸ hb)
            rw [e'] at this
            rw [this] at h0; exact h0
      refine ⟨st, fun hh => ?_⟩
      rw [hS a hh (by rw [e']; exact st.1 hh), e']
    | refl a => exact ⟨Iff.rfl, fun _ => Iff.rfl⟩
    | symm a b _ ih => exact ⟨ih.1.symm, fun hh => (ih.2 (ih.1.2 hh)).symm⟩
    | trans a b c _ _ ih1 ih2 => exact ⟨ih1.1.trans ih2.1, fun hh => (ih1.2 hh).trans (ih2.2 (ih1.1.1 hh))⟩
  exact ((key x y (f x y v w w' hw hw')).2 hx).1 hSx

/-- Testing a vertex. -/
theorem killCorner_spec (h : Linked m L) (f : Fans m L) {v : Nat} {sB : Carve}
    (hnb : ∀ y, Star m L v y → sB.mesh.onext y = m.onext y ∧ sB.mesh.oprev y = m.oprev y)
    (hdead : ∀ y, Star m L v y → y.1 ∉ sB.dead) {hs : List Otri} (hhs : ∀ y, Star m L v y → y ∈ hs)
    {fuel : Nat} (hf : hs.length ≤ fuel + 1) {x : Otri} (hx : Star m L v x) (hsick : sB.sick x.1 = true)
    (horg : sB.mesh.org x = some v) :
    ∃ s' k, Visited sB (Star m L v) s' k ∧
      Carve.killCorner fuel x sB = .ok (if k then { s' with undead := s'.undead ++ [v] } else s') := by
  unfold Carve.killCorner
  rw [horg]
  simp only
  have W0 : Visited sB (fun z => z ∈ [x]) { sB with mesh := sB.mesh.setorg x none } true := by
    refine ⟨rfl, ?_, ?_, ?_⟩
    · rintro c ⟨z, hz, rfl, -⟩
      rw [List.mem_singleton] at hz
      subst hz; simp [Heap.setorg]
    · intro c hc
      have : c ≠ lnext x := by
        intro hh
        have := hc x (by simp) hh
        rw [this] at hsick; cases hsick
      simp [Heap.setorg, Function.update_apply, this]
    · simp [hsick]
  obtain ⟨V, last, s1, k1, C1, W1, e1, r1⟩ := walkCcw_spec h hnb hdead hhs fuel [x] x _ true
    (Chain.single m.onext hx) W0 (by simpa using hf)
  have eo : ({ sB with mesh := sB.mesh.setorg x none } : Carve).mesh.onext x = m.onext x := (hnb x hx).1
  rw [eo, r1]
  simp only [Outcome.bind_ok]
  by_cases hz : (m.onext last).1 = 0
  · have hend : m.onext last = (0, 0) := by
      rcases e1 with e1 | e1
      · exact e1
      · rw [e1] at hz; exact absurd (hz ▸ hx.1) h.dummy
    rw [if_pos hz]
    have W1' : Visited sB (fun z => z ∈ V ∨ z ∈ [x]) s1 k1 := by
      have : (fun z => z ∈ V ∨ z ∈ [x]) = fun z => z ∈ V := by
        funext z; apply propext
        constructor
        · rintro (a | a)
          · exact a
          · rw [List.mem_singleton] at a; subst a; exact C1.first_mem
        · exact Or.inl
      rw [this]; exact W1
    obtain ⟨V2, last2, s2, k2, C2, W2, e2, r2⟩ := walkCw_spec h hnb hdead hhs C1 hend fuel [x] x s1 k1
      (Chain.single m.oprev hx) W1' (by simpa using hf)
    have eo2 : s1.mesh.oprev x = m.oprev x := by
      rw [W1.eq]; exact (hnb x hx).2
    rw [eo2, r2]
    simp only [Outcome.bind_ok]
    have hall : (fun z => z ∈ V ∨ z ∈ V2) = Star m L v := by
      funext z; apply propext
      constructor
      · rintro (a | a)
        · exact C1.star _ a
        · exact C2.star _ a
      · intro hz
        refine f.mem h (fun z => z ∈ V ∨ z ∈ V2) ?_ hx hz (Or.inl C1.first_mem)
        intro a ha hfa
        constructor
        · rintro (b | b)
          · by_cases hal : a = last
            · rw [hal, hend] at hfa; exact absurd hfa.1 h.dummy
            · exact Or.inl (C1.succ _ b hal)
          · by_cases hax : a = x
            · subst hax
              by_cases hal : a = last
              · rw [hal, hend] at hfa; exact absurd hfa.1 h.dummy
              · exact Or.inl (C1.succ _ C1.first_mem hal)
            · obtain ⟨z', b1, b2, b3⟩ := C2.pred _ b hax
              rw [← b3, onext_oprev h (C2.star _ b1).1 (b3 ▸ ha.1)]; exact Or.inr b1
        · have g2 : m.onext a ∈ V2 → a ∈ V ∨ a ∈ V2 := by
            intro b
            by_cases hal : m.onext a = last2
            · rw [← hal, oprev_onext h ha.1 hfa.1] at e2
              have := ha.1; rw [e2] at this; exact absurd this h.dummy
            · have := C2.succ _ b hal
              rw [oprev_onext h ha.1 hfa.1] at this; exact Or.inr this
          rintro (b | b)
          · by_cases hax : m.onext a = x
            · exact g2 (hax ▸ C2.first_mem)
            · obtain ⟨z', b1, b2, b3⟩ := C1.pred _ b hax
              rw [onext_inj h ha (C1.star _ b1) hfa b3.symm]; exact Or.inl b1
          · exact g2 b
    refine ⟨s2, k2, hall ▸ W2, ?_⟩
    cases k2 <;> rfl
  · rw [if_neg hz]
    simp only [Outcome.bind_ok]
    have hend : m.onext last = x := by
      rcases e1 with e1 | e1
      · rw [e1] at hz; exact absurd rfl hz
      · exact e1
    have hall : (fun z => z ∈ V) = Star m L v := by
      funext z; apply propext
      constructor
      · exact fun a => C1.star _ a
      · intro hz
        refine f.mem h (fun z => z ∈ V) ?_ hx hz C1.first_mem
        intro a ha hfa
        constructor
        · intro b
          by_cases hal : a = last
          · rw [hal, hend]; exact C1.first_mem
          · exact C1.succ _ b hal
        · intro b
          by_cases hax : m.onext a = x
          · rw [onext_inj h ha (C1.star _ C1.last_mem) hfa (hax.trans hend.symm)]; exact C1.last_mem
          · obtain ⟨z', b1, b2, b3⟩ := C1.pred _ b hax
            rw [onext_inj h ha (C1.star _ b1) hfa b3.symm]; exact b1
    refine ⟨s1, k1, hall ▸ W1, ?_⟩
    cases k1 <;> rfl

/-- While triangles are deleted: `D` are the infected ones, `done` those already deleted, `X` the
edges already cut off, `T` the vertices already tested. -/
structure Inv2 (m : Heap) (L : Nat → Prop) (D : List Nat) (s1 : Carve) (R : Finset Otri) (X : Otri → Prop)
    (T : Nat → Prop) (done : List Nat) (s : Carve) : Prop where
  sick : s.sick = s1.sick
  sub : s.mesh.sub = s1.mesh.sub
  stri : s.mesh.stri = s1.mesh.stri
  smark : s.smark = s1.smark
  vmark : s.vmark = s1.vmark
  freed : s.freed = s1.freed
  dead : s.dead = done
  keep : ∀ y, L y.1 → y.1 ∉ D → s.mesh.corner y = m.corner y
  lost : ∀ y v, y.1 ∈ D → m.corner y = some v → T v → s.mesh.corner y = none
  left : ∀ y v, y.1 ∈ D → m.corner y = some v → ¬ T v → s.mesh.corner y = some v
  linked : ∀ y, L y.1 → ¬ X y → ¬ X (m.nbr y) → s.mesh.nbr y = m.nbr y
  unlinked : ∀ y, L y.1 → ¬ X y → X (m.nbr y) → s.mesh.nbr y = (0, 0)
  dummy : s.mesh.nbr (0, 0) = m.nbr (0, 0)
  tested : ∀ y v, y.1 ∈ done → m.corner y = some v → T v
  only : ∀ v, T v → ∃ y, y.1 ∈ D ∧ m.corner y = some v
  once : s.undead.Nodup
  undead : ∀ v, v ∈ s.undead ↔ T v ∧ ∀ y, L y.1 → m.corner y = some v → y.1 ∈ D
  range : ∀ y, y ∈ R ↔ L y.1 ∧ ¬ X y
  hull : s.hullsize = (R.filter (fun y => s.mesh.nbr y = (0, 0))).card

variable {D : List Nat} {s1 : Carve}

theorem Star.corner {v : Nat} {c : Otri} (hc : L c.1) (e : m.corner c = some v) : Star m L v (lprev c) :=
  ⟨hc, by rw [lnext_lprev]; exact e⟩

/-- A corner of a dying triangle. -/
theorem killCorner_inv (h : Linked m L) (f : Fans m L) {R : Finset Otri} {T : Nat → Prop} {done : List Nat}
    {s : Carve} (hDL : ∀ t ∈ D, L t) (hsick : ∀ t, s1.sick t = true ↔ t ∈ D)
    (I : Inv2 m L D s1 R (fun y => y.1 ∈ done) T done s) {hs : List Otri} (hhs : ∀ y, L y.1 → y ∈ hs)
    {fuel : Nat} (hf : hs.length ≤ fuel + 1) {x : Otri} (hx : x.1 ∈ D) (hdone : x.1 ∉ done) (h0 : 0 ∉ done) {v : Nat}
    (hv : m.corner (lnext x) = some v) :
    ∃ s', Carve.killCorner fuel x s = .ok s' ∧
      Inv2 m L D s1 R (fun y => y.1 ∈ done) (fun w => T w ∨ w = v) done s' := by
  by_cases hT : T v
  · refine ⟨s, ?_, ?_⟩
    · have : s.mesh.org x = none := I.lost (lnext x) v hx hv hT
      unfold Carve.killCorner
      rw [this]
    · have : (fun w => T w ∨ w = v) = T := by
        funext w; apply propext
        constructor
        · rintro (a | rfl)
          · exact a
          · exact hT
        · exact Or.inl
      rw [this]; exact I
  · have nd : ∀ y, Star m L v y → y.1 ∉ done := fun y hy hd => hT (I.tested (lnext y) v hd hy.2)
    have hxs : Star m L v x := ⟨hDL _ hx, hv⟩
    have hnb : ∀ y, Star m L v y → s.mesh.onext y = m.onext y ∧ s.mesh.oprev y = m.oprev y := by
      intro y hy
      constructor
      · show s.mesh.nbr (lprev y) = m.nbr (lprev y)
        refine I.linked (lprev y) hy.1 (nd y hy) ?_
        rcases star_onext h hy with e | e
        · have e' : m.nbr (lprev y) = (0, 0) := e
          rw [e']; exact h0
        · exact nd _ e
      · show lnext (s.mesh.nbr y) = lnext (m.nbr y)
        congr 1
        refine I.linked y hy.1 (nd y hy) ?_
        rcases star_oprev h hy with ⟨e, -⟩ | e
        · rw [e]; exact h0
        · exact nd (lnext (m.nbr y)) e
    obtain ⟨s', k, W, r⟩ := killCorner_spec h f hnb (fun y hy => by rw [I.dead]; exact nd y hy)
      (fun y hy => hhs y hy.1) hf hxs (by rw [I.sick, hsick]; exact hx) (I.left (lnext x) v hx hv hT)
    · refine ⟨_, r, ?_⟩
      have es : s'.sick = s.sick := by rw [W.eq]
      have base : Inv2 m L D s1 R (fun y => y.1 ∈ done) (fun w => T w ∨ w = v) done
          { s' with undead := if k then s'.undead ++ [v] else s'.undead } := by
        have eu : s'.undead = s.undead := by rw [W.eq]
        have enb : s'.mesh.nbr = s.mesh.nbr := by rw [W.eq]
        refine
          { sick := by rw [es]; exact I.sick
            sub := by show s'.mesh.sub = _; rw [W.eq]; exact I.sub
            stri := by show s'.mesh.stri = _; rw [W.eq]; exact I.stri
            smark := by show s'.smark = _; rw [W.eq]; exact I.smark
            vmark := by show s'.vmark = _; rw [W.eq]; exact I.vmark
            freed := by show s'.freed = _; rw [W.eq]; exact I.freed
            dead := by show s'.dead = _; rw [W.eq]; exact I.dead
            keep := ?_, lost := ?_, left := ?_, linked := ?_, unlinked := ?_, tested := ?_, dummy := by show s'.mesh.nbr _ = _; rw [enb]; exact I.dummy
            only := ?_, once := ?_, undead := ?_, range := I.range, hull := ?_ }
        · intro y hy hyD
          show s'.mesh.corner y = _
          rw [W.corner' y ?_]
          · exact I.keep y hy hyD
          · intro z hz hyz
            have : ¬ s.sick z.1 = true := by
              rw [I.sick, hsick]; intro hh; apply hyD; rw [hyz]; exact hh
            simpa using this
        · rintro y w hyD hyw (hT' | rfl)
          · show s'.mesh.corner y = none
            by_cases hc : ∃ z, Star m L v z ∧ y = lnext z ∧ s.sick z.1 = true
            · exact W.corner y hc
            · rw [W.corner' y ?_]
              · exact I.lost y w hyD hyw hT'
              · intro z hz hyz
                by_contra hne
                exact hc ⟨z, hz, hyz, by simpa using hne⟩
          · refine W.corner y ⟨lprev y, Star.corner (hDL _ hyD) hyw, (lnext_lprev y).symm, ?_⟩
            rw [I.sick, hsick]; exact hyD
        · intro y w hyD hyw hT'
          rw [not_or] at hT'
          show s'.mesh.corner y = _
          rw [W.corner' y ?_]
          · exact I.left y w hyD hyw hT'.1
          · intro z hz hyz
            exfalso; apply hT'.2
            rw [hyz, hz.2] at hyw; exact (Option.some.inj hyw).symm
        · intro y a b c; show s'.mesh.nbr y = _; rw [enb]; exact I.linked y a b c
        · intro y a b c; show s'.mesh.nbr y = _; rw [enb]; exact I.unlinked y a b c
        · intro y w a b; exact Or.inl (I.tested y w a b)
        · rintro w (a | rfl)
          · exact I.only w a
          · exact ⟨lnext x, hx, hv⟩
        · show (if k then s'.undead ++ [v] else s'.undead).Nodup
          rw [eu]
          split_ifs
          · rw [List.nodup_append]
            refine ⟨I.once, by simp, ?_⟩
            intro a ha b hb
            rw [List.mem_singleton] at hb; subst hb
            rintro rfl
            exact hT ((I.undead _).1 ha).1
          · exact I.once
        · intro w
          show w ∈ (if k then s'.undead ++ [v] else s'.undead) ↔ _
          rw [eu]
          have hk : k = true ↔ ∀ y, L y.1 → m.corner y = some v → y.1 ∈ D := by
            rw [W.kill]
            constructor
            · intro a y hy hyv
              have := a (lprev y) (Star.corner hy hyv)
              rw [I.sick, hsick] at this; exact this
            · intro a z hz
              rw [I.sick, hsick]; exact a (lnext z) hz.1 hz.2
          by_cases hwv : w = v
          · subst hwv
            have hnu : w ∉ s.undead := fun hh => hT ((I.undead _).1 hh).1
            by_cases hkk : k = true
            · rw [if_pos hkk]
              simp
              exact fun y z a b => hk.1 hkk (y, z) a b
            · rw [if_neg hkk]
              constructor
              · exact fun a => absurd a hnu
              · exact fun a => absurd (hk.2 a.2) hkk
          · have : w ∈ (if k then s.undead ++ [v] else s.undead) ↔ w ∈ s.undead := by
              split_ifs
              · simp [hwv]
              · rfl
            rw [this, I.undead]
            simp [hwv]
        · show s'.hullsize = ((R.filter (fun y => s'.mesh.nbr y = (0, 0))).card : Int)
          have : s'.hullsize = s.hullsize := by rw [W.eq]
          rw [this, enb]; exact I.hull
      have : (if k then { s' with undead := s'.undead ++ [v] } else s') =
          { s' with undead := if k then s'.undead ++ [v] else s'.undead } := by
        cases k <;> rfl
      rw [this]; exact base

/-- An edge of a dying triangle. -/
theorem killEdge_inv (h : Linked m L) (p : Proper m L) {R : Finset Otri} {X : Otri → Prop} {T : Nat → Prop} {done : List Nat}
    {s : Carve} (I : Inv2 m L D s1 R X T done s) {x : Otri} (hx : L x.1) (hX : ¬ X x) (hXL : ∀ y, X y → L y.1) :
    Inv2 m L D s1 (R.erase x) (fun y => X y ∨ y = x) T done (Carve.killEdge x s) := by
  have hX0 : ¬ X (0, 0) := fun hh => h.dummy (hXL _ hh)
  have back : ∀ y, L y.1 → m.nbr y = x → y = m.nbr x := by
    intro y hy e
    have : m.nbr y ≠ (0, 0) := by
      rw [e]; rintro rfl; exact h.dummy hx
    have := (h.across hy this).2.1
    rw [e] at this; exact this.symm
  have range : ∀ y, y ∈ R.erase x ↔ L y.1 ∧ ¬ (X y ∨ y = x) := by
    intro y
    rw [Finset.mem_erase, I.range, not_or]
    tauto
  have hxR : x ∈ R := (I.range x).2 ⟨hx, hX⟩
  unfold Carve.killEdge Heap.sym
  by_cases hc : m.nbr x = (0, 0) ∨ X (m.nbr x)
  · have e0 : s.mesh.nbr x = (0, 0) := by
      rcases hc with e | e
      · rw [← e]; exact I.linked x hx hX (by rw [e]; exact hX0)
      · exact I.unlinked x hx hX e
    simp only [e0, if_true]
    refine { I with linked := ?_, unlinked := ?_, range := range, hull := ?_ }
    · intro y hy h1 h2
      rw [not_or] at h1 h2
      exact I.linked y hy h1.1 h2.1
    · intro y hy h1 h2
      rw [not_or] at h1
      rcases h2 with h2 | h2
      · exact I.unlinked y hy h1.1 h2
      · have e := back y hy h2
        rcases hc with hc | hc
        · rw [e, hc] at hy; exact absurd hy h.dummy
        · rw [← e] at hc; exact absurd hc h1.1
    · show s.hullsize - 1 = _
      have hmem : x ∈ R.filter (fun y => s.mesh.nbr y = (0, 0)) := Finset.mem_filter.2 ⟨hxR, e0⟩
      rw [Finset.filter_erase, Finset.card_erase_of_mem hmem, I.hull]
      have := Finset.card_pos.2 ⟨x, hmem⟩
      omega
  · rw [not_or] at hc
    obtain ⟨hn, hXn⟩ := hc
    have e0 : s.mesh.nbr x = m.nbr x := I.linked x hx hX hXn
    obtain ⟨hnL, hback, -⟩ := h.across hx hn
    have hn0 : (m.nbr x).1 ≠ 0 := fun h0 => h.dummy (h0 ▸ hnL)
    have hne : m.nbr x ≠ x := fun hh => nbr_ne h p hx hn (by rw [hh])
    have hx0 : x ≠ (0, 0) := by rintro rfl; exact h.dummy hx
    simp only [e0, hn0, if_false]
    refine { I with dummy := ?_, linked := ?_, unlinked := ?_, range := range, hull := ?_ }
    · intro y hy h1 h2
      rw [not_or] at h1 h2
      have : y ≠ m.nbr x := by
        rintro rfl; exact h2.2 hback
      simp only [Carve.dissolve, Function.update_apply, this, if_false]
      exact I.linked y hy h1.1 h2.1
    · intro y hy h1 h2
      rw [not_or] at h1
      simp only [Carve.dissolve, Function.update_apply]
      split_ifs with hy'
      · rfl
      · rcases h2 with h2 | h2
        · exact I.unlinked y hy h1.1 h2
        · exact absurd (back y hy h2) hy'
    · simp only [Carve.dissolve]
      rw [Function.update_of_ne (fun e => hn e.symm)]; exact I.dummy
    · show s.hullsize + 1 = (((R.erase x).filter (fun y => (s.dissolve (m.nbr x)).mesh.nbr y = (0, 0))).card : Int)
      have hset : (R.erase x).filter (fun y => (s.dissolve (m.nbr x)).mesh.nbr y = (0, 0)) =
          insert (m.nbr x) (R.filter (fun y => s.mesh.nbr y = (0, 0))) := by
        ext y
        simp only [Finset.mem_filter, Finset.mem_erase, Finset.mem_insert, Carve.dissolve, Function.update_apply]
        by_cases hy : y = m.nbr x
        · subst hy
          simp only [if_true, true_or, iff_true]
          exact ⟨⟨hne, (I.range _).2 ⟨hnL, hXn⟩⟩, rfl⟩
        · simp only [hy, if_false, false_or]
          constructor
          · exact fun a => ⟨a.1.2, a.2⟩
          · rintro ⟨a, b⟩
            refine ⟨⟨?_, a⟩, b⟩
            rintro rfl
            rw [e0] at b; exact hn b
      have hnot : m.nbr x ∉ R.filter (fun y => s.mesh.nbr y = (0, 0)) := by
        rw [Finset.mem_filter, I.linked (m.nbr x) hnL hXn (by rw [hback]; exact hX), hback]
        exact fun a => hx0 a.2
      rw [hset, Finset.card_insert_of_notMem hnot, I.hull]
      push_cast; rfl

theorem fin3_cases (o : Fin 3) : o = 0 ∨ o = 1 ∨ o = 2 := by revert o; decide

/-- A dying triangle. -/
theorem killTri_inv (h : Linked m L) (p : Proper m L) (f : Fans m L) {R : Finset Otri} {T : Nat → Prop} {done : List Nat}
    {s : Carve} (hDL : ∀ t ∈ D, L t) (hsick : ∀ t, s1.sick t = true ↔ t ∈ D)
    (I : Inv2 m L D s1 R (fun y => y.1 ∈ done) T done s) {hs : List Otri} (hhs : ∀ y, L y.1 → y ∈ hs)
    {fuel : Nat} (hf : hs.length ≤ fuel + 1) {t : Nat} (ht : t ∈ D) (hdone : t ∉ done) (hdL : ∀ t ∈ done, L t) :
    ∃ s' R' T', Carve.killTri fuel t s = .ok s' ∧
      Inv2 m L D s1 R' (fun y => y.1 ∈ done ++ [t]) T' (done ++ [t]) s' := by
  have h0 : 0 ∉ done := fun hh => h.dummy (hdL _ hh)
  have hL := hDL t ht
  obtain ⟨a, ha⟩ := h.corners t hL 1
  obtain ⟨b, hb⟩ := h.corners t hL 2
  obtain ⟨c, hc⟩ := h.corners t hL 0
  obtain ⟨sa, ra, Ia⟩ := killCorner_inv h f hDL hsick I hhs hf (x := (t, 0)) ht hdone h0 (v := a) ha
  obtain ⟨sb, rb, Ib⟩ := killCorner_inv h f hDL hsick Ia hhs hf (x := (t, 1)) ht hdone h0 (v := b) hb
  obtain ⟨sc, rc, Ic⟩ := killCorner_inv h f hDL hsick Ib hhs hf (x := (t, 2)) ht hdone h0 (v := c) hc
  have I1 := killEdge_inv h p Ic (x := (t, 0)) hL hdone (fun y hy => hdL _ hy)
  have I2 := killEdge_inv h p I1 (x := (t, 1)) hL (by
    rintro (hh | hh)
    · exact hdone hh
    · exact absurd (congrArg Prod.snd hh) (by show ¬ (1 : Fin 3) = 0; decide)) (by
    rintro y (hh | rfl)
    · exact hdL _ hh
    · exact hL)
  have I3 := killEdge_inv h p I2 (x := (t, 2)) hL (by
    rintro ((hh | hh) | hh)
    · exact hdone hh
    · exact absurd (congrArg Prod.snd hh) (by show ¬ (2 : Fin 3) = 0; decide)
    · exact absurd (congrArg Prod.snd hh) (by show ¬ (2 : Fin 3) = 1; decide)) (by
    rintro y ((hh | rfl) | rfl)
    · exact hdL _ hh
    · exact hL
    · exact hL)
  have eX : (fun y : Otri => ((y.1 ∈ done ∨ y = (t, 0)) ∨ y = (t, 1)) ∨ y = (t, 2)) = fun y => y.1 ∈ done ++ [t] := by
    funext y; apply propext
    obtain ⟨u, o⟩ := y
    rw [List.mem_append, List.mem_singleton]
    constructor
    · rintro (((hh | hh) | hh) | hh)
      · exact Or.inl hh
      · exact Or.inr (congrArg Prod.fst hh)
      · exact Or.inr (congrArg Prod.fst hh)
      · exact Or.inr (congrArg Prod.fst hh)
    · rintro (hh | hh)
      · exact Or.inl (Or.inl (Or.inl hh))
      · simp only at hh; subst hh
        rcases fin3_cases o with rfl | rfl | rfl
        · exact Or.inl (Or.inl (Or.inr rfl))
        · exact Or.inl (Or.inr rfl)
        · exact Or.inr rfl
  rw [eX] at I3
  have hnd : t ∉ (Carve.killEdge (t, 2) (Carve.killEdge (t, 1) (Carve.killEdge (t, 0) sc))).dead := by
    rw [I3.dead]; exact hdone
  refine ⟨{ (Carve.killEdge (t, 2) (Carve.killEdge (t, 1) (Carve.killEdge (t, 0) sc))) with
    dead := (Carve.killEdge (t, 2) (Carve.killEdge (t, 1) (Carve.killEdge (t, 0) sc))).dead ++ [t] },
    _, _, ?_, { I3 with dead := ?_, tested := ?_ }⟩
  · unfold Carve.killTri
    rw [ra]; simp only [Outcome.bind_ok]
    rw [rb]; simp only [Outcome.bind_ok]
    rw [rc]; simp only [Outcome.bind_ok]
    unfold Carve.triangledealloc
    rw [if_neg hnd]
  · show _ ++ [t] = _
    rw [I3.dead]
  · rintro ⟨u, o⟩ v hu hv
    rw [List.mem_append, List.mem_singleton] at hu
    rcases hu with hu | hu
    · exact I3.tested (u, o) v hu hv
    · simp only at hu; subst hu
      rcases fin3_cases o with rfl | rfl | rfl
      · rw [hc] at hv; exact Or.inr (Option.some.inj hv).symm
      · rw [ha] at hv; exact Or.inl (Or.inl (Or.inr (Option.some.inj hv).symm))
      · rw [hb] at hv; exact Or.inl (Or.inr (Option.some.inj hv).symm)

/-- The second phase. -/
theorem killAll_inv (h : Linked m L) (p : Proper m L) (f : Fans m L) (hDL : ∀ t ∈ D, L t)
    (hsick : ∀ t, s1.sick t = true ↔ t ∈ D) (hnd : D.Nodup) {hs : List Otri} (hhs : ∀ y, L y.1 → y ∈ hs)
    {fuel : Nat} (hf : hs.length ≤ fuel + 1) : ∀ (pool done : List Nat) (s : Carve) (R : Finset Otri) (T : Nat → Prop),
    done ++ pool = D → Inv2 m L D s1 R (fun y => y.1 ∈ done) T done s →
    ∃ s' R' T', Carve.killAll fuel pool s = .ok s' ∧ Inv2 m L D s1 R' (fun y => y.1 ∈ D) T' D s' := by
  intro pool
  induction pool with
  | nil =>
    intro done s R T e I
    rw [List.append_nil] at e; subst e
    exact ⟨s, R, T, rfl, I⟩
  | cons t pool ih =>
    intro done s R T e I
    have ht : t ∈ D := by rw [← e]; simp
    have hd : t ∉ done := by
      rw [← e] at hnd
      rw [List.nodup_append] at hnd
      intro hh
      exact hnd.2.2 t hh t (by simp) rfl
    obtain ⟨s2, R2, T2, r, I2⟩ := killTri_inv h p f hDL hsick I hhs hf ht hd
      (fun u hu => hDL u (by rw [← e]; simp [hu]))
    obtain ⟨s3, R3, T3, r3, I3⟩ := ih (done ++ [t]) s2 R2 T2 (by rw [← e]; simp) I2
    exact ⟨s3, R3, T3, by unfold Carve.killAll; rw [r]; exact r3, I3⟩

end Delynoi.Tri
