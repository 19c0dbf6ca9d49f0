import Verif.Model.TriGhost
import Verif.Spec.TriGhost
import Verif.Model.Outcome
import Mathlib.Tactic.Common
import Mathlib.Data.Set.Card
/-!
# The removal of the bounding triangles
-/
set_option linter.unusedSectionVars false
namespace Delynoi.Tri

theorem touchVertex_ok (s : Carve) (v : Nat) : ∃ s', s.touchVertex (some v) = .ok s' ∧ s'.mesh = s.mesh ∧ s'.dead = s.dead ∧
    s' = { s with vmark := s'.vmark } ∧ (∀ w, w ≠ v → s'.vmark w = s.vmark w) ∧ s'.vmark v = if s.vmark v = 0 then 1 else s.vmark v := by
  unfold Carve.touchVertex
  by_cases h : s.vmark v = 0
  · refine ⟨{ s with vmark := Function.update s.vmark v 1 }, by simp only [h, if_true], rfl, rfl, rfl, fun w hw => ?_, ?_⟩
    · exact Function.update_of_ne hw _ _
    · simp [h]
  · exact ⟨s, by simp only [if_neg h], rfl, rfl, rfl, fun _ _ => rfl, by simp [h]⟩

/-- The state after the bounding triangles `done` have been removed. -/
structure Removed (m : Heap) (s0 : Carve) (poly : Bool) (g0 : Otri) (done : List Otri) (s : Carve) : Prop where
  dead : s.dead = done.map Prod.fst
  cut : ∀ g ∈ done, s.mesh.nbr (m.nbr (lprev g)) = (0, 0)
  keep : ∀ y : Otri, y ≠ (0, 0) → (∀ g ∈ done, m.nbr (lprev g) ≠ y) → s.mesh.nbr y = m.nbr y
  dummy : s.mesh.nbr (0, 0) = m.nbr (lprev g0)
  same : s = { s0 with mesh := { s0.mesh with nbr := s.mesh.nbr }, dead := s.dead, vmark := s.vmark }
  marked : poly = false → ∀ g ∈ done, ∀ v, m.corner (lnext g) = some v → s.vmark v = if s0.vmark v = 0 then 1 else s0.vmark v
  unmarked : ∀ v, (poly = true ∨ ∀ g ∈ done, m.corner (lnext g) ≠ some v) → s.vmark v = s0.vmark v

section
variable {m : Heap} {ts : List Nat} {gs : List Otri}

theorem lprev_ghost {x : Otri} : lprev (lprev x) = lnext x := by
  rcases x with ⟨t, o⟩
  exact Prod.ext rfl ((by decide : ∀ o : Fin 3, o + 2 + 2 = o + 1) o)

theorem lnext_lprev' {x : Otri} : lnext (lprev x) = x := by
  rcases x with ⟨t, o⟩
  exact Prod.ext rfl ((by decide : ∀ o : Fin 3, o + 2 + 1 = o) o)

theorem ghost_mem {g : Otri} (h : g ∈ gs) : g.1 ∈ gs.map Prod.fst ++ ts := List.mem_append_left _ (List.mem_map_of_mem h)

theorem ghost_unique (G : Ghosted m ts gs) {g h : Otri} (hg : g ∈ gs) (hh : h ∈ gs) (e : g.1 = h.1) : g = h := by
  have := List.inj_on_of_nodup_map (List.nodup_append.mp G.nodup).1 hg hh e
  exact this

theorem ghost_not_real (G : Ghosted m ts gs) {g : Otri} (hg : g ∈ gs) : g.1 ∉ ts := fun h =>
  (List.nodup_append.mp G.nodup).2.2 g.1 (List.mem_map_of_mem hg) g.1 h rfl

/-- The origin of the edge on the inner side is where the edge to NULL starts. -/
theorem base_org (G : Ghosted m ts gs) {g : Otri} (hg : g ∈ gs) : m.corner (lnext (m.nbr (lprev g))) = m.corner (lnext g) := by
  have := G.first (lprev g) (ghost_mem (g := g) hg)
  rw [show ((lprev g).1, (lprev g).2 + 2) = lnext g from lprev_ghost] at this
  exact this

theorem base_dest (G : Ghosted m ts gs) {g : Otri} (hg : g ∈ gs) : m.corner (lprev (m.nbr (lprev g))) = m.corner g := by
  have := G.second (lprev g) (ghost_mem (g := g) hg)
  rw [show ((lprev g).1, (lprev g).2 + 1) = g from lnext_lprev'] at this
  exact this

theorem removeGhost_solid (G : Ghosted m ts gs) (S : Solid m ts gs) {s0 s : Carve} {poly : Bool} {g0 g : Otri} {done : List Otri}
    (hc : s0.mesh.corner = m.corner) (hd : ∀ h ∈ done, h ∈ gs) (hg : g ∈ gs) (hn : g ∉ done) (R : Removed m s0 poly g0 done s) :
    ∃ s', s.removeGhost poly g = .ok (s', m.nbr (lnext g)) ∧ Removed m s0 poly g0 (done ++ [g]) s' := by
  have h0 : ∀ t ∈ ts, t ≠ 0 := fun t ht h => G.dummy (List.mem_append_right _ (h ▸ ht))
  have hreal : (m.nbr (lprev g)).1 ∈ ts := S g hg
  have hgd : g.1 ∉ s.dead := by
    rw [R.dead]
    intro h
    obtain ⟨h', hh', e⟩ := List.mem_map.mp h
    exact hn (ghost_unique G hg (hd h' hh') e.symm ▸ hh')
  have hbd : (m.nbr (lprev g)).1 ∉ s.dead := by
    rw [R.dead]
    intro h
    obtain ⟨h', hh', e⟩ := List.mem_map.mp h
    exact ghost_not_real G (hd h' hh') (e ▸ hreal)
  have hg0 : g.1 ≠ 0 := fun h => G.dummy (h ▸ ghost_mem hg)
  have hside : ∀ o : Fin 3, s.mesh.nbr (g.1, o) = m.nbr (g.1, o) := by
    intro o
    refine R.keep _ (fun h => hg0 (congrArg Prod.fst h)) fun h hh e => ?_
    exact ghost_not_real G hg (by have := S h (hd h hh); rw [show (h.1, h.2 + 2) = lprev h from rfl, e] at this; exact this)
  have hb : s.mesh.sym (lprev g) = m.nbr (lprev g) := hside _
  have hb0 : (m.nbr (lprev g)).1 ≠ 0 := h0 _ hreal
  have hsc : s.mesh.corner = m.corner := by rw [R.same]; exact hc
  obtain ⟨v, hv⟩ : ∃ v, m.corner (lnext (m.nbr (lprev g))) = some v := G.real _ hreal _
  have horg : s.mesh.org (m.nbr (lprev g)) = some v := by unfold Heap.org; rw [hsc]; exact hv
  have hvg : m.corner (lnext g) = some v := by rw [← base_org G hg]; exact hv
  -- the vertex mark
  obtain ⟨s1, e1, r1, r2, r3, r4⟩ : ∃ s1 : Carve, ((if ¬ (poly = true) ∧ (m.nbr (lprev g)).1 ≠ 0 then s.touchVertex (s.mesh.org (m.nbr (lprev g))) else .ok s) : Outcome Carve) = .ok s1 ∧
      s1 = { s with vmark := s1.vmark } ∧ (poly = false → s1.vmark v = if s.vmark v = 0 then 1 else s.vmark v) ∧
      (∀ w, w ≠ v → s1.vmark w = s.vmark w) ∧ (poly = true → s1.vmark = s.vmark) := by
    cases poly
    · rw [if_pos ⟨by decide, hb0⟩, horg]
      obtain ⟨s1, a1, -, -, a2, a3, a4⟩ := touchVertex_ok s v
      exact ⟨s1, a1, a2, fun _ => a4, a3, fun h => by cases h⟩
    · rw [if_neg (fun h => h.1 rfl)]
      exact ⟨s, rfl, rfl, fun h => by simp at h, fun _ _ => rfl, fun _ => rfl⟩
  have hm1 : s1.mesh = s.mesh := by rw [r1]
  have hd1 : s1.dead = s.dead := by rw [r1]
  have hnext : (s1.dissolve (m.nbr (lprev g))).mesh.sym (lnext g) = m.nbr (lnext g) := by
    unfold Carve.dissolve Heap.sym
    simp only []
    rw [Function.update_of_ne, hm1]
    · exact hside _
    · intro h
      exact ghost_not_real G hg (by rw [← h] at hreal; exact hreal)
  refine ⟨{ s1.dissolve (m.nbr (lprev g)) with dead := s.dead ++ [g.1] }, ?_, ?_⟩
  · unfold Carve.removeGhost
    rw [if_neg hgd]
    simp only [hb]
    rw [if_neg hbd, e1]
    simp only [Outcome.bind_ok, hnext]
    unfold Carve.triangledealloc
    have : ¬ (lnext g).1 ∈ (s1.dissolve (m.nbr (lprev g))).dead := by
      show ¬ g.1 ∈ s1.dead
      rw [hd1]; exact hgd
    rw [if_neg this]
    simp only [Outcome.bind_ok]
    show Outcome.ok _ = Outcome.ok _
    congr 3
    show s1.dead ++ [g.1] = _
    rw [hd1]
  · have hmesh : (s1.dissolve (m.nbr (lprev g))).mesh.nbr = Function.update s.mesh.nbr (m.nbr (lprev g)) (0, 0) := by
      unfold Carve.dissolve; simp only [hm1]; rfl
    refine ⟨?_, ?_, ?_, ?_, ?_, ?_, ?_⟩
    · show s.dead ++ [g.1] = _
      rw [R.dead, List.map_append]; rfl
    · intro h hh
      show (s1.dissolve (m.nbr (lprev g))).mesh.nbr _ = _
      rw [hmesh]
      by_cases e : m.nbr (lprev h) = m.nbr (lprev g)
      · rw [e, Function.update_self]
      · rw [Function.update_of_ne e]
        rcases List.mem_append.mp hh with hh | hh
        · exact R.cut h hh
        · rw [List.mem_singleton.mp hh] at e
          exact absurd rfl e
    · intro y y0 hy
      show (s1.dissolve (m.nbr (lprev g))).mesh.nbr _ = _
      rw [hmesh, Function.update_of_ne (hy g (by simp)).symm]
      exact R.keep y y0 fun h hh => hy h (List.mem_append_left _ hh)
    · show (s1.dissolve (m.nbr (lprev g))).mesh.nbr _ = _
      rw [hmesh, Function.update_of_ne (fun h => hb0 (congrArg Prod.fst h).symm)]
      exact R.dummy
    · have hs := R.same
      rw [hs] at r1
      rw [r1]
      rfl
    · intro hp h hh w hw
      show s1.vmark w = _
      by_cases hwv : w = v
      · subst hwv
        rw [r2 hp]
        by_cases hold : ∃ h' ∈ done, m.corner (lnext h') = some w
        · obtain ⟨h', hh', e'⟩ := hold
          rw [R.marked hp h' hh' w e']
          split_ifs <;> first | rfl | omega
        · rw [R.unmarked w (Or.inr fun h' hh' e' => hold ⟨h', hh', e'⟩)]
      · rw [r3 w hwv]
        rcases List.mem_append.mp hh with hh | hh
        · exact R.marked hp h hh w hw
        · rw [List.mem_singleton.mp hh, hvg] at hw
          exact absurd (Option.some.inj hw).symm hwv
    · intro w hw
      show s1.vmark w = _
      rcases hw with hw | hw
      · rw [r4 hw]
        exact R.unmarked w (Or.inl hw)
      · rw [r3 w (fun h => hw g (by simp) (h ▸ hvg))]
        exact R.unmarked w (Or.inr fun h hh => hw h (List.mem_append_left _ hh))

theorem removeLoop_solid (G : Ghosted m ts gs) (S : Solid m ts gs) {s0 : Carve} {poly : Bool} {g0 : Otri}
    (hc : s0.mesh.corner = m.corner) (hhead : ∃ rest, gs = g0 :: rest) :
    ∀ (l done : List Otri) (s : Carve) (g : Otri) (fuel n : Nat), gs = done ++ (g :: l) →
      List.IsChain (fun a b => m.nbr (a.1, a.2 + 1) = b) ((g :: l) ++ [g0]) → l.length + 1 ≤ fuel → Removed m s0 poly g0 done s →
      ∃ s', Carve.removeLoop poly g0 fuel s g n = .ok (s', n + (l.length + 1)) ∧ Removed m s0 poly g0 gs s' := by
  have hnd : gs.Nodup := (List.Nodup.of_map _ (List.nodup_append.mp G.nodup).1)
  intro l
  induction l with
  | nil =>
    intro done s g fuel n hgs hch hf R
    obtain ⟨fuel, rfl⟩ : ∃ f, fuel = f + 1 := ⟨fuel - 1, by simp at hf; omega⟩
    have hgn : g ∉ done := by rw [hgs] at hnd; exact fun h => (List.nodup_append.mp hnd).2.2 g h g (by simp) rfl
    obtain ⟨s', e, R'⟩ := removeGhost_solid G S hc (fun h hh => by rw [hgs]; exact List.mem_append_left _ hh) (by rw [hgs]; simp) hgn R
    have hx : m.nbr (lnext g) = g0 := by rw [List.cons_append, List.nil_append, List.isChain_cons_cons] at hch; exact hch.1
    refine ⟨s', ?_, by rw [hgs]; exact R'⟩
    unfold Carve.removeLoop
    rw [e]
    simp only [Outcome.bind_ok, hx, if_true]
    rfl
  | cons h l ih =>
    intro done s g fuel n hgs hch hf R
    obtain ⟨fuel, rfl⟩ : ∃ f, fuel = f + 1 := ⟨fuel - 1, by simp at hf; omega⟩
    have hgn : g ∉ done := by rw [hgs] at hnd; exact fun h => (List.nodup_append.mp hnd).2.2 g h g (by simp) rfl
    obtain ⟨s1, e, R'⟩ := removeGhost_solid G S hc (fun h hh => by rw [hgs]; exact List.mem_append_left _ hh) (by rw [hgs]; simp) hgn R
    rw [List.cons_append, List.cons_append, List.isChain_cons_cons] at hch
    have hx : m.nbr (lnext g) = h := hch.1
    have hne : h ≠ g0 := by
      obtain ⟨rest, hr⟩ := hhead
      intro hh
      subst hh
      cases done with
      | nil =>
        simp only [List.nil_append] at hgs
        rw [hr, List.cons.injEq] at hgs
        rw [hr, hgs.2] at hnd
        simp at hnd
      | cons d ds =>
        rw [hr, List.cons_append, List.cons.injEq] at hgs
        rw [hr, hgs.2] at hnd
        simp at hnd
    obtain ⟨s', e', R''⟩ := ih (done ++ [g]) s1 h fuel (n + 1) (by rw [hgs]; simp) hch.2 (by simp at hf ⊢; omega) R'
    refine ⟨s', ?_, R''⟩
    unfold Carve.removeLoop
    rw [e]
    simp only [Outcome.bind_ok, hx, if_neg hne]
    rw [e']
    simp only [List.length_cons]
    congr 2
    omega

theorem real_ne_zero (G : Ghosted m ts gs) {x : Otri} (hx : x.1 ∈ ts) : x ≠ (0, 0) := fun h =>
  G.dummy (List.mem_append_right _ (by rw [h] at hx; exact hx))

/-- The neighbour of a triangle is a triangle, or the inner side of a bounding triangle. -/
theorem across_ghost (G : Ghosted m ts gs) {x : Otri} (hx : x.1 ∈ ts) (hn : (m.nbr x).1 ∉ ts) : ∃ g ∈ gs, m.nbr x = lprev g := by
  have hA := List.mem_append_right (gs.map Prod.fst) hx
  rcases List.mem_append.mp (G.inside x hA) with h | h
  · obtain ⟨g, hg, e⟩ := List.mem_map.mp h
    refine ⟨g, hg, ?_⟩
    have h1 := G.first x hA
    have h2 := G.second x hA
    obtain ⟨v, hv⟩ := G.real x.1 hx (x.2 + 2)
    obtain ⟨w, hw⟩ := G.real x.1 hx (x.2 + 1)
    have hnull := (G.ghost g hg).1
    rcases hy : m.nbr x with ⟨t, o⟩
    rw [hy] at h1 h2 e
    simp only at e h1 h2
    subst e
    rw [hv] at h1
    rw [hw] at h2
    refine Prod.ext rfl ?_
    show o = g.2 + 2
    have a1 : o + 1 ≠ g.2 + 2 := fun h => by rw [h, hnull] at h1; cases h1
    have a2 : o + 2 ≠ g.2 + 2 := fun h => by rw [h, hnull] at h2; cases h2
    exact (by decide : ∀ o p : Fin 3, o + 1 ≠ p + 2 → o + 2 ≠ p + 2 → o = p + 2) o g.2 a1 a2
  · exact absurd h hn

theorem chain_reach {R : Otri → Otri → Prop} {f : Otri → Otri} {P : Otri → Otri → Prop} (hP : ∀ a b, a ∈ gs → b ∈ gs → R a b → P (f a) (f b)) :
    ∀ (l : List Otri) (g : Otri), List.IsChain R (g :: l) → (∀ h ∈ g :: l, h ∈ gs) → ∀ h ∈ g :: l, Relation.EqvGen P (f g) (f h) := by
  intro l
  induction l with
  | nil =>
    intro g _ _ h hh
    rw [List.mem_singleton.mp hh]
    exact Relation.EqvGen.refl _
  | cons a l ih =>
    intro g hch hmem h hh
    rw [List.isChain_cons_cons] at hch
    rcases List.mem_cons.mp hh with rfl | hh
    · exact Relation.EqvGen.refl _
    · exact Relation.EqvGen.trans _ _ _ (Relation.EqvGen.rel _ _ (hP _ _ (hmem _ (by simp)) (hmem _ (by simp)) hch.1))
        (ih a hch.2 (fun b hb => hmem b (List.mem_cons_of_mem _ hb)) h hh)

theorem hull_ghost (G : Ghosted m ts gs) (S : Solid m ts gs) {m' : Heap}
    (hcut : ∀ g ∈ gs, m'.nbr (m.nbr (lprev g)) = (0, 0)) (hkeep : ∀ y : Otri, y ≠ (0, 0) → (∀ g ∈ gs, m.nbr (lprev g) ≠ y) → m'.nbr y = m.nbr y)
    (x : Otri) : Hull m' (· ∈ ts) x ↔ ∃ g ∈ gs, m.nbr (lprev g) = x := by
  constructor
  · rintro ⟨hx, h0⟩
    by_cases hn : (m.nbr x).1 ∈ ts
    · rw [hkeep x (real_ne_zero G hx) fun g hg e => ?_] at h0
      · exact absurd h0 (real_ne_zero G hn)
      · rw [← e, G.back (lprev g) (ghost_mem (g := g) hg)] at hn
        exact ghost_not_real G hg hn
    · obtain ⟨g, hg, e⟩ := across_ghost G hx hn
      exact ⟨g, hg, by rw [← e]; exact G.back x (List.mem_append_right _ hx)⟩
  · rintro ⟨g, hg, rfl⟩
    exact ⟨S g hg, hcut g hg⟩

theorem unghosted_of (G : Ghosted m ts gs) (S : Solid m ts gs) {m' : Heap} (hc : m'.corner = m.corner) (hs : m'.sub = m.sub) (hst : m'.stri = m.stri)
    (hcut : ∀ g ∈ gs, m'.nbr (m.nbr (lprev g)) = (0, 0)) (hkeep : ∀ y : Otri, y ≠ (0, 0) → (∀ g ∈ gs, m.nbr (lprev g) ≠ y) → m'.nbr y = m.nbr y)
    {g0 : Otri} (hg0 : g0 ∈ gs) (hd : m'.nbr (0, 0) = m.nbr (lprev g0)) : Unghosted m ts gs m' := by
  have back' : ∀ g ∈ gs, m.nbr (m.nbr (lprev g)) = lprev g := fun g hg => G.back (lprev g) (ghost_mem (g := g) hg)
  have n1 : ∀ x : Otri, x.1 ∈ ts → (m.nbr x).1 ∈ ts → m'.nbr x = m.nbr x := by
    intro x hx hn
    refine hkeep x (real_ne_zero G hx) fun g hg e => ?_
    rw [← e, back' g hg] at hn
    exact ghost_not_real G hg hn
  have n2 : ∀ x : Otri, x.1 ∈ ts → (m.nbr x).1 ∉ ts → ∃ g ∈ gs, m.nbr (lprev g) = x := by
    intro x hx hn
    obtain ⟨g, hg, e⟩ := across_ghost G hx hn
    exact ⟨g, hg, by rw [← e]; exact G.back x (List.mem_append_right _ hx)⟩
  have hull_iff := hull_ghost G S hcut hkeep
  have dirA : ∀ x v w, m'.Dir (· ∈ ts) x v w → m.Dir (· ∈ gs.map Prod.fst ++ ts) x v w := by
    rintro x v w ⟨a, b, c⟩
    rw [hc] at b c
    exact ⟨List.mem_append_right _ a, b, c⟩
  have dirN : ∀ x v w, m'.Dir (· ∈ ts) x v w → m.Dir (· ∈ gs.map Prod.fst ++ ts) (m.nbr x) w v := by
    rintro x v w h
    obtain ⟨a, b, c⟩ := dirA x v w h
    exact ⟨G.inside x a, by rw [G.first x a]; exact c, by rw [G.second x a]; exact b⟩
  refine ⟨⟨?_, ?_, ?_, ?_, ?_⟩, ?_, ?_, ?_, hc, ?_, hs, hst, n1⟩
  · exact fun h => G.dummy (List.mem_append_right _ h)
  · intro t ht o
    rw [hc]
    exact G.real t ht o
  · intro x y v w hx hy
    exact G.once x y v w (dirA _ _ _ hx) (dirA _ _ _ hy)
  · intro x hx
    by_cases hn : (m.nbr x).1 ∈ ts
    · right
      obtain ⟨v, hv⟩ := G.real x.1 hx (x.2 + 1)
      obtain ⟨w, hw⟩ := G.real x.1 hx (x.2 + 2)
      have hdir : m'.Dir (· ∈ ts) x v w := ⟨hx, by rw [hc]; exact hv, by rw [hc]; exact hw⟩
      refine ⟨v, w, hdir, ?_⟩
      rw [n1 x hx hn]
      obtain ⟨-, b, c⟩ := dirN x v w hdir
      exact ⟨hn, by rw [hc]; exact b, by rw [hc]; exact c⟩
    · left
      obtain ⟨g, hg, e⟩ := n2 x hx hn
      rw [← e]
      exact hcut g hg
  · intro x y v w hx hy
    have e := G.once _ _ _ _ (dirN x v w hx) (dirA y w v hy)
    rw [n1 x hx.1 (by rw [e]; exact hy.1), e]
  · intro x y hx hy
    obtain ⟨g, hg, rfl⟩ := (hull_iff x).mp hx
    obtain ⟨h, hh, rfl⟩ := (hull_iff y).mp hy
    obtain ⟨a, rest, e, hch⟩ := G.ring
    have key : ∀ b ∈ gs, Relation.EqvGen (fun a b : Otri => Hull m' (· ∈ ts) a ∧ Hull m' (· ∈ ts) b ∧
        m'.corner (a.1, a.2 + 2) = m'.corner (b.1, b.2 + 1)) (m.nbr (lprev a)) (m.nbr (lprev b)) := by
      intro b hb
      have hch' := (List.isChain_append.mp hch).1
      rw [e] at hch'
      refine chain_reach (gs := gs) (f := fun g => m.nbr (lprev g)) (fun c d hc1 hd1 hcd => ?_) rest a hch' (fun h hh => by rw [e]; exact hh) b (by rw [← e]; exact hb)
      refine ⟨(hull_iff _).mpr ⟨c, hc1, rfl⟩, (hull_iff _).mpr ⟨d, hd1, rfl⟩, ?_⟩
      rw [hc]
      refine (base_dest G hc1).trans ((Eq.symm ?_).trans (base_org G hd1).symm)
      have := G.first (lnext c) (ghost_mem (g := c) hc1)
      rw [show m.nbr (lnext c) = d from hcd] at this
      refine this.trans ?_
      congr 1
      rcases c with ⟨t, o⟩
      exact Prod.ext rfl ((by decide : ∀ o : Fin 3, o + 1 + 2 = o) o)
    exact Relation.EqvGen.trans _ _ _ (Relation.EqvGen.symm _ _ (key g hg)) (key h hh)
  · rw [hd]
    exact (hull_iff _).mpr ⟨g0, hg0, rfl⟩
  · unfold hullEdges
    have hnd : gs.Nodup := (List.Nodup.of_map _ (List.nodup_append.mp G.nodup).1)
    have hset : {y : Otri | y.1 ∈ ts ∧ m'.nbr y = (0, 0)} = (fun g => m.nbr (lprev g)) '' {g | g ∈ gs} := by
      ext y
      exact hull_iff y
    rw [hset, Set.ncard_image_of_injOn]
    · rw [show {g | g ∈ gs} = (↑gs.toFinset : Set Otri) from by ext; simp, Set.ncard_coe_finset, List.toFinset_card_of_nodup hnd]
    · intro g hg h hh e
      have e1 : lprev g = lprev h := by
        have e' : m.nbr (lprev g) = m.nbr (lprev h) := e
        rw [← back' g hg, ← back' h hh, e']
      have e2 : (lprev g).1 = (lprev h).1 := by rw [e1]
      exact ghost_unique G hg hh e2
  · intro t ht o o'
    rw [hc]
    exact G.proper t (List.mem_append_right _ ht) o o'

theorem removeghosts_solid {g : Otri} {rest : List Otri} (G : Ghosted m ts (g :: rest)) (S : Solid m ts (g :: rest)) {s : Carve} (hm : s.mesh = m) (hdead : s.dead = [])
    (poly : Bool) {fuel : Nat} (hf : (g :: rest).length ≤ fuel) :
    ∃ s', s.removeghosts poly fuel g = .ok (s', (g :: rest).length) ∧ Removed m s poly g (g :: rest) s' := by
  obtain ⟨g', rest', e, hch⟩ := G.ring
  obtain ⟨rfl, rfl⟩ := List.cons.inj e
  have hA : g.1 ∈ (g :: rest).map Prod.fst ++ ts := ghost_mem (by simp)
  have R : Removed m s poly g [] { s with mesh := { s.mesh with nbr := Function.update s.mesh.nbr dummytri (s.mesh.sym (lprev g)) } } := by
    subst hm
    refine ⟨hdead, fun h hh => absurd hh (by simp), ?_, ?_, rfl, fun _ h hh => absurd hh (by simp), fun _ _ => rfl⟩
    · intro y y0 _
      exact Function.update_of_ne y0 _ _
    · show Function.update s.mesh.nbr dummytri (s.mesh.sym (lprev g)) (0, 0) = _
      exact Function.update_self dummytri _ s.mesh.nbr
  obtain ⟨s', e1, R'⟩ := removeLoop_solid (poly := poly) G S (s0 := s) (by rw [hm]) ⟨rest, rfl⟩ rest [] _ g fuel 0 rfl hch (by simpa using hf) R
  refine ⟨s', ?_, R'⟩
  unfold Carve.removeghosts
  simp only []
  rw [e1]
  simp

end

end Delynoi.Tri
