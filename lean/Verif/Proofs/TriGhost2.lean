import Verif.Proofs.TriGhost
/-!
# The removal of the bounding triangles when all vertices are on a line
-/
set_option linter.unusedSectionVars false
namespace Delynoi.Tri
variable {m : Heap} {gs : List Otri}

/-- Without triangles, bounding triangles lie side by side in pairs. -/
theorem pair_ghost (G : Ghosted m [] gs) {g : Otri} (hg : g ∈ gs) : ∃ h ∈ gs, h ≠ g ∧ m.nbr (lprev g) = lprev h := by
  have hA : (lprev g).1 ∈ gs.map Prod.fst ++ [] := ghost_mem (g := g) hg
  have hin := G.inside (lprev g) hA
  rw [List.append_nil] at hin
  obtain ⟨h, hh, e⟩ := List.mem_map.mp hin
  have h1 : m.corner (lnext (m.nbr (lprev g))) = m.corner (lnext g) := base_org G hg
  have h2 : m.corner (lprev (m.nbr (lprev g))) = m.corner g := base_dest G hg
  obtain ⟨-, ⟨v, hv⟩, w, hw⟩ := G.ghost g hg
  have hnull := (G.ghost h hh).1
  rcases hy : m.nbr (lprev g) with ⟨t, o⟩
  rw [hy] at h1 h2 e
  simp only at e
  subst e
  have k1 : m.corner (h.1, o + 1) = some v := h1.trans hv
  have k2 : m.corner (h.1, o + 2) = some w := h2.trans hw
  have a1 : o + 1 ≠ h.2 + 2 := fun h => by rw [h, hnull] at k1; cases k1
  have a2 : o + 2 ≠ h.2 + 2 := fun h => by rw [h, hnull] at k2; cases k2
  have ho := (by decide : ∀ o p : Fin 3, o + 1 ≠ p + 2 → o + 2 ≠ p + 2 → o = p + 2) o h.2 a1 a2
  refine ⟨h, hh, ?_, Prod.ext rfl ho⟩
  rintro rfl
  have k3 : m.corner (h.1, h.2) = some v := by
    rw [← k1, ho]; congr 2; exact (by decide : ∀ o : Fin 3, o = o + 2 + 1) h.2
  have := G.proper h.1 (ghost_mem (g := h) hg) h.2 (h.2 + 1) (by rw [k3]; exact hv.symm)
  exact absurd this ((by decide : ∀ o : Fin 3, o ≠ o + 1) h.2)

/-- The state after the bounding triangles `done` have been removed. -/
structure RemovedLine (m : Heap) (s0 : Carve) (g0 : Otri) (done : List Otri) (s : Carve) : Prop where
  dead : s.dead = done.map Prod.fst
  cut : ∀ g ∈ done, (m.nbr (lprev g)).1 ∉ done.map Prod.fst → s.mesh.nbr (m.nbr (lprev g)) = (0, 0)
  keep : ∀ y : Otri, y ≠ (0, 0) → (∀ g ∈ done, m.nbr (lprev g) ≠ y) → s.mesh.nbr y = m.nbr y
  dummy : (m.nbr (lprev g0)).1 ∈ done.map Prod.fst → s.mesh.nbr (0, 0) = (0, 0)
  same : s = { s0 with mesh := { s0.mesh with nbr := s.mesh.nbr }, dead := s.dead, vmark := s.vmark }

theorem touch_line (s : Carve) (poly : Bool) (x : Otri) (h : x.1 ≠ 0 → ∃ v, s.mesh.org x = some v) :
    ∃ s1 : Carve, ((if ¬ (poly = true) ∧ x.1 ≠ 0 then s.touchVertex (s.mesh.org x) else .ok s) : Outcome Carve) = .ok s1 ∧ s1 = { s with vmark := s1.vmark } := by
  split_ifs with hc
  · obtain ⟨v, hv⟩ := h hc.2
    rw [hv]
    obtain ⟨s1, a1, -, -, a2, -, -⟩ := touchVertex_ok s v
    exact ⟨s1, a1, a2⟩
  · exact ⟨s, rfl, rfl⟩

theorem removeGhost_line (G : Ghosted m [] gs) {s0 s : Carve} {poly : Bool} {g0 g : Otri} {done : List Otri}
    (hc : s0.mesh.corner = m.corner) (hd : ∀ h ∈ done, h ∈ gs) (hg : g ∈ gs) (hn : g ∉ done) (hg0 : g0 ∈ done ++ [g]) (hg0' : g0 ∈ gs)
    (R : RemovedLine m s0 g0 done s) :
    ∃ s', s.removeGhost poly g = .ok (s', m.nbr (lnext g)) ∧ RemovedLine m s0 g0 (done ++ [g]) s' := by
  have zero : ∀ h ∈ gs, h.1 ≠ 0 := fun h hh e => G.dummy (e ▸ ghost_mem hh)
  have mem_done : ∀ h ∈ gs, h.1 ∈ done.map Prod.fst → h ∈ done := by
    intro h hh hm
    obtain ⟨h', hh', e⟩ := List.mem_map.mp hm
    exact ghost_unique G hh (hd h' hh') e.symm ▸ hh'
  have hgd : g.1 ∉ s.dead := by
    rw [R.dead]
    exact fun h => hn (mem_done g hg h)
  have hside : s.mesh.nbr (lnext g) = m.nbr (lnext g) := by
    refine R.keep _ (fun h => zero g hg (congrArg Prod.fst h)) fun h hh e => ?_
    obtain ⟨h', hh', -, e'⟩ := pair_ghost G (hd h hh)
    rw [e'] at e
    have := ghost_unique G hh' hg (by have := congrArg Prod.fst e; exact this)
    subst this
    have := congrArg Prod.snd e
    exact absurd this ((by decide : ∀ o : Fin 3, o + 2 ≠ o + 1) h'.2)
  have hsc : s.mesh.corner = m.corner := by rw [R.same]; exact hc
  obtain ⟨p, hp, hpg, ep⟩ := pair_ghost G hg
  have ep' : m.nbr (lprev p) = lprev g := by rw [← ep]; exact G.back (lprev g) (ghost_mem (g := g) hg)
  -- where the inner side leads now
  have hb : s.mesh.sym (lprev g) = if p ∈ done then (0, 0) else lprev p := by
    split_ifs with hpd
    · have := R.cut p hpd (by rw [ep']; exact fun h => hn (mem_done g hg h))
      rw [ep'] at this
      exact this
    · rw [← ep]
      refine R.keep _ (fun h => zero g hg (congrArg Prod.fst h)) fun h hh e => ?_
      have e2 := G.back (lprev h) (ghost_mem (g := h) (hd h hh))
      rw [e, ep] at e2
      exact hpd (ghost_unique G hp (hd h hh) (by have := congrArg Prod.fst e2; exact this) ▸ hh)
  have hbd : (s.mesh.sym (lprev g)).1 ∉ s.dead := by
    rw [hb, R.dead]
    split_ifs with hpd
    · intro h
      obtain ⟨h', hh', e⟩ := List.mem_map.mp h
      exact zero h' (hd h' hh') e
    · exact fun h => hpd (mem_done p hp h)
  obtain ⟨s1, e1, r1⟩ := touch_line s poly (s.mesh.sym (lprev g)) (by
    rw [hb]
    split_ifs with hpd
    · exact fun h => absurd rfl h
    · intro _
      obtain ⟨-, -, v, hv⟩ := G.ghost p hp
      refine ⟨v, ?_⟩
      unfold Heap.org
      rw [hsc, lnext_lprev']
      exact hv)
  have hm1 : s1.mesh = s.mesh := by rw [r1]
  have hd1 : s1.dead = s.dead := by rw [r1]
  have hne : s.mesh.sym (lprev g) ≠ lnext g := by
    rw [hb]
    split_ifs with hpd
    · exact fun h => zero g hg (congrArg Prod.fst h).symm
    · exact fun h => hpg (ghost_unique G hp hg (by have := congrArg Prod.fst h; exact this))
  have hmesh : (s1.dissolve (s.mesh.sym (lprev g))).mesh.nbr = Function.update s.mesh.nbr (s.mesh.sym (lprev g)) (0, 0) := by
    unfold Carve.dissolve; simp only [hm1]; rfl
  have hnext : (s1.dissolve (s.mesh.sym (lprev g))).mesh.sym (lnext g) = m.nbr (lnext g) := by
    unfold Heap.sym at hmesh hne ⊢
    rw [hmesh, Function.update_of_ne hne.symm]
    exact hside
  refine ⟨{ s1.dissolve (s.mesh.sym (lprev g)) with dead := s.dead ++ [g.1] }, ?_, ?_⟩
  · unfold Carve.removeGhost
    rw [if_neg hgd]
    simp only []
    rw [if_neg hbd, e1]
    simp only [Outcome.bind_ok, hnext]
    unfold Carve.triangledealloc
    have : ¬ (lnext g).1 ∈ (s1.dissolve (s.mesh.sym (lprev g))).dead := by
      show ¬ g.1 ∈ s1.dead
      rw [hd1]; exact hgd
    rw [if_neg this]
    simp only [Outcome.bind_ok]
    show Outcome.ok _ = Outcome.ok _
    congr 3
    show s1.dead ++ [g.1] = _
    rw [hd1]
  · refine ⟨?_, ?_, ?_, ?_, ?_⟩
    · show s.dead ++ [g.1] = _
      rw [R.dead, List.map_append]; rfl
    · intro h hh hout
      show (s1.dissolve (s.mesh.sym (lprev g))).mesh.nbr _ = _
      rw [hmesh]
      by_cases e : m.nbr (lprev h) = s.mesh.sym (lprev g)
      · rw [e, Function.update_self]
      · rw [Function.update_of_ne e]
        rcases List.mem_append.mp hh with hh | hh
        · refine R.cut h hh fun hx => hout ?_
          rw [List.map_append]
          exact List.mem_append_left _ hx
        · obtain rfl := List.mem_singleton.mp hh
          rw [hb] at e
          split_ifs at e with hpd
          · refine absurd ?_ hout
            rw [ep, List.map_append]
            exact List.mem_append_left _ (List.mem_map_of_mem (f := Prod.fst) (a := p) hpd)
          · exact absurd ep e
    · intro y y0 hy
      show (s1.dissolve (s.mesh.sym (lprev g))).mesh.nbr _ = _
      have hyg : y ≠ s.mesh.sym (lprev g) := by
        rw [hb]
        split_ifs with hpd
        · exact y0
        · rw [← ep]; exact (hy g (by simp)).symm
      rw [hmesh, Function.update_of_ne hyg]
      exact R.keep y y0 fun h hh => hy h (List.mem_append_left _ hh)
    · intro hx
      show (s1.dissolve (s.mesh.sym (lprev g))).mesh.nbr _ = _
      rw [hmesh]
      by_cases e : ((0, 0) : Otri) = s.mesh.sym (lprev g)
      · rw [← e, Function.update_self]
      · rw [Function.update_of_ne e]
        refine R.dummy ?_
        rw [List.map_append] at hx
        rcases List.mem_append.mp hx with hx | hx
        · exact hx
        · -- the partner of `g0` is `g`; `g0` is done already
          have hx : (m.nbr (lprev g0)).1 = g.1 := by simpa using hx
          obtain ⟨q, hq, hqg, eq⟩ := pair_ghost G hg0'
          rw [eq] at hx
          obtain rfl := ghost_unique G hq hg hx
          have hpg0 : p = g0 := by
            have e3 := G.back (lprev g0) (ghost_mem (g := g0) hg0')
            rw [eq, ep] at e3
            exact ghost_unique G hp hg0' (by have := congrArg Prod.fst e3; exact this)
          have : g0 ∈ done := by
            rcases List.mem_append.mp hg0 with h | h
            · exact h
            · exact absurd (List.mem_singleton.mp h).symm hqg
          rw [hb, if_pos (by rw [hpg0]; exact this)] at e
          exact absurd rfl e
    · have hs := R.same
      rw [hs] at r1
      rw [r1]
      rfl

theorem removeLoop_line (G : Ghosted m [] gs) {s0 : Carve} {poly : Bool} {g0 : Otri}
    (hc : s0.mesh.corner = m.corner) (hhead : ∃ rest, gs = g0 :: rest) :
    ∀ (l done : List Otri) (s : Carve) (g : Otri) (fuel n : Nat), gs = done ++ (g :: l) →
      List.IsChain (fun a b => m.nbr (a.1, a.2 + 1) = b) ((g :: l) ++ [g0]) → l.length + 1 ≤ fuel → RemovedLine m s0 g0 done s →
      ∃ s', Carve.removeLoop poly g0 fuel s g n = .ok (s', n + (l.length + 1)) ∧ RemovedLine m s0 g0 gs s' := by
  have hnd : gs.Nodup := (List.Nodup.of_map _ (List.nodup_append.mp G.nodup).1)
  have hin : ∀ (done l : List Otri) (g : Otri), gs = done ++ (g :: l) → g0 ∈ done ++ [g] := by
    intro done l g e
    obtain ⟨rest, hr⟩ := hhead
    cases done with
    | nil => rw [hr, List.nil_append, List.cons.injEq] at e; rw [e.1]; simp
    | cons d ds => rw [hr, List.cons_append, List.cons.injEq] at e; rw [e.1]; simp
  have hg0 : g0 ∈ gs := by obtain ⟨rest, hr⟩ := hhead; rw [hr]; simp
  intro l
  induction l with
  | nil =>
    intro done s g fuel n hgs hch hf R
    obtain ⟨fuel, rfl⟩ : ∃ f, fuel = f + 1 := ⟨fuel - 1, by simp at hf; omega⟩
    have hgn : g ∉ done := by rw [hgs] at hnd; exact fun h => (List.nodup_append.mp hnd).2.2 g h g (by simp) rfl
    obtain ⟨s', e, R'⟩ := removeGhost_line (poly := poly) G hc (fun h hh => by rw [hgs]; exact List.mem_append_left _ hh) (by rw [hgs]; simp) hgn (hin _ _ _ hgs) hg0 R
    have hx : m.nbr (lnext g) = g0 := by rw [List.cons_append, List.nil_append, List.isChain_cons_cons] at hch; exact hch.1
    refine ⟨s', ?_, by rw [hgs]; exact R'⟩
    unfold Carve.removeLoop
    rw [e]
    simp only [Outcome.bind_ok, hx, if_true]
    rfl
  | cons h l ih =>
    intro done s g fuel n hgs hch hf R
    obtain ⟨fuel, rfl⟩ : ∃ f, fuel = f + 1 := ⟨fuel - 1, by simp at hf; omega⟩
    have hgn : g ∉ done := by rw [hgs] at hnd; exact fun h => (List.nodup_append.mp hnd).2.2 g h g (by simp) rfl
    obtain ⟨s1, e, R'⟩ := removeGhost_line (poly := poly) G hc (fun h hh => by rw [hgs]; exact List.mem_append_left _ hh) (by rw [hgs]; simp) hgn (hin _ _ _ hgs) hg0 R
    rw [List.cons_append, List.cons_append, List.isChain_cons_cons] at hch
    have hx : m.nbr (lnext g) = h := hch.1
    have hne : h ≠ g0 := by
      obtain ⟨rest, hr⟩ := hhead
      intro hh
      subst hh
      cases done with
      | nil =>
        simp only [List.nil_append] at hgs
        rw [hr, List.cons.injEq] at hgs
        rw [hr, hgs.2] at hnd
        simp at hnd
      | cons d ds =>
        rw [hr, List.cons_append, List.cons.injEq] at hgs
        rw [hr, hgs.2] at hnd
        simp at hnd
    obtain ⟨s', e', R''⟩ := ih (done ++ [g]) s1 h fuel (n + 1) (by rw [hgs]; simp) hch.2 (by simp at hf ⊢; omega) R'
    refine ⟨s', ?_, R''⟩
    unfold Carve.removeLoop
    rw [e]
    simp only [Outcome.bind_ok, hx, if_neg hne]
    rw [e']
    simp only [List.length_cons]
    congr 2
    omega

theorem removeghosts_line {g : Otri} {rest : List Otri} (G : Ghosted m [] (g :: rest)) {s : Carve} (hm : s.mesh = m) (hdead : s.dead = [])
    (poly : Bool) {fuel : Nat} (hf : (g :: rest).length ≤ fuel) :
    ∃ s', s.removeghosts poly fuel g = .ok (s', (g :: rest).length) ∧ s'.dead = (g :: rest).map Prod.fst ∧ s'.mesh.nbr (0, 0) = (0, 0) := by
  obtain ⟨g', rest', e, hch⟩ := G.ring
  obtain ⟨rfl, rfl⟩ := List.cons.inj e
  have R : RemovedLine m s g [] { s with mesh := { s.mesh with nbr := Function.update s.mesh.nbr dummytri (s.mesh.sym (lprev g)) } } := by
    subst hm
    refine ⟨hdead, fun h hh => absurd hh (by simp), ?_, fun h => absurd h (by simp), rfl⟩
    intro y y0 _
    exact Function.update_of_ne y0 _ _
  obtain ⟨s', e1, R'⟩ := removeLoop_line (poly := poly) G (s0 := s) (by rw [hm]) ⟨rest, rfl⟩ rest [] _ g fuel 0 rfl hch (by simpa using hf) R
  refine ⟨s', ?_, R'.dead, R'.dummy ?_⟩
  · unfold Carve.removeghosts
    simp only []
    rw [e1]
    simp
  · obtain ⟨h, hh, -, eh⟩ := pair_ghost G (g := g) (by simp)
    rw [eh]
    exact List.mem_map_of_mem (f := Prod.fst) (a := h) hh

end Delynoi.Tri
