import Verif.Model.TriCarve
import Verif.Spec.TriCarve
import Verif.Proofs.TriMesh2
import Mathlib.Data.List.Nodup
import Mathlib.Data.List.Perm.Subperm
/-! # The first phase of `plague` -/
set_option linter.unusedSectionVars false
namespace Delynoi.Tri

variable {m : Heap} {L : Nat → Prop} {P : List Nat} {s0 : Carve}

/-- While the infection spreads: `H` are the edges looked at, `D` the infected triangles, `cur` the
triangle whose mark is taken away. -/
structure Inv1 (m : Heap) (L : Nat → Prop) (P : List Nat) (s0 : Carve) (H : Otri → Prop) (D : List Nat)
    (cur : Option Nat) (s : Carve) : Prop where
  nodup : D.Nodup
  live : ∀ t ∈ D, L t
  sick : ∀ t, s.sick t = true ↔ t ∈ D ∧ cur ≠ some t
  nbr : s.mesh.nbr = m.nbr
  corner : s.mesh.corner = m.corner
  doomed : ∀ t ∈ D, Doomed m L P t
  hd : ∀ x, H x → x.1 ∈ D
  closed : ∀ x, H x → L (m.nbr x).1 → (m.sub x).1 = 0 → (m.nbr x).1 ∈ D
  sub : ∀ y, L y.1 → s.mesh.sub y = m.sub y ∨
    (s.mesh.sub y = (0, false) ∧ H (m.nbr y) ∧ (m.sub y).1 ∈ s.freed ∧ y.1 ∈ D)
  freed : ∀ k ∈ s.freed, k ≠ 0 ∧ ∃ x, H x ∧ (m.sub x).1 = k ∧
    ((m.nbr x).1 = 0 ∨ ((m.nbr x).1 ∈ D ∧ s.mesh.sub (m.nbr x) = (0, false)))
  once : s.freed.Nodup
  freed' : ∀ x, H x → (m.sub x).1 ≠ 0 → ((m.nbr x).1 = 0 ∨ H (m.nbr x)) → (m.sub x).1 ∈ s.freed
  cut : ∀ x, H x → (m.sub x).1 ≠ 0 → L (m.nbr x).1 → (m.nbr x).1 ∉ D →
    s.mesh.stri (m.sub x) = (0, 0) ∧ s.smark (m.sub x).1 ≠ 0 ∧
    ∀ v w, m.Dir L (m.nbr x) v w → s.vmark v ≠ 0 ∧ s.vmark w ≠ 0
  keep : ∀ y, L y.1 → (m.sub y).1 ≠ 0 → ¬ H y → s.mesh.stri (m.sub y) = y
  smarks : ∀ k, s.smark k = s0.smark k ∨ (s0.smark k = 0 ∧ s.smark k = 1 ∧ ∃ x, H x ∧ (m.sub x).1 = k)
  vmarks : ∀ v, s.vmark v = s0.vmark v ∨ (s0.vmark v = 0 ∧ s.vmark v = 1 ∧
    ∃ x w, H x ∧ (m.sub x).1 ≠ 0 ∧ (m.Dir L x v w ∨ m.Dir L x w v))
  dead : s.dead = s0.dead
  undead : s.undead = s0.undead
  hullsize : s.hullsize = s0.hullsize

/-- A triangle is not its own neighbour. -/
theorem nbr_ne (h : Linked m L) (p : Proper m L) {x : Otri} (hx : L x.1) (hn : m.nbr x ≠ (0, 0)) :
    (m.nbr x).1 ≠ x.1 := by
  obtain ⟨-, -, v, w, k1, k2⟩ := h.across hx hn
  intro hh
  rw [dir_iff] at k1 k2
  obtain ⟨k0, k1, k1'⟩ := k1
  obtain ⟨-, k2, k2'⟩ := k2
  have P : ∀ y z : Otri, y.1 = x.1 → z.1 = x.1 → m.corner y = m.corner z → y = z := by
    rintro ⟨t, o⟩ ⟨t', o'⟩ h1 h2 h3
    simp only at h1 h2; subst h1 h2
    rw [p _ k0 o o' h3]
  have e1 := P (lnext (m.nbr x)) (lprev x) hh rfl (k2.trans k1'.symm)
  have e2 := P (lprev (m.nbr x)) (lnext x) hh rfl (k2'.trans k1.symm)
  have := congrArg lnext e1
  rw [lnext_lnext, lnext_lprev, e2] at this
  exact lnext_ne x this

theorem touchVertex_some (s : Carve) (v : Nat) : ∃ s' : Carve, s.touchVertex (some v) = .ok s' ∧
    s' = { s with vmark := s'.vmark } ∧
    s'.vmark = if s.vmark v = 0 then Function.update s.vmark v 1 else s.vmark := by
  unfold Carve.touchVertex
  by_cases h : s.vmark v = 0
  · exact ⟨{ s with vmark := Function.update s.vmark v 1 }, by simp [h], rfl, by simp [h]⟩
  · exact ⟨s, by simp [h], rfl, by simp [h]⟩

theorem touch_one (f : Nat → Int) (k u : Nat) :
    (if f k = 0 then Function.update f k 1 else f) u = if f u = 0 ∧ u = k then 1 else f u := by
  by_cases a : u = k
  · subst a; split_ifs <;> simp_all
  · split_ifs <;> simp_all

theorem touch_two (f : Nat → Int) (v w u : Nat) :
    (if (if f w = 0 then Function.update f w 1 else f) v = 0 then
      Function.update (if f w = 0 then Function.update f w 1 else f) v 1
      else if f w = 0 then Function.update f w 1 else f) u = if f u = 0 ∧ (u = v ∨ u = w) then 1 else f u := by
  rw [touch_one, touch_one]
  grind

section
variable (h : Linked m L) (g : Segmented m L) (p : Proper m L)
include h g p

/-- One edge. -/
theorem spreadEdge_inv {H : Otri → Prop} {D : List Nat} {s : Carve} {x : Otri} (pool : List Nat)
    (I : Inv1 m L P s0 H D (some x.1) s) (hx : x.1 ∈ D) (hH : ¬ H x) :
    ∃ s' new, Carve.spreadEdge x s pool = .ok (s', pool ++ new) ∧
      Inv1 m L P s0 (fun y => H y ∨ y = x) (D ++ new) (some x.1) s' := by
  have hL := I.live _ hx
  have hdum := h.dummy
  have hD0 : (0 : Nat) ∉ D := fun h0 => hdum (I.live _ h0)
  have hnn : m.nbr x = (0, 0) ∨ (L (m.nbr x).1 ∧ m.nbr (m.nbr x) = x ∧ (m.nbr x).1 ≠ x.1 ∧ (m.nbr x).1 ≠ 0) := by
    by_cases hn : m.nbr x = (0, 0)
    · exact Or.inl hn
    · have := h.across hL hn
      exact Or.inr ⟨this.1, this.2.1, nbr_ne h p hL hn, fun h0 => hdum (h0 ▸ this.1)⟩
  -- a subsegment found here has not been freed
  have nofree : (s.mesh.sub x).1 ≠ 0 → s.mesh.sub x = m.sub x ∧ (m.sub x).1 ∉ s.freed := by
    intro hs
    have e : s.mesh.sub x = m.sub x := by
      rcases I.sub x hL with e | ⟨e, -⟩
      · exact e
      · rw [e] at hs; exact absurd rfl hs
    refine ⟨e, fun hf => ?_⟩
    obtain ⟨hk, x0, h0, e0, hcase⟩ := I.freed _ hf
    rcases g.same x0 x (I.live _ (I.hd _ h0)) hL (e0 ▸ hk) e0 with rfl | rfl
    · exact hH h0
    · rcases hcase with hc | ⟨-, hc⟩
      · rw [hc] at hL; exact hdum hL
      · rw [hc] at hs; exact hs rfl
  have unfold1 : Carve.spreadEdge x s pool =
      (if (m.nbr x).1 = 0 ∨ s.sick (m.nbr x).1 then
        if (s.mesh.sub x).1 ≠ 0 then do
          let s' ← s.subsegdealloc (s.mesh.sub x).1
          if (m.nbr x).1 ≠ 0 then .ok (((s'.uninfect (m.nbr x)).tsdissolve (m.nbr x)).infect (m.nbr x), pool)
          else .ok (s', pool)
        else .ok (s, pool)
      else if (s.mesh.sub x).1 = 0 then .ok (s.infect (m.nbr x), pool ++ [(m.nbr x).1])
      else if (s.mesh.sub x).1 ∈ s.freed then .ub
      else do
        let s' := (s.stdissolve (s.mesh.sub x)).touchSeg (s.mesh.sub x).1
        let s' ← s'.touchVertex (s'.mesh.org (m.nbr x))
        let s' ← s'.touchVertex (s'.mesh.dest (m.nbr x))
        .ok (s', pool)) := by
    unfold Carve.spreadEdge Heap.sym Heap.tspivot
    simp only [I.nbr]
  rw [unfold1]
  by_cases hc : (m.nbr x).1 = 0 ∨ s.sick (m.nbr x).1 = true
  · rw [if_pos hc]
    -- the neighbour does not exist or is infected
    have hin : L (m.nbr x).1 → (m.nbr x).1 ∈ D := by
      intro hl
      rcases hc with h0 | h0
      · rw [h0] at hl; exact absurd hl hdum
      · exact ((I.sick _).1 h0).1
    by_cases hs : (s.mesh.sub x).1 ≠ 0
    · obtain ⟨e, hf⟩ := nofree hs
      rw [if_pos hs]
      have hk : (m.sub x).1 ≠ 0 := by rw [← e]; exact hs
      have hdealloc : s.subsegdealloc (s.mesh.sub x).1 = .ok { s with freed := s.freed ++ [(m.sub x).1] } := by
        unfold Carve.subsegdealloc
        rw [e, if_neg hf]
      rw [hdealloc]
      simp only [Outcome.bind_ok]
      by_cases hn : (m.nbr x).1 = 0
      · rw [if_neg (by simpa using hn)]
        have hn0 : m.nbr x = (0, 0) := by
          rcases hnn with h0 | ⟨h0, -⟩
          · exact h0
          · rw [hn] at h0; exact absurd h0 hdum
        refine ⟨_, [], by rw [List.append_nil], ?_⟩
        rw [List.append_nil]
        exact {
          nodup := I.nodup
          live := I.live
          sick := I.sick
          nbr := I.nbr
          corner := I.corner
          doomed := I.doomed
          hd := by rintro y (hy | rfl); exacts [I.hd y hy, hx]
          closed := by
            rintro y (hy | rfl) h1 h2
            · exact I.closed y hy h1 h2
            · exact hin h1
          sub := by
            intro y hy
            rcases I.sub y hy with h1 | ⟨h1, h2, h3, h4⟩
            · exact Or.inl h1
            · exact Or.inr ⟨h1, Or.inl h2, by simp [h3], h4⟩
          freed := by
            intro k hk'
            rcases List.mem_append.1 hk' with hk' | hk'
            · obtain ⟨a1, x0, a2, a3, a4⟩ := I.freed k hk'
              exact ⟨a1, x0, Or.inl a2, a3, a4⟩
            · rw [List.mem_singleton] at hk'
              subst hk'
              exact ⟨hk, x, Or.inr rfl, rfl, Or.inl hn⟩
          once := by
            rw [List.nodup_append]
            refine ⟨I.once, by simp, ?_⟩
            intro a ha b hb
            rw [List.mem_singleton] at hb
            subst hb
            rintro rfl
            exact hf ha
          freed' := by
            rintro y (hy | rfl) h1 h2
            · simp only [List.mem_append, List.mem_singleton]
              rcases h2 with h2 | h2 | h2
              · exact Or.inl (I.freed' y hy h1 (Or.inl h2))
              · exact Or.inl (I.freed' y hy h1 (Or.inr h2))
              · right
                have := g.both y (I.live _ (I.hd _ hy)) (by rw [h2]; exact hL) h1
                rw [h2] at this; rw [this]
            · simp
          cut := by
            rintro y (hy | rfl) h1 h2 h3
            · exact I.cut y hy h1 h2 h3
            · exact absurd (hin h2) h3
          keep := fun y h1 h2 h3 => I.keep y h1 h2 (fun h4 => h3 (Or.inl h4))
          smarks := by
            intro k
            rcases I.smarks k with h1 | ⟨h1, h2, x0, h3, h4⟩
            · exact Or.inl h1
            · exact Or.inr ⟨h1, h2, x0, Or.inl h3, h4⟩
          vmarks := by
            intro v
            rcases I.vmarks v with h1 | ⟨h1, h2, x0, w, h3, h4, h5⟩
            · exact Or.inl h1
            · exact Or.inr ⟨h1, h2, x0, w, Or.inl h3, h4, h5⟩
          dead := I.dead
          undead := I.undead
          hullsize := I.hullsize }
      · rw [if_pos hn]
        obtain ⟨hl, hinv, hne, -⟩ : L (m.nbr x).1 ∧ m.nbr (m.nbr x) = x ∧ (m.nbr x).1 ≠ x.1 ∧ (m.nbr x).1 ≠ 0 := by
          rcases hnn with h0 | h0
          · rw [h0] at hn; exact absurd rfl hn
          · exact h0
        have hkn : (m.sub (m.nbr x)).1 = (m.sub x).1 := by rw [g.both x hL hl hk]
        refine ⟨_, [], by rw [List.append_nil], ?_⟩
        rw [List.append_nil]
        exact {
          nodup := I.nodup
          live := I.live
          sick := by
            intro t
            have key : ((({ s with freed := s.freed ++ [(m.sub x).1] }.uninfect (m.nbr x)).tsdissolve (m.nbr x)).infect
                (m.nbr x)).sick t = if t = (m.nbr x).1 then true else s.sick t := by
              simp only [Carve.infect, Carve.tsdissolve, Carve.uninfect, Function.update_apply]
              by_cases ht : t = (m.nbr x).1
              · simp [ht]
              · rw [if_neg ht, if_neg ht]
                split_ifs <;> simp [Function.update_apply, ht]
            rw [key]
            by_cases ht : t = (m.nbr x).1
            · subst ht
              simp only [if_true, true_iff]
              exact ⟨hin hl, fun hh => hne (Option.some.inj hh).symm⟩
            · rw [if_neg ht]; exact I.sick t
          nbr := I.nbr
          corner := I.corner
          doomed := I.doomed
          hd := by rintro y (hy | rfl); exacts [I.hd y hy, hx]
          closed := by
            rintro y (hy | rfl) h1 h2
            · exact I.closed y hy h1 h2
            · exact hin h1
          sub := by
            intro y hy
            by_cases hyn : y = m.nbr x
            · subst hyn
              refine Or.inr ⟨?_, Or.inr hinv, ?_, hin hl⟩
              · simp [Carve.infect, Carve.tsdissolve, Carve.uninfect, Heap.tsdissolve, dummysub]
              · rw [hkn]; simp [Carve.infect, Carve.tsdissolve, Carve.uninfect]
            · have key : ((({ s with freed := s.freed ++ [(m.sub x).1] }.uninfect (m.nbr x)).tsdissolve (m.nbr x)).infect
                  (m.nbr x)).mesh.sub y = s.mesh.sub y := by
                simp [Carve.infect, Carve.tsdissolve, Carve.uninfect, Heap.tsdissolve, Function.update_apply, hyn]
              rw [key]
              rcases I.sub y hy with h1 | ⟨h1, h2, h3, h4⟩
              · exact Or.inl h1
              · exact Or.inr ⟨h1, Or.inl h2, by simp [Carve.infect, Carve.tsdissolve, Carve.uninfect, h3], h4⟩
          freed := by
            have key : ∀ y, s.mesh.sub y = (0, false) →
                ((({ s with freed := s.freed ++ [(m.sub x).1] }.uninfect (m.nbr x)).tsdissolve (m.nbr x)).infect
                  (m.nbr x)).mesh.sub y = (0, false) := by
              intro y hy
              by_cases hyn : y = m.nbr x
              · subst hyn; simp [Carve.infect, Carve.tsdissolve, Carve.uninfect, Heap.tsdissolve, dummysub]
              · simp [Carve.infect, Carve.tsdissolve, Carve.uninfect, Heap.tsdissolve, Function.update_apply, hyn, hy]
            intro k hk'
            rcases List.mem_append.1 hk' with hk' | hk'
            · obtain ⟨a1, x0, a2, a3, a4⟩ := I.freed k hk'
              exact ⟨a1, x0, Or.inl a2, a3, a4.imp_right fun a => ⟨a.1, key _ a.2⟩⟩
            · rw [List.mem_singleton] at hk'
              subst hk'
              refine ⟨hk, x, Or.inr rfl, rfl, Or.inr ⟨hin hl, ?_⟩⟩
              simp [Carve.infect, Carve.tsdissolve, Carve.uninfect, Heap.tsdissolve, dummysub]
          once := by
            change (s.freed ++ [(m.sub x).1]).Nodup
            rw [List.nodup_append]
            refine ⟨I.once, by simp, ?_⟩
            intro a ha b hb
            rw [List.mem_singleton] at hb
            subst hb
            rintro rfl
            exact hf ha
          freed' := by
            rintro y (hy | rfl) h1 h2
            · change (m.sub y).1 ∈ s.freed ++ [(m.sub x).1]
              simp only [List.mem_append, List.mem_singleton]
              rcases h2 with h2 | h2 | h2
              · exact Or.inl (I.freed' y hy h1 (Or.inl h2))
              · exact Or.inl (I.freed' y hy h1 (Or.inr h2))
              · right
                have := g.both y (I.live _ (I.hd _ hy)) (by rw [h2]; exact hL) h1
                rw [h2] at this; rw [this]
            · change (m.sub y).1 ∈ s.freed ++ [(m.sub y).1]
              simp
          cut := by
            rintro y (hy | rfl) h1 h2 h3
            · exact I.cut y hy h1 h2 h3
            · exact absurd (hin h2) h3
          keep := fun y h1 h2 h3 => I.keep y h1 h2 (fun h4 => h3 (Or.inl h4))
          smarks := by
            intro k
            rcases I.smarks k with h1 | ⟨h1, h2, x0, h3, h4⟩
            · exact Or.inl h1
            · exact Or.inr ⟨h1, h2, x0, Or.inl h3, h4⟩
          vmarks := by
            intro v
            rcases I.vmarks v with h1 | ⟨h1, h2, x0, w, h3, h4, h5⟩
            · exact Or.inl h1
            · exact Or.inr ⟨h1, h2, x0, w, Or.inl h3, h4, h5⟩
          dead := I.dead
          undead := I.undead
          hullsize := I.hullsize }
    · rw [if_neg hs]
      rw [not_not] at hs
      have hgone : (m.sub x).1 ≠ 0 → (m.sub x).1 ∈ s.freed := by
        intro hk
        rcases I.sub x hL with e | ⟨-, -, e, -⟩
        · rw [e] at hs; exact absurd hs hk
        · exact e
      refine ⟨s, [], by rw [List.append_nil], ?_⟩
      rw [List.append_nil]
      exact {
        nodup := I.nodup
        live := I.live
        sick := I.sick
        nbr := I.nbr
        corner := I.corner
        doomed := I.doomed
        hd := by rintro y (hy | rfl); exacts [I.hd y hy, hx]
        closed := by
          rintro y (hy | rfl) h1 h2
          · exact I.closed y hy h1 h2
          · exact hin h1
        sub := by
          intro y hy
          rcases I.sub y hy with h1 | ⟨h1, h2, h3, h4⟩
          · exact Or.inl h1
          · exact Or.inr ⟨h1, Or.inl h2, h3, h4⟩
        freed := by
          intro k hk'
          obtain ⟨a1, x0, a2, a3, a4⟩ := I.freed k hk'
          exact ⟨a1, x0, Or.inl a2, a3, a4⟩
        once := I.once
        freed' := by
          rintro y (hy | rfl) h1 h2
          · rcases h2 with h2 | h2 | h2
            · exact I.freed' y hy h1 (Or.inl h2)
            · exact I.freed' y hy h1 (Or.inr h2)
            · have := g.both y (I.live _ (I.hd _ hy)) (by rw [h2]; exact hL) h1
              rw [h2] at this
              have e : (m.sub y).1 = (m.sub x).1 := by rw [this]
              rw [e]; exact hgone (e ▸ h1)
          · exact hgone h1
        cut := by
          rintro y (hy | rfl) h1 h2 h3
          · exact I.cut y hy h1 h2 h3
          · exact absurd (hin h2) h3
        keep := fun y h1 h2 h3 => I.keep y h1 h2 (fun h4 => h3 (Or.inl h4))
        smarks := by
          intro k
          rcases I.smarks k with h1 | ⟨h1, h2, x0, h3, h4⟩
          · exact Or.inl h1
          · exact Or.inr ⟨h1, h2, x0, Or.inl h3, h4⟩
        vmarks := by
          intro v
          rcases I.vmarks v with h1 | ⟨h1, h2, x0, w, h3, h4, h5⟩
          · exact Or.inl h1
          · exact Or.inr ⟨h1, h2, x0, w, Or.inl h3, h4, h5⟩
        dead := I.dead
        undead := I.undead
        hullsize := I.hullsize }
  · rw [if_neg hc]
    rw [not_or] at hc
    obtain ⟨hl, hinv, hne, hn0⟩ : L (m.nbr x).1 ∧ m.nbr (m.nbr x) = x ∧ (m.nbr x).1 ≠ x.1 ∧ (m.nbr x).1 ≠ 0 := by
      rcases hnn with h0 | h0
      · rw [h0] at hc; exact absurd rfl hc.1
      · exact h0
    have hnD : (m.nbr x).1 ∉ D := fun hh => hc.2 ((I.sick _).2 ⟨hh, fun h0 => hne (Option.some.inj h0).symm⟩)
    have e : s.mesh.sub x = m.sub x := by
      rcases I.sub x hL with e | ⟨-, e, -, -⟩
      · exact e
      · exact absurd (I.hd _ e) hnD
    rw [e]
    by_cases hs : (m.sub x).1 = 0
    · rw [if_pos hs]
      refine ⟨s.infect (m.nbr x), [(m.nbr x).1], rfl, ?_⟩
      exact {
        nodup := by
          rw [List.nodup_append]
          refine ⟨I.nodup, by simp, ?_⟩
          intro a ha b hb
          rw [List.mem_singleton] at hb
          subst hb
          rintro rfl
          exact hnD ha
        live := by
          intro t ht
          rcases List.mem_append.1 ht with ht | ht
          · exact I.live t ht
          · rw [List.mem_singleton.1 ht]; exact hl
        sick := by
          intro t
          simp only [Carve.infect, Function.update_apply, List.mem_append, List.mem_singleton]
          by_cases ht : t = (m.nbr x).1
          · subst ht
            simp only [if_true, true_iff, or_true, true_and]
            exact fun hh => hne (Option.some.inj hh).symm
          · simp only [ht, if_false, or_false]; exact I.sick t
        nbr := I.nbr
        corner := I.corner
        doomed := by
          intro t ht
          rcases List.mem_append.1 ht with ht | ht
          · exact I.doomed t ht
          · rw [List.mem_singleton.1 ht]; exact Doomed.spread (I.doomed _ hx) hl hs
        hd := by
          rintro y (hy | rfl)
          · exact List.mem_append_left _ (I.hd y hy)
          · exact List.mem_append_left _ hx
        closed := by
          rintro y (hy | rfl) h1 h2
          · exact List.mem_append_left _ (I.closed y hy h1 h2)
          · simp
        sub := by
          intro y hy
          rcases I.sub y hy with h1 | ⟨h1, h2, h3, h4⟩
          · exact Or.inl h1
          · exact Or.inr ⟨h1, Or.inl h2, h3, List.mem_append_left _ h4⟩
        freed := by
          intro k hk'
          obtain ⟨a1, x0, a2, a3, a4⟩ := I.freed k hk'
          exact ⟨a1, x0, Or.inl a2, a3, a4.imp_right fun a => ⟨List.mem_append_left _ a.1, a.2⟩⟩
        once := I.once
        freed' := by
          rintro y (hy | rfl) h1 h2
          · rcases h2 with h2 | h2 | h2
            · exact I.freed' y hy h1 (Or.inl h2)
            · exact I.freed' y hy h1 (Or.inr h2)
            · have := g.both y (I.live _ (I.hd _ hy)) (by rw [h2]; exact hL) h1
              rw [h2] at this
              rw [this] at hs
              exact absurd hs h1
          · exact absurd hs h1
        cut := by
          rintro y (hy | rfl) h1 h2 h3
          · exact I.cut y hy h1 h2 (fun h4 => h3 (List.mem_append_left _ h4))
          · exact absurd hs h1
        keep := fun y h1 h2 h3 => I.keep y h1 h2 (fun h4 => h3 (Or.inl h4))
        smarks := by
          intro k
          rcases I.smarks k with h1 | ⟨h1, h2, x0, h3, h4⟩
          · exact Or.inl h1
          · exact Or.inr ⟨h1, h2, x0, Or.inl h3, h4⟩
        vmarks := by
          intro v
          rcases I.vmarks v with h1 | ⟨h1, h2, x0, w, h3, h4, h5⟩
          · exact Or.inl h1
          · exact Or.inr ⟨h1, h2, x0, w, Or.inl h3, h4, h5⟩
        dead := I.dead
        undead := I.undead
        hullsize := I.hullsize }
    · rw [if_neg hs]
      have hf : (m.sub x).1 ∉ s.freed := (nofree (by rw [e]; exact hs)).2
      rw [if_neg hf]
      obtain ⟨v, w, k1, k2⟩ := (h.across hL (fun h0 => hn0 (by rw [h0]))).2.2
      rw [dir_iff] at k1 k2
      -- the state after the marks
      set s1 := (s.stdissolve (m.sub x)).touchSeg (m.sub x).1 with hs1
      have c1 : s1.mesh.corner = m.corner := by
        rw [hs1]; unfold Carve.touchSeg Carve.stdissolve; split_ifs <;> exact I.corner
      obtain ⟨s2, t2, e2, m2⟩ := touchVertex_some s1 w
      obtain ⟨s3, t3, e3, m3⟩ := touchVertex_some s2 v
      have r1 : s1.mesh.org (m.nbr x) = some w := by unfold Heap.org; rw [c1]; exact k2.2.1
      have r2 : s2.mesh.dest (m.nbr x) = some v := by
        unfold Heap.dest; rw [e2]; change s1.mesh.corner _ = _; rw [c1]; exact k2.2.2
      have f1 : s1 = { s with
          mesh := { s.mesh with stri := Function.update s.mesh.stri (m.sub x) (0, 0) }
          smark := s1.smark } := by
        rw [hs1]; unfold Carve.touchSeg Carve.stdissolve; split_ifs <;> rfl
      have f1m : s1.smark = if s.smark (m.sub x).1 = 0 then Function.update s.smark (m.sub x).1 1 else s.smark := by
        rw [hs1]; unfold Carve.touchSeg Carve.stdissolve; split_ifs <;> rfl
      have f3 : s3 = { s with
          mesh := { s.mesh with stri := Function.update s.mesh.stri (m.sub x) (0, 0) }
          smark := s1.smark
          vmark := s3.vmark } := by
        rw [e3, e2, f1]
      have hvm : s1.vmark = s.vmark := by rw [f1]
      refine ⟨s3, [], ?_, ?_⟩
      · simp only [r1, t2, Outcome.bind_ok, r2, t3, List.append_nil]
      have g1 : s3.mesh.nbr = m.nbr := by rw [f3]; exact I.nbr
      have g2 : s3.mesh.corner = m.corner := by rw [f3]; exact I.corner
      have g3 : s3.mesh.sub = s.mesh.sub := by rw [f3]
      have g4 : s3.sick = s.sick := by rw [f3]
      have g5 : s3.freed = s.freed := by rw [f3]
      have g6 : s3.mesh.stri = Function.update s.mesh.stri (m.sub x) (0, 0) := by rw [f3]
      have g7 : s3.smark = s1.smark := by rw [f3]
      have g8 : s3.vmark = fun u => if s.vmark u = 0 ∧ (u = v ∨ u = w) then 1 else s.vmark u := by
        funext u
        rw [m3, m2, hvm]
        exact touch_two s.vmark v w u
      have g9 : s3.smark = fun u => if s.smark u = 0 ∧ u = (m.sub x).1 then 1 else s.smark u := by
        funext u
        rw [g7, f1m]
        exact touch_one s.smark _ u
      clear_value s1
      rw [List.append_nil]
      exact {
        nodup := I.nodup
        live := I.live
        sick := by rw [g4]; exact I.sick
        nbr := g1
        corner := g2
        doomed := I.doomed
        hd := by rintro y (hy | rfl); exacts [I.hd y hy, hx]
        closed := by
          rintro y (hy | rfl) h1 h2
          · exact I.closed y hy h1 h2
          · exact absurd h2 hs
        sub := by
          intro y hy
          rw [g3, g5]
          rcases I.sub y hy with h1 | ⟨h1, h2, h3, h4⟩
          · exact Or.inl h1
          · exact Or.inr ⟨h1, Or.inl h2, h3, h4⟩
        freed := by
          intro k hk'
          rw [g5] at hk'
          rw [g3]
          obtain ⟨a1, x0, a2, a3, a4⟩ := I.freed k hk'
          exact ⟨a1, x0, Or.inl a2, a3, a4⟩
        once := by rw [g5]; exact I.once
        freed' := by
          rw [g5]
          rintro y (hy | rfl) h1 h2
          · rcases h2 with h2 | h2 | h2
            · exact I.freed' y hy h1 (Or.inl h2)
            · exact I.freed' y hy h1 (Or.inr h2)
            · have hyL := I.live _ (I.hd _ hy)
              have : m.nbr y ≠ (0, 0) := by rw [h2]; rintro rfl; exact hdum hL
              have := (h.across hyL this).2.1
              rw [h2] at this
              rw [this] at hnD
              exact absurd (I.hd _ hy) hnD
          · rcases h2 with h2 | h2 | h2
            · exact absurd h2 hn0
            · exact absurd (I.hd _ h2) hnD
            · exact absurd (congrArg Prod.fst h2) hne
        cut := by
          rintro y (hy | rfl) h1 h2 h3
          · obtain ⟨a1, a2, a3⟩ := I.cut y hy h1 h2 h3
            refine ⟨?_, ?_, fun v' w' hv => ?_⟩
            · rw [g6]; simp only [Function.update_apply]; split_ifs
              · rfl
              · exact a1
            · rw [g9]; dsimp only; split_ifs
              · exact one_ne_zero
              · exact a2
            · obtain ⟨b1, b2⟩ := a3 v' w' hv
              rw [g8]; dsimp only
              constructor <;> split_ifs <;> first | exact one_ne_zero | assumption
          · refine ⟨?_, ?_, fun v' w' hv => ?_⟩
            · rw [g6]; simp
            · rw [g9]; dsimp only; split_ifs with hq
              · exact one_ne_zero
              · intro hz; exact hq ⟨hz, rfl⟩
            · have i1 := k2.2.1.symm.trans hv.2.1
              have i2 := k2.2.2.symm.trans hv.2.2
              cases i1; cases i2
              rw [g8]; dsimp only
              constructor <;> split_ifs with hq <;> first
                | exact one_ne_zero
                | (intro hz; exact hq ⟨hz, by simp⟩)
        keep := by
          intro y h1 h2 h3
          have hyx : y ≠ x := fun hh => h3 (Or.inr hh)
          rw [g6]
          have : m.sub y ≠ m.sub x := by
            intro hh
            have b1 := g.back y h1 h2
            have b2 := g.back x hL hs
            rw [hh, b2] at b1
            exact hyx b1.symm
          simp only [Function.update_apply, this, if_false]
          exact I.keep y h1 h2 (fun h4 => h3 (Or.inl h4))
        smarks := by
          intro k
          rw [g9]; dsimp only
          split_ifs with hq
          · rcases I.smarks k with h1 | ⟨h1, h2, x0, h3, h4⟩
            · exact Or.inr ⟨by rw [← h1]; exact hq.1, rfl, x, Or.inr rfl, hq.2.symm⟩
            · rw [hq.1] at h2; exact absurd h2 (by decide)
          · rcases I.smarks k with h1 | ⟨h1, h2, x0, h3, h4⟩
            · exact Or.inl h1
            · exact Or.inr ⟨h1, h2, x0, Or.inl h3, h4⟩
        vmarks := by
          intro u
          rw [g8]; dsimp only
          split_ifs with hq
          · rcases I.vmarks u with h1 | ⟨h1, h2, x0, w0, h3, h4, h5⟩
            · refine Or.inr ⟨by rw [← h1]; exact hq.1, rfl, ?_⟩
              rcases hq.2 with rfl | rfl
              · exact ⟨x, w, Or.inr rfl, hs, Or.inl ⟨hL, k1.2.1, k1.2.2⟩⟩
              · exact ⟨x, v, Or.inr rfl, hs, Or.inr ⟨hL, k1.2.1, k1.2.2⟩⟩
            · rw [hq.1] at h2; exact absurd h2 (by decide)
          · rcases I.vmarks u with h1 | ⟨h1, h2, x0, w0, h3, h4, h5⟩
            · exact Or.inl h1
            · exact Or.inr ⟨h1, h2, x0, w0, Or.inl h3, h4, h5⟩
        dead := by rw [f3]; exact I.dead
        undead := by rw [f3]; exact I.undead
        hullsize := by rw [f3]; exact I.hullsize }
omit h g p in
theorem Inv1.uninfect {H : Otri → Prop} {D : List Nat} {s : Carve} {t : Nat} (I : Inv1 m L P s0 H D none s) :
    Inv1 m L P s0 H D (some t) (s.uninfect (t, 0)) where
  nodup := I.nodup
  live := I.live
  sick := by
    intro u
    simp only [Carve.uninfect, Function.update_apply, ne_eq, Option.some.injEq]
    by_cases hu : u = t
    · simp [hu]
    · simp only [hu, if_false]
      rw [I.sick u]
      exact ⟨fun a => ⟨a.1, fun b => hu b.symm⟩, fun a => ⟨a.1, by simp⟩⟩
  nbr := I.nbr
  corner := I.corner
  doomed := I.doomed
  hd := I.hd
  closed := I.closed
  sub := I.sub
  freed := I.freed
  once := I.once
  freed' := I.freed'
  cut := I.cut
  keep := I.keep
  smarks := I.smarks
  vmarks := I.vmarks
  dead := I.dead
  undead := I.undead
  hullsize := I.hullsize

omit h g p in
theorem Inv1.infect {H : Otri → Prop} {D : List Nat} {s : Carve} {t : Nat} (I : Inv1 m L P s0 H D (some t) s)
    (ht : t ∈ D) : Inv1 m L P s0 H D none (s.infect (t, 0)) where
  nodup := I.nodup
  live := I.live
  sick := by
    intro u
    simp only [Carve.infect, Function.update_apply]
    by_cases hu : u = t
    · simp [hu, ht]
    · simp only [hu, if_false]
      rw [I.sick u]
      exact ⟨fun a => ⟨a.1, by simp⟩, fun a => ⟨a.1, fun b => hu (Option.some.inj b).symm⟩⟩
  nbr := I.nbr
  corner := I.corner
  doomed := I.doomed
  hd := I.hd
  closed := I.closed
  sub := I.sub
  freed := I.freed
  once := I.once
  freed' := I.freed'
  cut := I.cut
  keep := I.keep
  smarks := I.smarks
  vmarks := I.vmarks
  dead := I.dead
  undead := I.undead
  hullsize := I.hullsize

/-- One triangle. -/
theorem spreadTri_inv {seen pool : List Nat} {t : Nat} {s : Carve}
    (I : Inv1 m L P s0 (fun y => y.1 ∈ seen) (seen ++ t :: pool) none s) :
    ∃ s' new, Carve.spreadTri t s pool = .ok (s', pool ++ new) ∧
      Inv1 m L P s0 (fun y => y.1 ∈ seen ++ [t]) ((seen ++ [t]) ++ (pool ++ new)) none s' := by
  have hts : t ∉ seen := by
    have := I.nodup
    rw [List.nodup_append] at this
    intro hh
    exact this.2.2 t hh t (by simp) rfl
  obtain ⟨s1, n1, r1, I1⟩ := spreadEdge_inv h g p (x := (t, 0)) pool (Inv1.uninfect I) (by simp) (by simpa using hts)
  obtain ⟨s2, n2, r2, I2⟩ := spreadEdge_inv h g p (x := (t, 1)) (pool ++ n1) I1 (by simp)
    (by simp only [not_or]; exact ⟨hts, by simp⟩)
  obtain ⟨s3, n3, r3, I3⟩ := spreadEdge_inv h g p (x := (t, 2)) ((pool ++ n1) ++ n2) I2 (by simp)
    (by simp only [not_or]; exact ⟨⟨hts, by simp⟩, by simp⟩)
  refine ⟨s3.infect (t, 0), n1 ++ n2 ++ n3, ?_, ?_⟩
  · unfold Carve.spreadTri
    dsimp only at r1
    simp only [r1, r2, r3, Outcome.bind_ok]
    simp only [List.append_assoc]
  · have I4 := Inv1.infect I3 (by simp)
    have e1 : (fun y : Otri => ((y.1 ∈ seen ∨ y = (t, 0)) ∨ y = (t, 1)) ∨ y = (t, 2)) = fun y => y.1 ∈ seen ++ [t] := by
      funext y
      apply propext
      rw [List.mem_append, List.mem_singleton]
      constructor
      · rintro (((a | rfl) | rfl) | rfl)
        · exact Or.inl a
        all_goals exact Or.inr rfl
      · rintro (a | a)
        · exact Or.inl (Or.inl (Or.inl a))
        · rcases handle_cases (t, 0) y a with rfl | rfl | rfl
          · exact Or.inl (Or.inl (Or.inr rfl))
          · exact Or.inl (Or.inr rfl)
          · exact Or.inr rfl
    have e2 : (((seen ++ t :: pool) ++ n1) ++ n2) ++ n3 = (seen ++ [t]) ++ (pool ++ (n1 ++ n2 ++ n3)) := by
      simp [List.append_assoc]
    rw [e1, e2] at I4
    exact I4

/-- The first phase ends, and infects what it should. -/
theorem spread_inv {ts : List Nat} (hts : ∀ t, L t → t ∈ ts) : ∀ (fuel : Nat) (s : Carve) (seen pool : List Nat),
    Inv1 m L P s0 (fun y => y.1 ∈ seen) (seen ++ pool) none s → ts.length ≤ fuel + seen.length →
    ∃ s' D, Carve.spread fuel s seen pool = .ok (s', D) ∧ (∃ new, D = seen ++ pool ++ new) ∧
      Inv1 m L P s0 (fun y => y.1 ∈ D) D none s' := by
  intro fuel
  induction fuel with
  | zero =>
    intro s seen pool I hf
    cases pool with
    | nil =>
      rw [List.append_nil] at I
      exact ⟨s, seen, by unfold Carve.spread; rfl, ⟨[], by simp⟩, I⟩
    | cons t pool =>
      exfalso
      have := (List.subperm_of_subset I.nodup (fun t ht => hts t (I.live t ht))).length_le
      simp only [List.length_append, List.length_cons] at this
      omega
  | succ fuel ih =>
    intro s seen pool I hf
    cases pool with
    | nil =>
      rw [List.append_nil] at I
      exact ⟨s, seen, by unfold Carve.spread; rfl, ⟨[], by simp⟩, I⟩
    | cons t pool =>
      obtain ⟨s1, new, r1, I1⟩ := spreadTri_inv h g p I
      obtain ⟨s2, D, r2, ⟨new', hD⟩, I2⟩ := ih s1 (seen ++ [t]) (pool ++ new) I1 (by simp; omega)
      refine ⟨s2, D, ?_, ⟨new ++ new', ?_⟩, I2⟩
      · rw [Carve.spread, r1]; exact r2
      · rw [hD]; simp [List.append_assoc]

end
end Delynoi.Tri
