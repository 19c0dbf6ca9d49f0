import Verif.Proofs.TriCarve5
import Mathlib.Tactic.Ring
/-! # `carveholes` -/
set_option linter.unusedSectionVars false
namespace Delynoi.Tri

theorem ccwDet_turn {K : Type} [Field K] [LinearOrder K] (a b c : Pt K) : Carve.ccwDet a b c = turn a b c := by
  unfold Carve.ccwDet turn; ring

variable {K : Type} [Field K] [LinearOrder K] {locate : Heap → Pt K → Otri → Outcome (Option Otri)}
  {pos : Nat → Pt K} {lo hi : Pt K}

theorem infectHoles_spec {m : Heap} {ts : List Nat} (h : Linked m (· ∈ ts)) (h0 : Hull m (· ∈ ts) (m.nbr (0, 0)))
    (hloc : ∀ p, ∃ r, locate m p (m.nbr (0, 0)) = .ok r ∧ ∀ x, r = some x → x.1 ∈ ts) :
    ∀ (holes : List (Pt K)) (s : Carve) (pool : List Nat), s.mesh = m → (∀ t, s.sick t = true ↔ t ∈ pool) → pool.Nodup →
    ∃ s' pool', Carve.infectHoles locate pos lo hi holes s pool = .ok (s', pool') ∧ s' = { s with sick := s'.sick } ∧
      (∀ t, s'.sick t = true ↔ t ∈ pool') ∧ pool'.Nodup ∧
      ∀ t, t ∈ pool' ↔ t ∈ pool ∨ HoleIn m ts locate pos lo hi holes t := by
  intro holes
  induction holes with
  | nil =>
    intro s pool hm hs hn
    exact ⟨s, pool, rfl, rfl, hs, hn, fun t => ⟨Or.inl, fun hh => hh.elim id (fun ⟨p, hp, _⟩ => by simp at hp)⟩⟩
  | cons p holes ih =>
    intro s pool hm hs hn
    obtain ⟨a, ha⟩ := h.corners _ h0.1 ((m.nbr (0, 0)).2 + 1)
    obtain ⟨b, hb⟩ := h.corners _ h0.1 ((m.nbr (0, 0)).2 + 2)
    have hd : m.Dir (· ∈ ts) (m.nbr (0, 0)) a b := ⟨h0.1, ha, hb⟩
    have more : ∀ t, HoleIn m ts locate pos lo hi holes t → HoleIn m ts locate pos lo hi (p :: holes) t :=
      fun t ⟨q, hq, hh⟩ => ⟨q, List.mem_cons_of_mem _ hq, hh⟩
    -- a point that infects nothing
    have skip : (∀ t, HoleIn m ts locate pos lo hi (p :: holes) t → t ∈ pool ∨ HoleIn m ts locate pos lo hi holes t) →
        ∃ s' pool', Carve.infectHoles locate pos lo hi holes s pool = .ok (s', pool') ∧ s' = { s with sick := s'.sick } ∧
          (∀ t, s'.sick t = true ↔ t ∈ pool') ∧ pool'.Nodup ∧
          ∀ t, t ∈ pool' ↔ t ∈ pool ∨ HoleIn m ts locate pos lo hi (p :: holes) t := by
      intro hno
      obtain ⟨s', pool', r, e, k1, k2, k3⟩ := ih s pool hm hs hn
      refine ⟨s', pool', r, e, k1, k2, fun t => ?_⟩
      rw [k3]
      exact ⟨fun hh => hh.imp id (more t), fun hh => hh.elim Or.inl (hno t)⟩
    rw [Carve.infectHoles]
    by_cases hbox : lo.x ≤ p.x ∧ p.x ≤ hi.x ∧ lo.y ≤ p.y ∧ p.y ≤ hi.y
    · rw [if_pos hbox]
      have e1 : s.mesh.org (s.mesh.sym (0, 0)) = some a := by
        rw [hm]; exact ha
      have e2 : s.mesh.dest (s.mesh.sym (0, 0)) = some b := by
        rw [hm]; exact hb
      simp only [e1, e2, ccwDet_turn]
      by_cases ht : 0 < turn (pos a) (pos b) p
      · rw [if_pos ht]
        obtain ⟨r, hr, hrl⟩ := hloc p
        have hr' : locate s.mesh p (s.mesh.sym (0, 0)) = .ok r := by rw [hm]; exact hr
        rw [hr']
        simp only [Outcome.bind_ok]
        cases r with
        | none =>
          refine skip ?_
          rintro t ⟨q, hq, h1, h2, x, h3, h4⟩
          rcases List.mem_cons.1 hq with rfl | hq
          · rw [hr] at h3; cases h3
          · exact Or.inr ⟨q, hq, h1, h2, x, h3, h4⟩
        | some x =>
          simp only
          have here : HoleIn m ts locate pos lo hi (p :: holes) x.1 := ⟨p, by simp, hbox, ⟨a, b, hd, ht⟩, x, hr, rfl⟩
          have split : ∀ t, HoleIn m ts locate pos lo hi (p :: holes) t → t = x.1 ∨ HoleIn m ts locate pos lo hi holes t := by
            rintro t ⟨q, hq, h1, h2, y, h3, h4⟩
            rcases List.mem_cons.1 hq with rfl | hq
            · rw [hr] at h3; cases h3; exact Or.inl h4.symm
            · exact Or.inr ⟨q, hq, h1, h2, y, h3, h4⟩
          by_cases hx : s.sick x.1 = true
          · rw [if_pos hx]
            refine skip (fun t hh => (split t hh).imp (fun e => ?_) id)
            rw [e]; exact (hs _).1 hx
          · rw [if_neg hx]
            have hxp : x.1 ∉ pool := fun hh => hx ((hs _).2 hh)
            obtain ⟨s', pool', r, e, k1, k2, k3⟩ := ih (s.infect x) (pool ++ [x.1]) hm (by
              intro t
              simp only [Carve.infect, Function.update_apply, List.mem_append, List.mem_singleton]
              split_ifs with e
              · simp [e]
              · rw [hs]; simp [e]) (by
              rw [List.nodup_append]
              refine ⟨hn, by simp, ?_⟩
              intro a ha b hb
              rw [List.mem_singleton] at hb; subst hb
              rintro rfl; exact hxp ha)
            refine ⟨s', pool', r, by rw [e]; rfl, k1, k2, fun t => ?_⟩
            rw [k3, List.mem_append, List.mem_singleton]
            constructor
            · rintro ((h1 | rfl) | h1)
              · exact Or.inl h1
              · exact Or.inr here
              · exact Or.inr (more t h1)
            · rintro (h1 | h1)
              · exact Or.inl (Or.inl h1)
              · rcases split t h1 with h1 | h1
                · exact Or.inl (Or.inr h1)
                · exact Or.inr h1
      · rw [if_neg ht]
        refine skip ?_
        rintro t ⟨q, hq, h1, ⟨a', b', hd', h2⟩, x, h3, h4⟩
        rcases List.mem_cons.1 hq with rfl | hq
        · have i1 := hd.2.1.symm.trans hd'.2.1
          have i2 := hd.2.2.symm.trans hd'.2.2
          cases i1; cases i2
          exact absurd h2 ht
        · exact Or.inr ⟨q, hq, h1, ⟨a', b', hd', h2⟩, x, h3, h4⟩
    · rw [if_neg hbox]
      refine skip ?_
      rintro t ⟨q, hq, h1, h2⟩
      rcases List.mem_cons.1 hq with rfl | hq
      · exact absurd h1 hbox
      · exact Or.inr ⟨q, hq, h1, h2⟩

theorem Doomed.live {m : Heap} {L : Nat → Prop} {P : List Nat} {t : Nat} (hd : Doomed m L P t) (hP : ∀ t ∈ P, L t) : L t := by
  cases hd with
  | start ht => exact hP _ ht
  | spread _ hl _ => exact hl

/-- What `carveholes` infects. -/
theorem carve_ready {ts : List Nat} {s : Carve} (w : Whole ts s) (convex noholes : Bool) (holes : List (Pt K))
    (hloc : ∀ p, ∃ r, locate s.mesh p (s.mesh.nbr (0, 0)) = .ok r ∧ ∀ x, r = some x → x.1 ∈ ts)
    {fuel : Nat} (hf : 3 * ts.length ≤ fuel) :
    ∃ s1 P, Carve.carveholes locate pos lo hi convex noholes holes fuel s = Carve.plague fuel s1 P ∧
      Ready s.mesh ts P s1 ∧
      (∀ t, t ∈ P ↔ (convex = false ∧ Unprotected s.mesh ts t) ∨
        (noholes = false ∧ HoleIn s.mesh ts locate pos lo hi holes t)) ∧
      (convex = false → ∀ x, Hull s.mesh (· ∈ ts) x → x.1 ∉ P → s1.smark (s.mesh.sub x).1 ≠ 0 ∧
        (s.smark (s.mesh.sub x).1 = 0 → ∀ v w, s.mesh.Dir (· ∈ ts) x v w → s1.vmark v ≠ 0 ∧ s1.vmark w ≠ 0)) ∧
      (∀ k, s1.smark k = s.smark k ∨ (s.smark k = 0 ∧ s1.smark k = 1 ∧ ∃ x, Hull s.mesh (· ∈ ts) x ∧ (s.mesh.sub x).1 = k ∧ k ≠ 0)) ∧
      (∀ v, s1.vmark v = s.vmark v ∨ (s.vmark v = 0 ∧ s1.vmark v = 1 ∧
        ∃ x w, Hull s.mesh (· ∈ ts) x ∧ (s.mesh.sub x).1 ≠ 0 ∧ (s.mesh.Dir (· ∈ ts) x v w ∨ s.mesh.Dir (· ∈ ts) x w v))) := by
  have plagueNil : ∀ s' : Carve, Carve.plague fuel s' [] = .ok s' := by
    intro s'
    unfold Carve.plague Carve.spread
    rfl
  have last : ∀ r : Carve × List Nat, (if r.2 = [] then Outcome.ok r.1 else Carve.plague fuel r.1 r.2) = Carve.plague fuel r.1 r.2 := by
    rintro ⟨s', P⟩
    by_cases hP : P = []
    · simp only [hP, if_true]; exact (plagueNil s').symm
    · simp only [hP, if_false]
  -- the boundary
  obtain ⟨s1, P1, r1, hs1, hn1, hm1, he1, hb⟩ : ∃ s1 P1, (if convex then Outcome.ok (s, []) else Carve.infecthull fuel s) = .ok (s1, P1) ∧
      (∀ t, s1.sick t = true ↔ t ∈ P1) ∧ P1.Nodup ∧ (∀ t, t ∈ P1 ↔ convex = false ∧ Unprotected s.mesh ts t) ∧
      s1 = { s with sick := s1.sick, smark := s1.smark, vmark := s1.vmark } ∧
      (convex = false → ∀ x, Hull s.mesh (· ∈ ts) x → x.1 ∉ P1 → s1.smark (s.mesh.sub x).1 ≠ 0 ∧
        (s.smark (s.mesh.sub x).1 = 0 → ∀ v w, s.mesh.Dir (· ∈ ts) x v w → s1.vmark v ≠ 0 ∧ s1.vmark w ≠ 0)) ∧
      (∀ k, s1.smark k = s.smark k ∨ (s.smark k = 0 ∧ s1.smark k = 1 ∧ ∃ x, Hull s.mesh (· ∈ ts) x ∧ (s.mesh.sub x).1 = k ∧ k ≠ 0)) ∧
      (∀ v, s1.vmark v = s.vmark v ∨ (s.vmark v = 0 ∧ s1.vmark v = 1 ∧
        ∃ x w, Hull s.mesh (· ∈ ts) x ∧ (s.mesh.sub x).1 ≠ 0 ∧ (s.mesh.Dir (· ∈ ts) x v w ∨ s.mesh.Dir (· ∈ ts) x w v))) := by
    cases convex with
    | true => exact ⟨s, [], rfl, by simp [w.sick], by simp, by simp, rfl, by simp, fun k => Or.inl rfl, fun v => Or.inl rfl⟩
    | false =>
      obtain ⟨V, P1, s1, r, I, hV⟩ := infecthull_spec w.linked w.segmented w.fans w.hull w.start w.sick hf
      have hmem : ∀ t, t ∈ P1 ↔ Unprotected s.mesh ts t := by
        intro t
        rw [I.mem]
        constructor
        · rintro ⟨x, h1, h2⟩; exact ⟨x, (hV x).1 h1, h2⟩
        · rintro ⟨x, h1, h2⟩; exact ⟨x, (hV x).2 h1, h2⟩
      refine ⟨s1, P1, r, I.sick, I.nodup, fun t => by simp [hmem t], I.eq, fun _ x hx hp => ?_, fun k => ?_, fun v => ?_⟩
      · refine I.marked x ((hV x).2 hx) (fun h0 => hp ?_) hp
        rw [hmem]; exact ⟨x, hx, rfl, h0⟩
      · exact (I.smarks k).imp id (fun ⟨a, b, x, c, d⟩ => ⟨a, b, x, (hV x).1 c, d⟩)
      · exact (I.vmarks v).imp id (fun ⟨a, b, x, c, d, w, e⟩ => ⟨a, b, x, w, (hV x).1 c, d, e⟩)
  have em1 : s1.mesh = s.mesh := by rw [he1]
  -- the holes
  obtain ⟨s2, P2, r2, he2, hs2, hn2, hm2⟩ : ∃ s2 P2, (if noholes then Outcome.ok (s1, P1) else Carve.infectHoles locate pos lo hi holes s1 P1) = .ok (s2, P2) ∧
      s2 = { s1 with sick := s2.sick } ∧ (∀ t, s2.sick t = true ↔ t ∈ P2) ∧ P2.Nodup ∧
      ∀ t, t ∈ P2 ↔ t ∈ P1 ∨ (noholes = false ∧ HoleIn s.mesh ts locate pos lo hi holes t) := by
    cases noholes with
    | true => exact ⟨s1, P1, rfl, rfl, hs1, hn1, by simp⟩
    | false =>
      obtain ⟨s2, P2, r, e, k1, k2, k3⟩ := infectHoles_spec w.linked w.start hloc (pos := pos) (lo := lo) (hi := hi) holes s1 P1 em1 hs1 hn1
      exact ⟨s2, P2, r, e, k1, k2, fun t => by simp [k3 t]⟩
  refine ⟨s2, P2, ?_, ?_, ?_, ?_, ?_, ?_⟩
  · unfold Carve.carveholes
    rw [r1]
    simp only [Outcome.bind_ok]
    rw [r2]
    simp only [Outcome.bind_ok]
    exact last (s2, P2)
  · exact {
      linked := w.linked
      segmented := w.segmented
      proper := w.proper
      fans := w.fans
      mesh := by rw [he2]; exact em1
      nodup := hn2
      live := by
        intro t ht
        rw [hm2, hm1] at ht
        rcases ht with ⟨-, x, hx, rfl, -⟩ | ⟨-, p, -, -, -, x, hx, rfl⟩
        · exact hx.1
        · obtain ⟨r, hr, hl⟩ := hloc p
          rw [hr] at hx
          exact hl x (by cases hx; rfl)
      sick := hs2
      freed := by rw [he2, he1]; exact w.freed
      dead := by rw [he2, he1]; exact w.dead
      undead := by rw [he2, he1]; exact w.undead
      hullsize := by rw [he2, he1]; exact w.hullsize }
  · intro t; rw [hm2, hm1]
  · have e1 : s2.smark = s1.smark := by rw [he2]
    have e2 : s2.vmark = s1.vmark := by rw [he2]
    rw [e1, e2]
    exact fun hc x hx hp => hb.1 hc x hx (fun hh => hp ((hm2 _).2 (Or.inl hh)))
  · have e1 : s2.smark = s1.smark := by rw [he2]
    rw [e1]; exact hb.2.1
  · have e2 : s2.vmark = s1.vmark := by rw [he2]
    rw [e2]; exact hb.2.2

end Delynoi.Tri
