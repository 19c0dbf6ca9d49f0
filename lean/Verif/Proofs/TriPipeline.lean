import Verif.Model.TriPipeline
import Verif.Props.TriHoles
import Verif.Proofs.TriEncroach5
/-! # Carving keeps what the splitting of subsegments needs -/
set_option linter.unusedSectionVars false
namespace Delynoi.Tri

/-- Subsegments have only forgotten triangles. -/
def Fades (s s' : Carve) : Prop := ∀ o, s'.mesh.stri o = s.mesh.stri o ∨ s'.mesh.stri o = (0, 0)

theorem Fades.refl (s : Carve) : Fades s s := fun _ => Or.inl rfl
theorem Fades.of_eq {s s' : Carve} (h : s'.mesh.stri = s.mesh.stri) : Fades s s' := fun o => Or.inl (by rw [h])
theorem Fades.trans {s s' s'' : Carve} (h : Fades s s') (h' : Fades s' s'') : Fades s s'' := fun o => by
  rcases h' o with k | k
  · rw [k]; exact h o
  · exact Or.inr k

theorem bind_eq_ok {α β : Type} {x : Outcome α} {f : α → Outcome β} {b : β} (h : (x >>= f) = .ok b) : ∃ a, x = .ok a ∧ f a = .ok b := by
  cases x with
  | ok a => exact ⟨a, rfl, h⟩
  | exn => cases h
  | ub => cases h

theorem subsegdealloc_fades {s s' : Carve} {k : Nat} (h : s.subsegdealloc k = .ok s') : Fades s s' := by
  unfold Carve.subsegdealloc at h
  split at h
  · cases h
  · cases h; exact Fades.of_eq rfl

theorem touchVertex_fades {s s' : Carve} {v : Option Nat} (h : s.touchVertex v = .ok s') : Fades s s' := by
  unfold Carve.touchVertex at h
  split at h
  · split at h
    · cases h; exact Fades.of_eq rfl
    · cases h; exact Fades.refl _
  · cases h

theorem touchSeg_fades (s : Carve) (k : Nat) : Fades s (s.touchSeg k) := by
  unfold Carve.touchSeg
  split
  · exact Fades.of_eq rfl
  · exact Fades.refl _

theorem stdissolve_fades (s : Carve) (o : Osub) : Fades s (s.stdissolve o) := by
  intro o'
  by_cases h : o' = o
  · right; subst h; exact Function.update_self ..
  · left; exact Function.update_of_ne h _ _

theorem spreadEdge_fades {x : Otri} {s : Carve} {pool : List Nat} {r : Carve × List Nat} (h : Carve.spreadEdge x s pool = .ok r) : Fades s r.1 := by
  unfold Carve.spreadEdge at h
  simp only [] at h
  split at h
  · split at h
    · obtain ⟨s1, h1, h⟩ := bind_eq_ok h
      refine (subsegdealloc_fades h1).trans ?_
      split at h
      · cases h; exact Fades.of_eq rfl
      · cases h; exact Fades.refl _
    · cases h; exact Fades.refl _
  · split at h
    · cases h; exact Fades.of_eq rfl
    · split at h
      · cases h
      · obtain ⟨s1, h1, h⟩ := bind_eq_ok h
        obtain ⟨s2, h2, h⟩ := bind_eq_ok h
        cases h
        exact (((stdissolve_fades _ _).trans (touchSeg_fades _ _)).trans (touchVertex_fades h1)).trans (touchVertex_fades h2)

theorem spreadTri_fades {t : Nat} {s : Carve} {pool : List Nat} {r : Carve × List Nat} (h : Carve.spreadTri t s pool = .ok r) : Fades s r.1 := by
  unfold Carve.spreadTri at h
  obtain ⟨r1, h1, h⟩ := bind_eq_ok h
  obtain ⟨r2, h2, h⟩ := bind_eq_ok h
  obtain ⟨r3, h3, h⟩ := bind_eq_ok h
  cases h
  have k : Fades s (s.uninfect (t, 0)) := Fades.of_eq rfl
  exact (((k.trans (spreadEdge_fades h1)).trans (spreadEdge_fades h2)).trans (spreadEdge_fades h3)).trans (Fades.of_eq rfl)

theorem spread_fades : ∀ {fuel : Nat} {s : Carve} {seen pool : List Nat} {r : Carve × List Nat}, Carve.spread fuel s seen pool = .ok r → Fades s r.1
  | fuel, s, seen, [], r, h => by
    cases fuel <;> (unfold Carve.spread at h; cases h; exact Fades.refl _)
  | 0, _, _, _ :: _, _, h => by unfold Carve.spread at h; cases h
  | fuel + 1, s, seen, t :: pool, r, h => by
    unfold Carve.spread at h
    obtain ⟨r1, h1, h⟩ := bind_eq_ok h
    exact (spreadTri_fades h1).trans (spread_fades h)

theorem visit_fades {x : Otri} {s : Carve} {k : Bool} {r : Carve × Bool} (h : Carve.visit x s k = .ok r) : Fades s r.1 := by
  unfold Carve.visit at h
  split at h
  · cases h
  · split at h <;> cases h
    · exact Fades.of_eq rfl
    · exact Fades.refl _

theorem walkCcw_fades {start : Otri} : ∀ {fuel : Nat} {x : Otri} {s : Carve} {k : Bool} {r : Carve × Bool × Otri},
    Carve.walkCcw start fuel x s k = .ok r → Fades s r.1
  | fuel, x, s, k, r, h => by
    unfold Carve.walkCcw at h
    split at h
    · cases h; exact Fades.refl _
    · cases fuel with
      | zero => cases h
      | succ fuel =>
        obtain ⟨r1, h1, h⟩ := bind_eq_ok h
        exact (visit_fades h1).trans (walkCcw_fades h)

theorem walkCw_fades : ∀ {fuel : Nat} {x : Otri} {s : Carve} {k : Bool} {r : Carve × Bool},
    Carve.walkCw fuel x s k = .ok r → Fades s r.1
  | fuel, x, s, k, r, h => by
    unfold Carve.walkCw at h
    split at h
    · cases h; exact Fades.refl _
    · cases fuel with
      | zero => cases h
      | succ fuel =>
        obtain ⟨r1, h1, h⟩ := bind_eq_ok h
        exact (visit_fades h1).trans (walkCw_fades h)

theorem killCorner_fades {fuel : Nat} {x : Otri} {s s' : Carve} (h : Carve.killCorner fuel x s = .ok s') : Fades s s' := by
  unfold Carve.killCorner at h
  split at h
  · cases h; exact Fades.refl _
  · obtain ⟨r1, h1, h⟩ := bind_eq_ok h
    obtain ⟨r2, h2, h⟩ := bind_eq_ok h
    have k0 := walkCcw_fades h1
    have k1 : Fades s r1.1 := fun o => k0 o
    have k2 : Fades r1.1 r2.1 := by
      split at h2
      · exact walkCw_fades h2
      · cases h2; exact Fades.refl _
    refine (k1.trans k2).trans ?_
    split at h <;> cases h
    · exact Fades.of_eq rfl
    · exact Fades.refl _

theorem killEdge_fades (x : Otri) (s : Carve) : Fades s (Carve.killEdge x s) := by
  unfold Carve.killEdge
  simp only []
  split <;> exact Fades.of_eq rfl

theorem killTri_fades {fuel t : Nat} {s s' : Carve} (h : Carve.killTri fuel t s = .ok s') : Fades s s' := by
  unfold Carve.killTri at h
  obtain ⟨s1, h1, h⟩ := bind_eq_ok h
  obtain ⟨s2, h2, h⟩ := bind_eq_ok h
  obtain ⟨s3, h3, h⟩ := bind_eq_ok h
  have k := ((killCorner_fades h1).trans (killCorner_fades h2)).trans (killCorner_fades h3)
  have k := ((k.trans (killEdge_fades (t, 0) _)).trans (killEdge_fades (t, 1) _)).trans (killEdge_fades (t, 2) _)
  refine k.trans ?_
  unfold Carve.triangledealloc at h
  simp only [] at h
  split at h
  · cases h
  · cases h; exact Fades.of_eq rfl

theorem killAll_fades {fuel : Nat} : ∀ {pool : List Nat} {s s' : Carve}, Carve.killAll fuel pool s = .ok s' → Fades s s'
  | [], s, s', h => by unfold Carve.killAll at h; cases h; exact Fades.refl _
  | t :: pool, s, s', h => by
    unfold Carve.killAll at h
    obtain ⟨s1, h1, h⟩ := bind_eq_ok h
    exact (killTri_fades h1).trans (killAll_fades h)

theorem plague_fades {fuel : Nat} {s s' : Carve} {pool : List Nat} (h : Carve.plague fuel s pool = .ok s') : Fades s s' := by
  unfold Carve.plague at h
  obtain ⟨r, h1, h⟩ := bind_eq_ok h
  exact (spread_fades h1).trans (killAll_fades h)

/-- An edge that has a subsegment keeps it, with its links. -/
theorem insertsubseg_old {s s' : Segs} {x : Otri} {k : Int} (h0 : (s.mesh.sub x).1 ≠ 0) (hr : s.insertsubseg x k = .ok s') : s'.mesh = s.mesh := by
  unfold Segs.insertsubseg at hr
  obtain ⟨s1, h1, hr⟩ := bind_eq_ok hr
  obtain ⟨s2, h2, hr⟩ := bind_eq_ok hr
  have em := (markVertex_mesh h2).1.trans (markVertex_mesh h1).1
  have h0 : (s2.mesh.tspivot x).1 ≠ 0 := by rw [em]; exact h0
  simp only [if_neg h0] at hr
  split at hr <;> cases hr <;> exact em

/-- What `insertsubseg` keeps. -/
theorem insertsubseg_keeps {K : Type} [Field K] [LinearOrder K] [IsStrictOrderedRing K] {s : Segs} {L : Nat → Prop} {pos : Nat → Pt K} {x : Otri} {v w : Nat} (M : SegMesh s L)
    (hd : s.mesh.Dir L x v w) (hD : ConstrainedDelaunay true s.mesh L pos) (B : Bare s.mesh L) (C : Chained s) (k : Int) :
    ∃ s', s.insertsubseg x k = .ok s' ∧ SegMesh s' L ∧ ConstrainedDelaunay true s'.mesh L pos ∧ Bare s'.mesh L ∧ Chained s' := by
  obtain ⟨s', e, M', b⟩ := insertsubseg_spec M hd k
  have hcount : s.count ≤ s'.count := by
    by_cases h0 : (s.mesh.sub x).1 = 0
    · rw [(b.new h0).1]; omega
    · rw [(b.old h0).2.1]
  refine ⟨s', e, M', ?_, ?_, ?_⟩
  · intro y hy hn hs
    rw [b.nbr] at hn
    have h0 : (s.mesh.sub y).1 = 0 := by
      by_cases hyx : y = x ∨ y = s.mesh.nbr x
      · by_contra hne
        have hx0 : (s.mesh.sub x).1 ≠ 0 := by
          rcases hyx with rfl | rfl
          · exact hne
          · intro h; exact hne (M.segmented.neither x hd.1 hy h)
        exact hne (by rw [← (b.old hx0).1]; exact hs rfl)
      · rw [← b.other y hy (fun h => hyx (Or.inl h)) (fun h => hyx (Or.inr h))]
        exact hs rfl
    have := hD y hy hn (fun _ => h0)
    unfold LocallyDelaunay Heap.Tri3 at this ⊢
    rw [b.nbr, b.corner]
    exact this
  · by_cases h0 : (s.mesh.sub x).1 = 0
    · obtain ⟨j1, j2⟩ := insertsubseg_stri h0 e
      intro y hy hs hn
      rw [b.nbr] at hn
      by_cases hyx : y = x
      · subst hyx
        have hb := M'.segmented.back y hy hs
        have h1 := (b.new h0).2.1
        have h2 : s'.mesh.sub y = (s.count + 1, false) := by
          rcases hsub : s'.mesh.sub y with ⟨n, t⟩
          rw [hsub] at h1
          simp only at h1
          subst h1
          cases t
          · rfl
          · rw [hsub, j2, hn] at hb
            rw [← hb] at hy
            exact absurd hy M.linked.dummy
        rw [h2]
        show (s'.mesh.stri (s.count + 1, true)).1 = 0
        rw [j2, hn]
      · by_cases hyn : y = s.mesh.nbr x
        · have hne : s.mesh.nbr x ≠ (0, 0) := by rintro h; rw [hyn, h] at hy; exact M.linked.dummy hy
          have hback := (M.linked.across hd.1 hne).2.1
          rw [hyn, hback] at hn
          have hL := hd.1
          rw [hn] at hL
          exact absurd hL M.linked.dummy
        · have ho := b.other y hy hyx hyn
          rw [ho] at hs ⊢
          rw [j1 (ssym (s.mesh.sub y)) (M.endpointed.made y hy)]
          exact B y hy hs hn
    · rw [insertsubseg_old h0 e]
      exact B
  · intro o o0 ho
    by_cases hle : o.1 ≤ s.count
    · rw [b.slink o hle]
      obtain ⟨k1, k2⟩ := C o o0 hle
      exact ⟨by omega, k2⟩
    · have h0 : (s.mesh.sub x).1 = 0 := by
        by_contra h0
        rw [(b.old h0).2.1] at ho
        exact hle ho
      have hc := (b.new h0).1
      rw [b.alone h0 o (by omega)]
      exact ⟨Nat.zero_le _, fun h => o0 (by rw [← h])⟩

variable {K : Type} [Field K] [LinearOrder K] [IsStrictOrderedRing K]

/-- What `plague` keeps. -/
theorem plague_keeps {s : Segs} {ts P : List Nat} {c : Carve} {fuel : Nat} {pos : Nat → Pt K} (r : Ready s.mesh ts P c) (hf : 3 * ts.length ≤ fuel)
    (E : Endpointed s (· ∈ ts)) (f : Flat s.mesh (· ∈ ts) pos) (hD : ConstrainedDelaunay true s.mesh (· ∈ ts) pos) (B : Bare s.mesh (· ∈ ts))
    (C : Chained s) :
    ∃ c', Carve.plague fuel c P = .ok c' ∧ SegMesh (s.carved c') (Stays s.mesh ts P) ∧ Flat c'.mesh (Stays s.mesh ts P) pos ∧
      ConstrainedDelaunay true c'.mesh (Stays s.mesh ts P) pos ∧ Bare c'.mesh (Stays s.mesh ts P) ∧ Chained (s.carved c') ∧
      (∀ v w, c'.mesh.Adj (Stays s.mesh ts P) v w → s.mesh.Adj (· ∈ ts) v w) ∧
      (∀ y : Otri, Stays s.mesh ts P y.1 → c'.mesh.sub y = s.mesh.sub y) ∧
      ∀ k, k ∈ c'.freed ↔ k ≠ 0 ∧ (∃ x : Otri, x.1 ∈ ts ∧ (s.mesh.sub x).1 = k) ∧
        ∀ x : Otri, x.1 ∈ ts → (s.mesh.sub x).1 = k → ¬ Stays s.mesh ts P x.1 := by
  obtain ⟨c', e, hlink, hkeep⟩ := C136_linked r hf
  obtain ⟨c1, e1, hseg, hsub⟩ := C136_segments r hf
  obtain ⟨c2, e2, hflat⟩ := C136_flat r f hf
  obtain ⟨c3, e3, hcut⟩ := C136_cut r hf
  obtain ⟨c4, e4, -, hfreed⟩ := C136_freed r hf
  obtain rfl := Outcome.ok.inj (e1.symm.trans e)
  obtain rfl := Outcome.ok.inj (e2.symm.trans e)
  obtain rfl := Outcome.ok.inj (e3.symm.trans e)
  obtain rfl := Outcome.ok.inj (e4.symm.trans e)
  have hcor : ∀ (t : Nat) o, Stays s.mesh ts P t → c4.mesh.corner (t, o) = s.mesh.corner (t, o) := fun t o ht => (hkeep (t, o) ht).1
  have t3 : ∀ x v a b, c4.mesh.Tri3 (Stays s.mesh ts P) x v a b → s.mesh.Tri3 (· ∈ ts) x v a b := by
    rintro x v a b ⟨h1, h2, h3, h4⟩
    exact ⟨h1.1, (hcor x.1 x.2 h1).symm.trans h2, (hcor _ _ h1).symm.trans h3, (hcor _ _ h1).symm.trans h4⟩
  have hdir : ∀ x v w, c4.mesh.Dir (Stays s.mesh ts P) x v w → s.mesh.Dir (· ∈ ts) x v w := by
    rintro x v w ⟨h1, h2, h3⟩
    exact ⟨h1.1, (hcor _ _ h1).symm.trans h2, (hcor _ _ h1).symm.trans h3⟩
  refine ⟨c4, e, ⟨hlink, hseg, ?_, ?_⟩, hflat, ?_, ?_, ?_, ?_, hsub, hfreed⟩
  · intro t ht o o' h
    have h : c4.mesh.corner (t, o) = c4.mesh.corner (t, o') := h
    rw [hcor t o ht, hcor t o' ht] at h
    exact r.proper t ht.1 o o' h
  · constructor
    · intro x hx
      show (c4.mesh.sub x).1 ≤ s.count
      rw [hsub x hx]
      exact E.made x hx.1
    · intro x v w hd h0
      have h0 : (c4.mesh.sub x).1 ≠ 0 := h0
      show s.send (c4.mesh.sub x) = some w ∧ s.send ((c4.mesh.sub x).1, !(c4.mesh.sub x).2) = some v
      rw [hsub x hd.1] at h0 ⊢
      exact E.ends x v w (hdir x v w hd) h0
  · intro x hx hn h0
    have hS : Stays s.mesh ts P (s.mesh.nbr x).1 := by
      by_contra hns
      exact hn ((hkeep x hx).2.2 hns)
    have hnn := (hkeep x hx).2.1 hS
    have := hD x hx.1 (by rw [← hnn]; exact hn) (fun h => by rw [← hsub x hx]; exact h0 h)
    intro v a b d T T'
    rw [hnn] at T'
    exact this v a b d (t3 _ _ _ _ T) (t3 _ _ _ _ T')
  · intro y hy h0 hn
    rw [hsub y hy] at h0 ⊢
    by_cases hin : (s.mesh.nbr y).1 ∈ ts
    · by_cases hS : Stays s.mesh ts P (s.mesh.nbr y).1
      · rw [(hkeep y hy).2.1 hS] at hn
        rw [hn] at hin
        exact absurd hin r.linked.dummy
      · have := (hcut y hy hin hS).2.2.1
        show (c4.mesh.stri ((s.mesh.sub y).1, !(s.mesh.sub y).2)).1 = 0
        rw [this]
    · have hn0 : s.mesh.nbr y = (0, 0) := by
        rcases r.linked.links y hy.1 with k | ⟨v, w, -, k⟩
        · exact k
        · exact absurd k.1 hin
      have hb := B y hy.1 h0 hn0
      rcases plague_fades e (ssym (s.mesh.sub y)) with k | k
      · rw [k, r.mesh]; exact hb
      · rw [k]
  · exact C
  · rintro v w ⟨x, h | h⟩
    · exact ⟨x, Or.inl (hdir _ _ _ h)⟩
    · exact ⟨x, Or.inr (hdir _ _ _ h)⟩

end Delynoi.Tri
