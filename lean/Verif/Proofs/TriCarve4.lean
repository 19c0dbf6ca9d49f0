import Verif.Proofs.TriCarve3
import Mathlib.Data.Set.Finite.Basic
import Mathlib.Data.List.ProdSigma
/-! # `plague` as a whole -/
set_option linter.unusedSectionVars false
namespace Delynoi.Tri

variable {m : Heap} {ts P : List Nat} {s : Carve}

theorem handles (ts : List Nat) : ∃ hs : List Otri, (∀ y, y ∈ hs ↔ y.1 ∈ ts) ∧ hs.length = 3 * ts.length := by
  induction ts with
  | nil => exact ⟨[], by simp, rfl⟩
  | cons t ts ih =>
    obtain ⟨hs, h1, h2⟩ := ih
    refine ⟨(t, 0) :: (t, 1) :: (t, 2) :: hs, ?_, by simp [h2]; omega⟩
    rintro ⟨u, o⟩
    simp only [List.mem_cons, Prod.mk.injEq, h1]
    rcases fin3_cases o with rfl | rfl | rfl <;> simp

/-- What both phases leave behind. -/
theorem plague_inv (r : Ready m ts P s) {fuel : Nat} (hf : 3 * ts.length ≤ fuel) :
    ∃ s1 s' D R T, Carve.plague fuel s P = .ok s' ∧ (∀ t, t ∈ D ↔ Doomed m (· ∈ ts) P t) ∧
      Inv1 m (· ∈ ts) P s (fun y => y.1 ∈ D) D none s1 ∧
      Inv2 m (· ∈ ts) D s1 R (fun y => y.1 ∈ D) T D s' := by
  have I0 : Inv1 m (· ∈ ts) P s (fun y => y.1 ∈ ([] : List Nat)) ([] ++ P) none s := by
    rw [List.nil_append]
    exact {
      nodup := r.nodup
      live := r.live
      sick := by simp [r.sick]
      nbr := by rw [r.mesh]
      corner := by rw [r.mesh]
      doomed := fun t ht => Doomed.start ht
      hd := by simp
      closed := by simp
      sub := fun y _ => Or.inl (by rw [r.mesh])
      freed := by simp [r.freed]
      once := by simp [r.freed]
      freed' := by simp
      cut := by simp
      keep := fun y hy hn _ => by rw [r.mesh]; exact r.segmented.back y hy hn
      smarks := fun k => Or.inl rfl
      vmarks := fun v => Or.inl rfl
      dead := rfl
      undead := rfl
      hullsize := rfl }
  obtain ⟨s1, D, e1, ⟨new, hD⟩, I1⟩ := spread_inv r.linked r.segmented r.proper (fun t ht => ht) fuel s [] P I0
    (by simp; omega)
  have hDoom : ∀ t, t ∈ D ↔ Doomed m (· ∈ ts) P t := by
    intro t
    constructor
    · exact I1.doomed t
    · intro hd
      induction hd with
      | start ht => rw [hD]; simp [ht]
      | spread _ hl hs ih => exact I1.closed _ ih hl hs
  classical
  obtain ⟨hs, hmem, hlen⟩ := handles ts
  have hhs : ∀ y : Otri, y.1 ∈ ts → y ∈ hs := fun y hy => (hmem y).2 hy
  have I2 : Inv2 m (· ∈ ts) D s1 hs.toFinset (fun y => y.1 ∈ ([] : List Nat)) (fun _ => False) [] s1 := by
    exact {
      sick := rfl
      sub := rfl
      stri := rfl
      smark := rfl
      vmark := rfl
      freed := rfl
      dead := by rw [I1.dead, r.dead]
      keep := by rw [I1.corner]; exact fun _ _ _ => rfl
      lost := fun _ _ _ _ h => h.elim
      left := by rw [I1.corner]; exact fun _ _ _ h _ => h
      linked := by rw [I1.nbr]; exact fun _ _ _ _ => rfl
      unlinked := fun _ _ _ h => by simp at h
      dummy := by rw [I1.nbr]
      tested := fun _ _ h => by simp at h
      only := fun _ h => h.elim
      once := by rw [I1.undead, r.undead]; simp
      undead := by rw [I1.undead, r.undead]; simp
      range := by
        intro y
        rw [List.mem_toFinset]
        constructor
        · intro h
          exact ⟨(hmem y).1 h, by simp⟩
        · exact fun h => hhs y h.1
      hull := by
        rw [I1.hullsize, r.hullsize, I1.nbr]
        unfold hullEdges
        rw [← Set.ncard_coe_finset]
        congr 2
        ext y
        simp only [Set.mem_ofPred_eq, Finset.coe_filter, List.mem_toFinset]
        constructor
        · exact fun h => ⟨hhs y h.1, h.2⟩
        · rintro ⟨h1, h2⟩
          exact ⟨(hmem y).1 h1, h2⟩ }
  obtain ⟨s', R, T, e2, I3⟩ := killAll_inv r.linked r.proper r.fans I1.live
    (fun t => by rw [I1.sick]; simp) I1.nodup hhs (fuel := fuel) (by omega) D [] s1 _ _ rfl I2
  exact ⟨s1, s', D, R, T, by unfold Carve.plague; rw [e1]; exact e2, hDoom, I1, I3⟩

section
variable {s1 s' : Carve} {D : List Nat} {R : Finset Otri} {T : Nat → Prop}
  (hD : ∀ t, t ∈ D ↔ Doomed m (· ∈ ts) P t) (I1 : Inv1 m (· ∈ ts) P s (fun y => y.1 ∈ D) D none s1)
  (I : Inv2 m (· ∈ ts) D s1 R (fun y => y.1 ∈ D) T D s')
include hD I

theorem stays_corner {y : Otri} (hy : Stays m ts P y.1) : s'.mesh.corner y = m.corner y :=
  I.keep y hy.1 (fun h => hy.2 ((hD _).1 h))

theorem stays_nbr {y : Otri} (hy : Stays m ts P y.1) :
    (Doomed m (· ∈ ts) P (m.nbr y).1 → s'.mesh.nbr y = (0, 0)) ∧
    (¬ Doomed m (· ∈ ts) P (m.nbr y).1 → s'.mesh.nbr y = m.nbr y) :=
  ⟨fun h => I.unlinked y hy.1 (fun h' => hy.2 ((hD _).1 h')) ((hD _).2 h),
   fun h => I.linked y hy.1 (fun h' => hy.2 ((hD _).1 h')) (fun h' => h ((hD _).1 h'))⟩

theorem stays_dir {x : Otri} {v w : Nat} : s'.mesh.Dir (Stays m ts P) x v w ↔ Stays m ts P x.1 ∧ m.Dir (· ∈ ts) x v w := by
  unfold Heap.Dir
  constructor
  · rintro ⟨h1, h2, h3⟩
    have c : ∀ o, s'.mesh.corner (x.1, o) = m.corner (x.1, o) := fun o => stays_corner hD I (y := (x.1, o)) h1
    rw [c] at h2 h3
    exact ⟨h1, h1.1, h2, h3⟩
  · rintro ⟨h1, -, h2, h3⟩
    have c : ∀ o, s'.mesh.corner (x.1, o) = m.corner (x.1, o) := fun o => stays_corner hD I (y := (x.1, o)) h1
    exact ⟨h1, (c _).trans h2, (c _).trans h3⟩

theorem stays_linked (h : Linked m (· ∈ ts)) : Linked s'.mesh (Stays m ts P) where
  dummy := fun h0 => h.dummy h0.1
  corners := by
    intro t ht o
    rw [stays_corner hD I (y := (t, o)) ht]
    exact h.corners t ht.1 o
  once := by
    intro x y v w h1 h2
    rw [stays_dir hD I] at h1 h2
    exact h.once x y v w h1.2 h2.2
  links := by
    intro x hx
    by_cases hd : Doomed m (· ∈ ts) P (m.nbr x).1
    · exact Or.inl ((stays_nbr hD I hx).1 hd)
    · rw [(stays_nbr hD I hx).2 hd]
      rcases h.links x hx.1 with e | ⟨v, w, h1, h2⟩
      · exact Or.inl e
      · refine Or.inr ⟨v, w, ?_, ?_⟩
        · rw [stays_dir hD I]; exact ⟨hx, h1⟩
        · rw [stays_dir hD I]; exact ⟨⟨h2.1, hd⟩, h2⟩
  complete := by
    intro x y v w h1 h2
    rw [stays_dir hD I] at h1 h2
    have e := h.complete x y v w h1.2 h2.2
    rw [(stays_nbr hD I h1.1).2 (by rw [e]; exact h2.1.2)]
    exact e

include I1

theorem stays_sub {y : Otri} (hy : Stays m ts P y.1) : s'.mesh.sub y = m.sub y := by
  rw [I.sub]
  rcases I1.sub y hy.1 with e | ⟨-, -, -, e⟩
  · exact e
  · exact absurd ((hD _).1 e) hy.2

theorem stays_segmented (h : Linked m (· ∈ ts)) (g : Segmented m (· ∈ ts)) : Segmented s'.mesh (Stays m ts P) := by
  have nb : ∀ x, Stays m ts P x.1 → Stays m ts P (s'.mesh.nbr x).1 → s'.mesh.nbr x = m.nbr x := by
    intro x hx hn
    by_cases hd : Doomed m (· ∈ ts) P (m.nbr x).1
    · rw [(stays_nbr hD I hx).1 hd] at hn; exact absurd hn.1 h.dummy
    · exact (stays_nbr hD I hx).2 hd
  refine ⟨?_, ?_, ?_, ?_, ?_⟩
  · intro x hx hs
    rw [stays_sub hD I1 I hx] at hs ⊢
    rw [I.stri]
    exact I1.keep x hx.1 hs (fun h' => hx.2 ((hD _).1 h'))
  · intro x hx hs
    rw [stays_sub hD I1 I hx] at hs ⊢
    exact g.none x hx.1 hs
  · intro x hx hn hs
    have e := nb x hx hn
    rw [stays_sub hD I1 I hn, e]
    rw [e] at hn
    rw [stays_sub hD I1 I hx] at hs ⊢
    exact g.both x hx.1 hn.1 hs
  · intro x hx hn hs
    have e := nb x hx hn
    rw [stays_sub hD I1 I hn, e]
    rw [e] at hn
    rw [stays_sub hD I1 I hx] at hs
    exact g.neither x hx.1 hn.1 hs
  · intro x y hx hy hs he
    rw [stays_sub hD I1 I hx] at hs he
    rw [stays_sub hD I1 I hy] at he
    rcases g.same x y hx.1 hy.1 hs he with e | e
    · exact Or.inl e
    · right
      rw [(stays_nbr hD I hx).2 (by rw [← e]; exact hy.2)]; exact e

theorem freed_iff (h : Linked m (· ∈ ts)) (g : Segmented m (· ∈ ts)) (k : Nat) : k ∈ s'.freed ↔
    k ≠ 0 ∧ (∃ x : Otri, x.1 ∈ ts ∧ (m.sub x).1 = k) ∧
    ∀ x : Otri, x.1 ∈ ts → (m.sub x).1 = k → Doomed m (· ∈ ts) P x.1 := by
  rw [I.freed]
  constructor
  · intro hk
    obtain ⟨hk0, x, hx, e, hn⟩ := I1.freed k hk
    refine ⟨hk0, ⟨x, I1.live _ hx, e⟩, ?_⟩
    intro y hy ey
    rw [← hD]
    rcases g.same x y (I1.live _ hx) hy (e ▸ hk0) (e.trans ey.symm) with rfl | rfl
    · exact hx
    · rcases hn with hn | ⟨hn, -⟩
      · rw [hn] at hy; exact absurd hy h.dummy
      · exact hn
  · rintro ⟨hk0, ⟨x, hx, e⟩, hall⟩
    rw [← e]
    refine I1.freed' x ((hD _).2 (hall x hx e)) (e ▸ hk0) ?_
    rcases h.links x hx with e0 | ⟨v, w, -, h2⟩
    · exact Or.inl (by rw [e0])
    · right
      refine (hD _).2 (hall _ h2.1 ?_)
      rw [g.both x hx h2.1 (e ▸ hk0)]; exact e

theorem stays_hull : s'.hullsize = hullEdges s'.mesh (Stays m ts P) := by
  rw [I.hull]
  unfold hullEdges
  rw [← Set.ncard_coe_finset]
  congr 2
  ext y
  simp only [Finset.coe_filter, Set.mem_ofPred_eq, I.range, Stays, hD]

theorem undead_iff (v : Nat) : v ∈ s'.undead ↔
    (∃ y : Otri, y.1 ∈ ts ∧ m.corner y = some v) ∧
    ∀ y : Otri, y.1 ∈ ts → m.corner y = some v → Doomed m (· ∈ ts) P y.1 := by
  rw [I.undead]
  constructor
  · rintro ⟨hT, hall⟩
    obtain ⟨y, hy, e⟩ := I.only v hT
    exact ⟨⟨y, I1.live _ hy, e⟩, fun z hz ez => (hD _).1 (hall z hz ez)⟩
  · rintro ⟨⟨y, hy, e⟩, hall⟩
    exact ⟨I.tested y v ((hD _).2 (hall y hy e)) e, fun z hz ez => (hD _).2 (hall z hz ez)⟩

/-- A subsegment between a triangle that stays and one that goes. -/
theorem cut_spec (h : Linked m (· ∈ ts)) (g : Segmented m (· ∈ ts)) {y : Otri} (hy : Stays m ts P y.1)
    (hn : Doomed m (· ∈ ts) P (m.nbr y).1) (hn0 : (m.nbr y).1 ∈ ts) :
    (m.sub y).1 ≠ 0 ∧ s'.mesh.stri ((m.sub y).1, !(m.sub y).2) = (0, 0) ∧ s'.smark (m.sub y).1 ≠ 0 ∧
      ∀ v w, m.Dir (· ∈ ts) y v w → s'.vmark v ≠ 0 ∧ s'.vmark w ≠ 0 := by
  have hne : m.nbr y ≠ (0, 0) := by
    intro e; rw [e] at hn0; exact h.dummy hn0
  have hback := (h.across hy.1 hne).2.1
  have hs : (m.sub y).1 ≠ 0 := by
    intro e
    apply hy.2
    have e2 := g.neither y hy.1 hn0 e
    have := Doomed.spread (L := (· ∈ ts)) hn (by rw [hback]; exact hy.1) e2
    rwa [hback] at this
  have e2 := g.both y hy.1 hn0 hs
  have hc := I1.cut (m.nbr y) ((hD _).2 hn) (by rw [e2]; exact hs) (by rw [hback]; exact hy.1)
    (by rw [hback]; exact fun h' => hy.2 ((hD _).1 h'))
  rw [hback, e2] at hc
  rw [I.stri, I.smark, I.vmark]
  exact ⟨hs, hc⟩
end
end Delynoi.Tri
