import Verif.Proofs.TriGhost2
import Verif.Proofs.TriGhost3
import Verif.Proofs.TriCarve6
import Mathlib.Tactic.Linarith
import Mathlib.Tactic.Ring
import Mathlib.Data.Rat.Defs
import Mathlib.Algebra.Order.Ring.Rat
/-!
# C166, C167: the smallest triangulations, and the removal of the bounding triangles
-/
set_option linter.unusedSectionVars false
namespace Delynoi
open Tri
variable {K : Type} [Field K] [LinearOrder K] [IsStrictOrderedRing K]

/-- C166: two vertices become an edge between two bounding triangles; `farleft` starts at the first vertex and
`farright` ends at the second one; the third vertex of both is NULL. -/
theorem C166_two (m : Heap) {n1 n2 v0 v1 : Nat} (hn : [0, n1, n2].Nodup) (hv : v0 ≠ v1) :
    ∃ m' fl fr, m.divconq2 n1 n2 v0 v1 = (m', fl, fr) ∧ Ghosted m' [] [fl, (n1, 1)] ∧ m'.org fl = some v0 ∧ m'.dest fl = none ∧
      m'.org fr = none ∧ m'.dest fr = some v1 ∧ fr.1 ∈ [n1, n2] ∧
      ∀ x : Otri, x.1 ∉ [n1, n2] → m'.corner x = m.corner x ∧ m'.nbr x = m.nbr x := by
  simp only [List.nodup_cons, List.mem_cons, List.not_mem_nil, or_false, not_or, List.nodup_nil, and_true, not_false_eq_true] at hn
  obtain ⟨⟨h1, h2⟩, h12⟩ := hn
  obtain ⟨r1, r2, r3⟩ := divconq2_table m h12 v0 v1
  have G := divconq2_ghosted m h12 (Ne.symm h1) (Ne.symm h2) hv
  refine ⟨_, (n2, 1), (n2, 2), by simp [Heap.divconq2, lprev, lnext], G, ?_, ?_, ?_, ?_, by simp, ?_⟩
  · exact r2.c2
  · exact r2.c0
  · exact r2.c0
  · exact r2.c1
  · intro x hx
    simp only [List.mem_cons, List.not_mem_nil, or_false, not_or] at hx
    exact r3 x hx.1 hx.2

/-- C166: three vertices on a line become two edges between four bounding triangles. -/
theorem C166_line (m : Heap) {pos : Nat → Pt K} {n0 n1 n2 n3 v0 v1 v2 : Nat} (hn : [0, n0, n1, n2, n3].Nodup) (hv : [v0, v1, v2].Nodup)
    (ht : turn (pos v0) (pos v1) (pos v2) = 0) :
    ∃ m' fl fr, m.divconq3 pos n0 n1 n2 n3 v0 v1 v2 = (m', fl, fr) ∧ Ghosted m' [] [fl, (n2, 1), (n3, 1), (n0, 1)] ∧ m'.org fl = some v0 ∧ m'.dest fl = none ∧
      m'.org fr = none ∧ m'.dest fr = some v2 ∧ fr.1 ∈ [n0, n1, n2, n3] ∧
      (∀ v w, m'.Adj (· ∈ [n0, n1, n2, n3]) v w ↔ (v = v0 ∧ w = v1) ∨ (v = v1 ∧ w = v0) ∨ (v = v1 ∧ w = v2) ∨ (v = v2 ∧ w = v1)) ∧
      ∀ x : Otri, x.1 ∉ [n0, n1, n2, n3] → m'.corner x = m.corner x ∧ m'.nbr x = m.nbr x := by
  simp only [List.nodup_cons, List.mem_cons, List.not_mem_nil, or_false, not_or, List.nodup_nil, and_true, not_false_eq_true] at hn hv
  obtain ⟨⟨k0, k1, k2, k3⟩, ⟨h01, h02, h03⟩, ⟨h12, h13⟩, h23⟩ := hn
  obtain ⟨⟨v01, v02⟩, v12⟩ := hv
  have ha : Carve.ccwDet (pos v0) (pos v1) (pos v2) = 0 := by rw [ccwDet_turn]; exact ht
  obtain ⟨m', fl, fr, e⟩ : ∃ m' fl fr, m.divconq3 pos n0 n1 n2 n3 v0 v1 v2 = (m', fl, fr) := ⟨_, _, _, rfl⟩
  have e' := e
  unfold Heap.divconq3 at e'
  simp only [if_pos ha] at e'
  obtain ⟨rfl, rfl, r0, r1, r2, r3, r4⟩ := divconqLine_table m h01 h02 h03 h12 h13 h23 v0 v1 v2 e'
  refine ⟨m', _, _, e, line_ghosted h01 h02 h03 h12 h13 h23 (Ne.symm k0) (Ne.symm k1) (Ne.symm k2) (Ne.symm k3) v01 v02 v12 r0 r1 r2 r3,
    r1.c2, r1.c0, r2.c0, r2.c1, by simp, ?_, ?_⟩
  · obtain ⟨a1, a2, a3, a4, a5, a6⟩ := r0
    obtain ⟨b1, b2, b3, b4, b5, b6⟩ := r1
    obtain ⟨c1, c2, c3, c4, c5, c6⟩ := r2
    obtain ⟨d1, d2, d3, d4, d5, d6⟩ := r3
    intro v w
    constructor
    · rintro ⟨⟨t, o⟩, h⟩
      have ht : t ∈ [n0, n1, n2, n3] := by rcases h with h | h <;> exact h.1
      unfold Heap.Dir at h
      simp only [List.mem_cons, List.not_mem_nil, or_false] at ht
      rcases ht with rfl | rfl | rfl | rfl <;> fin_cases o <;> simp [*] at h <;> (rcases h with h | h <;> obtain ⟨rfl, rfl⟩ := h <;> simp)
    · rintro (⟨rfl, rfl⟩ | ⟨rfl, rfl⟩ | ⟨rfl, rfl⟩ | ⟨rfl, rfl⟩)
      · exact ⟨(n0, 0), Or.inl ⟨by simp, a2, a3⟩⟩
      · exact ⟨(n1, 0), Or.inl ⟨by simp, b2, b3⟩⟩
      · exact ⟨(n3, 0), Or.inl ⟨by simp, d2, d3⟩⟩
      · exact ⟨(n2, 0), Or.inl ⟨by simp, c2, c3⟩⟩
  · intro x hx
    simp only [List.mem_cons, List.not_mem_nil, or_false, not_or] at hx
    exact r4 x hx.1 hx.2.1 hx.2.2.1 hx.2.2.2

/-- C166: three other vertices become a counter-clockwise triangle with three bounding triangles. -/
theorem C166_triangle (m : Heap) {pos : Nat → Pt K} {n0 n1 n2 n3 v0 v1 v2 : Nat} (hn : [0, n0, n1, n2, n3].Nodup)
    (ht : turn (pos v0) (pos v1) (pos v2) ≠ 0) :
    ∃ m' fl fr, m.divconq3 pos n0 n1 n2 n3 v0 v1 v2 = (m', fl, fr) ∧ Ghosted m' [n0] [fl, (n2, 1), (n3, 1)] ∧ Solid m' [n0] [fl, (n2, 1), (n3, 1)] ∧
      m'.org fl = some v0 ∧ m'.dest fl = none ∧ m'.org fr = none ∧ m'.dest fr = some v2 ∧ fr.1 ∈ [n0, n1, n2, n3] ∧
      (∃ a b, m'.Tri3 (· ∈ [n0]) (n0, 1) v0 a b ∧ 0 < turn (pos v0) (pos a) (pos b) ∧ (a = v1 ∧ b = v2 ∨ a = v2 ∧ b = v1)) ∧
      ∀ x : Otri, x.1 ∉ [n0, n1, n2, n3] → m'.corner x = m.corner x ∧ m'.nbr x = m.nbr x := by
  have v01 : v0 ≠ v1 := by rintro rfl; exact ht (by unfold turn; ring)
  have v02 : v0 ≠ v2 := by rintro rfl; exact ht (by unfold turn; ring)
  have v12 : v1 ≠ v2 := by rintro rfl; exact ht (by unfold turn; ring)
  simp only [List.nodup_cons, List.mem_cons, List.not_mem_nil, or_false, not_or, List.nodup_nil, and_true, not_false_eq_true] at hn
  obtain ⟨⟨k0, k1, k2, k3⟩, ⟨h01, h02, h03⟩, ⟨h12, h13⟩, h23⟩ := hn
  have ha : Carve.ccwDet (pos v0) (pos v1) (pos v2) = turn (pos v0) (pos v1) (pos v2) := ccwDet_turn _ _ _
  obtain ⟨m', fl, fr, e⟩ : ∃ m' fl fr, m.divconq3 pos n0 n1 n2 n3 v0 v1 v2 = (m', fl, fr) := ⟨_, _, _, rfl⟩
  have e' := e
  unfold Heap.divconq3 at e'
  simp only [ha, if_neg ht] at e'
  obtain ⟨rfl, hfr, r0, r1, r2, r3, r4⟩ := divconqTri_table m h01 h02 h03 h12 h13 h23 _ v0 v1 v2 e'
  have frame : ∀ x : Otri, x.1 ∉ [n0, n1, n2, n3] → m'.corner x = m.corner x ∧ m'.nbr x = m.nbr x := by
    intro x hx
    simp only [List.mem_cons, List.not_mem_nil, or_false, not_or] at hx
    exact r4 x hx.1 hx.2.1 hx.2.2.1 hx.2.2.2
  have solid : Solid m' [n0] [(n1, 1), (n2, 1), (n3, 1)] := by
    intro g hg
    have q1 : m'.nbr (n1, 1 + 2) = (n0, 0) := r1.n0
    have q2 : m'.nbr (n2, 1 + 2) = (n0, 1) := r2.n0
    have q3 : m'.nbr (n3, 1 + 2) = (n0, 2) := r3.n0
    simp only [List.mem_cons, List.not_mem_nil, or_false] at hg
    rcases hg with rfl | rfl | rfl
    · simp only [q1]; simp
    · simp only [q2]; simp
    · simp only [q3]; simp
  by_cases hp : 0 < turn (pos v0) (pos v1) (pos v2)
  · simp only [hp, decide_true, if_true] at hfr r0 r1 r2 r3
    subst hfr
    exact ⟨m', _, _, e, tri_ghosted h01 h02 h03 h12 h13 h23 (Ne.symm k0) (Ne.symm k1) (Ne.symm k2) (Ne.symm k3) v01 v02 v12 r0 r1 r2 r3, solid,
      r1.c2, r1.c0, r2.c0, r2.c1, by simp, ⟨v1, v2, ⟨by simp, r0.c1, r0.c2, r0.c0⟩, hp, Or.inl ⟨rfl, rfl⟩⟩, frame⟩
  · simp only [hp, decide_false, Bool.false_eq_true, if_false] at hfr r0 r1 r2 r3
    subst hfr
    have hneg : 0 < turn (pos v0) (pos v2) (pos v1) := by
      have h1 : turn (pos v0) (pos v1) (pos v2) < 0 := lt_of_le_of_ne (not_lt.mp hp) ht
      have h2 : turn (pos v0) (pos v2) (pos v1) = - turn (pos v0) (pos v1) (pos v2) := by unfold turn; ring
      rw [h2]; linarith
    exact ⟨m', _, _, e, tri_ghosted h01 h02 h03 h12 h13 h23 (Ne.symm k0) (Ne.symm k1) (Ne.symm k2) (Ne.symm k3) v02 v01 (Ne.symm v12) r0 r1 r2 r3, solid,
      r1.c2, r1.c0, r1.c0, r1.c1, by simp, ⟨v2, v1, ⟨by simp, r0.c1, r0.c2, r0.c0⟩, hneg, Or.inr ⟨rfl, rfl⟩⟩, frame⟩

/-- C167: the bounding triangles are given back, each once and no other one; their number is that of the edges
on the boundary, and what stays is a mesh with correct links that can be searched from `dummytri`. -/
theorem C167_remove {m : Heap} {ts : List Nat} {g : Otri} {rest : List Otri} (G : Ghosted m ts (g :: rest)) (S : Solid m ts (g :: rest)) {s : Carve}
    (hm : s.mesh = m) (hdead : s.dead = []) (poly : Bool) {fuel : Nat} (hf : rest.length + 1 ≤ fuel) :
    ∃ s', s.removeghosts poly fuel g = .ok (s', rest.length + 1) ∧ s'.dead = (g :: rest).map Prod.fst ∧ Unghosted m ts (g :: rest) s'.mesh ∧
      s'.sick = s.sick ∧ s'.smark = s.smark ∧ s'.freed = s.freed ∧ s'.undead = s.undead := by
  obtain ⟨s', e, R⟩ := removeghosts_solid G S hm hdead poly hf
  have hs := R.same
  refine ⟨s', e, R.dead, ?_, by rw [hs], by rw [hs], by rw [hs], by rw [hs]⟩
  have h1 : s'.mesh.corner = m.corner := by rw [hs, ← hm]
  have h2 : s'.mesh.sub = m.sub := by rw [hs, ← hm]
  have h3 : s'.mesh.stri = m.stri := by rw [hs, ← hm]
  exact unghosted_of G S h1 h2 h3 R.cut R.keep (g0 := g) (by simp) R.dummy

/-- C167: without the switch p the vertices on the boundary get the mark 1 if they have none; with it all marks
stay.  The case that all vertices are on a line is missing; there it is false (`C167_line_marks_refuted`). -/
theorem C167_marks_partial {m : Heap} {ts : List Nat} {g : Otri} {rest : List Otri} (G : Ghosted m ts (g :: rest)) (S : Solid m ts (g :: rest)) {s s' : Carve}
    (hm : s.mesh = m) (hdead : s.dead = []) {poly : Bool} {fuel n : Nat} (hf : rest.length + 1 ≤ fuel) (e : s.removeghosts poly fuel g = .ok (s', n)) (v : Nat) :
    (poly = false → (∃ x w, Hull s'.mesh (· ∈ ts) x ∧ s'.mesh.Dir (· ∈ ts) x v w) → s'.vmark v = if s.vmark v = 0 then 1 else s.vmark v) ∧
    ((poly = true ∨ ¬ ∃ x w, Hull s'.mesh (· ∈ ts) x ∧ s'.mesh.Dir (· ∈ ts) x v w) → s'.vmark v = s.vmark v) := by
  obtain ⟨s1, e1, R⟩ := removeghosts_solid G S hm hdead poly hf
  obtain ⟨rfl, -⟩ : s1 = s' ∧ (g :: rest).length = n := by
    rw [e1] at e
    simpa using e
  have h1 : s1.mesh.corner = m.corner := by rw [R.same, ← hm]
  have hull := hull_ghost G S R.cut R.keep
  have key : (∃ x w, Hull s1.mesh (· ∈ ts) x ∧ s1.mesh.Dir (· ∈ ts) x v w) ↔ ∃ h ∈ g :: rest, m.corner (lnext h) = some v := by
    constructor
    · rintro ⟨x, w, hx, -, hv, -⟩
      obtain ⟨h, hh, rfl⟩ := (hull x).mp hx
      refine ⟨h, hh, ?_⟩
      rw [← base_org G hh, ← h1]
      exact hv
    · rintro ⟨h, hh, hv⟩
      obtain ⟨w, hw⟩ := G.real _ (S h hh) ((m.nbr (lprev h)).2 + 2)
      refine ⟨m.nbr (lprev h), w, (hull _).mpr ⟨h, hh, rfl⟩, S h hh, ?_, ?_⟩
      · rw [h1]; exact (base_org G hh).trans hv
      · rw [h1]; exact hw
  rw [key]
  refine ⟨fun hp => ?_, fun h => R.unmarked v ?_⟩
  · rintro ⟨h, hh, hv⟩
    exact R.marked hp h hh v hv
  · rcases h with h | h
    · exact Or.inl h
    · exact Or.inr fun h' hh' e' => h ⟨h', hh', e'⟩

/-- C167: if there are only bounding triangles (all vertices are on a line), all of them are given back, and
`dummytri` leads nowhere. -/
theorem C167_line {m : Heap} {g : Otri} {rest : List Otri} (G : Ghosted m [] (g :: rest)) {s : Carve} (hm : s.mesh = m) (hdead : s.dead = [])
    (poly : Bool) {fuel : Nat} (hf : rest.length + 1 ≤ fuel) :
    ∃ s', s.removeghosts poly fuel g = .ok (s', rest.length + 1) ∧ s'.dead = (g :: rest).map Prod.fst ∧ s'.mesh.nbr (0, 0) = (0, 0) :=
  removeghosts_line G hm hdead poly hf

/-- C167: three vertices that are not on a line, from the beginning to the end: one counter-clockwise triangle
with three edges on the boundary. -/
theorem C167_three {pos : Nat → Pt K} {n0 n1 n2 n3 v0 v1 v2 : Nat} (hn : [0, n0, n1, n2, n3].Nodup) (ht : turn (pos v0) (pos v1) (pos v2) ≠ 0)
    {s : Carve} (hdead : s.dead = []) (poly : Bool) :
    ∃ m' fl fr s', s.mesh.divconq3 pos n0 n1 n2 n3 v0 v1 v2 = (m', fl, fr) ∧ { s with mesh := m' }.removeghosts poly 3 fl = .ok (s', 3) ∧
      s'.dead = [n1, n2, n3] ∧ Linked s'.mesh (· ∈ [n0]) ∧ OneHull s'.mesh (· ∈ [n0]) ∧ Hull s'.mesh (· ∈ [n0]) (s'.mesh.nbr (0, 0)) ∧
      ∃ a b, s'.mesh.Tri3 (· ∈ [n0]) (n0, 1) v0 a b ∧ 0 < turn (pos v0) (pos a) (pos b) ∧ (a = v1 ∧ b = v2 ∨ a = v2 ∧ b = v1) := by
  obtain ⟨m', fl, fr, e, G, S, hor, hde, -, -, -, ⟨a, b, h3, hp, hab⟩, -⟩ := C166_triangle s.mesh hn ht
  obtain ⟨s', e', hd, U, -⟩ := C167_remove G S (s := { s with mesh := m' }) rfl hdead poly (fuel := 3) (by simp)
  have hfl : fl.1 = n1 := by
    unfold Heap.divconq3 at e
    rw [ccwDet_turn] at e
    simp only [if_neg ht, Heap.divconqTri, Prod.mk.injEq] at e
    rw [← e.2.1]
    rfl
  refine ⟨m', fl, fr, s', e, e', ?_, U.linked, U.hull, U.start, a, b, ?_, hp, hab⟩
  · rw [hd]
    simp [hfl]
  · unfold Heap.Tri3 at h3 ⊢
    rw [U.corner]
    exact h3

/-- An empty mesh. -/
def voidCarve : Carve where
  mesh := { nbr := fun _ => (0, 0), corner := fun _ => none, sub := fun _ => (0, false), stri := fun _ => (0, 0) }
  sick := fun _ => false
  smark := fun _ => 0
  vmark := fun _ => 0
  freed := []
  dead := []
  undead := []
  hullsize := 0

/-- Three points, in clockwise order. -/
def cornerPts : Nat → Pt ℚ := fun v => if v = 0 then ⟨0, 0⟩ else if v = 1 then ⟨1, 2⟩ else ⟨2, 1⟩

/-- C166, C167: three points. -/
example : ∃ m' fl fr s', voidCarve.mesh.divconq3 cornerPts 1 2 3 4 0 1 2 = (m', fl, fr) ∧ { voidCarve with mesh := m' }.removeghosts false 3 fl = .ok (s', 3) ∧
    s'.dead = [2, 3, 4] ∧ Linked s'.mesh (· ∈ [1]) := by
  obtain ⟨m', fl, fr, s', h1, h2, h3, h4, -⟩ := C167_three (pos := cornerPts) (n0 := 1) (n1 := 2) (n2 := 3) (n3 := 4) (v0 := 0) (v1 := 1) (v2 := 2)
    (by decide) (by unfold turn cornerPts; norm_num) (s := voidCarve) rfl false
  exact ⟨m', fl, fr, s', h1, h2, h3, h4⟩

/-- The vertices are 0, 2, 1 in counter-clockwise order, and all get the mark 1. -/
example : (match { voidCarve with mesh := (voidCarve.mesh.divconq3 cornerPts 1 2 3 4 0 1 2).1 }.removeghosts false 3
      (voidCarve.mesh.divconq3 cornerPts 1 2 3 4 0 1 2).2.1 with
    | .ok (s, n) => (n, [s.mesh.corner (1, 1), s.mesh.corner (1, 2), s.mesh.corner (1, 0)], [s.vmark 0, s.vmark 1, s.vmark 2, s.vmark 3])
    | _ => (0, [], [])) = (3, [some 0, some 2, some 1], [1, 1, 1, 0]) := by decide +kernel

/-- C167: the marks of the three vertices. -/
example {s' : Carve} {n : Nat} {m' : Heap} {fl fr : Otri} (h : voidCarve.mesh.divconq3 cornerPts 1 2 3 4 0 1 2 = (m', fl, fr))
    (e : { voidCarve with mesh := m' }.removeghosts true 3 fl = .ok (s', n)) (v : Nat) : s'.vmark v = 0 := by
  obtain ⟨m1, fl1, fr1, e1, G, S, -⟩ := C166_triangle voidCarve.mesh (pos := cornerPts) (n0 := 1) (n1 := 2) (n2 := 3) (n3 := 4) (v0 := 0) (v1 := 1) (v2 := 2)
    (by decide) (by unfold turn cornerPts; norm_num)
  rw [h] at e1
  obtain ⟨rfl, rfl, rfl⟩ : m' = m1 ∧ fl = fl1 ∧ fr = fr1 := by simpa using e1
  exact (C167_marks_partial G S (s := { voidCarve with mesh := m' }) rfl rfl (by simp) e v).2 (Or.inl rfl)

/-- C166, C167: three points on a line, and two points. -/
example : ∃ m' fl fr s', voidCarve.mesh.divconq3 (fun v => ⟨v, 2 * v⟩ : Nat → Pt ℚ) 1 2 3 4 0 1 2 = (m', fl, fr) ∧
    { voidCarve with mesh := m' }.removeghosts false 4 fl = .ok (s', 4) ∧ s'.mesh.nbr (0, 0) = (0, 0) := by
  obtain ⟨m', fl, fr, h1, G, -⟩ := C166_line voidCarve.mesh (pos := (fun v => ⟨v, 2 * v⟩ : Nat → Pt ℚ)) (n0 := 1) (n1 := 2) (n2 := 3) (n3 := 4) (v0 := 0) (v1 := 1) (v2 := 2)
    (by decide) (by decide) (by unfold turn; norm_num)
  obtain ⟨s', h2, -, h3⟩ := C167_line G (s := { voidCarve with mesh := m' }) rfl rfl false (fuel := 4) (by simp)
  exact ⟨m', fl, fr, s', h1, h2, h3⟩

example : ∃ m' fl fr s', voidCarve.mesh.divconq2 1 2 7 5 = (m', fl, fr) ∧
    { voidCarve with mesh := m' }.removeghosts false 2 fl = .ok (s', 2) ∧ s'.mesh.nbr (0, 0) = (0, 0) := by
  obtain ⟨m', fl, fr, h1, G, -⟩ := C166_two voidCarve.mesh (n1 := 1) (n2 := 2) (v0 := 7) (v1 := 5) (by decide) (by decide)
  obtain ⟨s', h2, -, h3⟩ := C167_line G (s := { voidCarve with mesh := m' }) rfl rfl false (fuel := 2) (by simp)
  exact ⟨m', fl, fr, s', h1, h2, h3⟩

/-- C167: if all vertices are on a line, one of them does not get a mark: of the vertices 7 and 5 only the first
does. -/
theorem C167_line_marks_refuted : ∃ m' fl fr s', voidCarve.mesh.divconq2 1 2 7 5 = (m', fl, fr) ∧
    { voidCarve with mesh := m' }.removeghosts false 2 fl = .ok (s', 2) ∧ s'.vmark 7 = 1 ∧ s'.vmark 5 = 0 := by
  obtain ⟨m', fl, fr, h1, G, -⟩ := C166_two voidCarve.mesh (n1 := 1) (n2 := 2) (v0 := 7) (v1 := 5) (by decide) (by decide)
  obtain ⟨s', h2, -⟩ := C167_line G (s := { voidCarve with mesh := m' }) rfl rfl false (fuel := 2) (by simp)
  refine ⟨m', fl, fr, s', h1, h2, ?_⟩
  have key : (match { voidCarve with mesh := (voidCarve.mesh.divconq2 1 2 7 5).1 }.removeghosts false 2 (voidCarve.mesh.divconq2 1 2 7 5).2.1 with
    | .ok (s, _) => [s.vmark 7, s.vmark 5]
    | _ => []) = [1, 0] := by decide +kernel
  rw [h1] at key
  simp only [h2] at key
  simpa using key

end Delynoi
