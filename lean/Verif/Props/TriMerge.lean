import Verif.Proofs.TriMerge6
import Verif.Props.TriGhost
/-!
# C168, C169: two triangulations are merged
-/
set_option linter.unusedSectionVars false
namespace Delynoi
open Tri

variable {K : Type} [Field K] [LinearOrder K] [IsStrictOrderedRing K]

/-- C168: a triangulation with bounding triangles has no open edges. -/
theorem C168_closed {m : Heap} {ts : List Nat} {gs : List Otri} (h : Ghosted m ts gs) : Sewn m (· ∈ gs.map Prod.fst ++ ts) where
  dummy := h.dummy
  proper := h.proper
  inside := h.inside
  back := h.back
  fits x hx := ⟨h.first x hx, h.second x hx⟩

/-- C168: in two disjoint closed meshes `L` and `R` the search of a tangent from an edge of `L` that starts at NULL and an
edge of `R` that ends at NULL reads no coordinates of NULL; if it ends, the edges found are such edges, and neither
the next vertex of `L` nor the one of `R` is below the tangent. -/
theorem C168_tangent {m : Heap} {L R : Nat → Prop} {pos : Nat → Pt K} {il ir : Otri} (hL : Sewn m L) (hR : Sewn m R)
    (h1 : L il.1) (h2 : m.org il = none) (h3 : R ir.1) (h4 : m.dest ir = none) (fuel : Nat) :
    ∃ r, tangent m pos fuel il ir = .ok r ∧ ∀ il' ir', r = some (il', ir') → L il'.1 ∧ m.org il' = none ∧ R ir'.1 ∧ m.dest ir' = none ∧
      ∃ u p v q, m.dest il' = some u ∧ m.apex il' = some p ∧ m.org ir' = some v ∧ m.apex ir' = some q ∧
        turn (pos u) (pos p) (pos v) ≤ 0 ∧ turn (pos q) (pos v) (pos u) ≤ 0 :=
  tangent_spec hL hR fuel il ir h1 h2 h3 h4

/-- C168: if the triangulations `L` and `R` are closed and disjoint, and their triangles counter-clockwise, then the merge
reads no coordinates of NULL, and if it ends, it leaves a closed mesh of the triangles of both and the two new ones,
with the vertices of both; its triangles are counter-clockwise, and other triangles are not touched. -/
theorem C168_merge_partial {m : Heap} {L R : Nat → Prop} {pos : Nat → Pt K} {il ir : Otri} {n1 n2 : Nat} (hL : Sewn m L) (hR : Sewn m R)
    (uL : Upright pos m L) (uR : Upright pos m R)
    (ht : ∀ t, L t → ¬ R t) (hv : ∀ v, IsCorner m L v → ¬ IsCorner m R v)
    (h1 : L il.1) (h2 : m.org il = none) (h3 : R ir.1) (h4 : m.dest ir = none)
    (z1 : n1 ≠ 0) (z2 : n2 ≠ 0) (h12 : n1 ≠ n2) (l1 : ¬ L n1) (l2 : ¬ L n2) (r1 : ¬ R n1) (r2 : ¬ R n2) (fuel : Nat) :
    ∃ r, knitHulls pos n1 n2 fuel m il ir = .ok r ∧ ∀ m' il' ir', r = some (m', il', ir') →
      Sewn m' (fun t => L t ∨ R t ∨ t = n1 ∨ t = n2) ∧
      (∀ v, IsCorner m' (fun t => L t ∨ R t ∨ t = n1 ∨ t = n2) v ↔ IsCorner m L v ∨ IsCorner m R v) ∧
      Upright pos m' (fun t => L t ∨ R t ∨ t = n1 ∨ t = n2) ∧
      ∀ x : Otri, ¬ (L x.1 ∨ R x.1 ∨ x.1 = n1 ∨ x.1 = n2) → m'.nbr x = m.nbr x ∧ m'.corner x = m.corner x := by
  obtain ⟨r, e, h⟩ := tangent_spec (pos := pos) hL hR fuel il ir h1 h2 h3 h4
  unfold knitHulls
  rw [e]
  simp only [Outcome.bind_ok]
  cases r with
  | none => exact ⟨none, rfl, fun _ _ _ h => by cases h⟩
  | some q =>
    obtain ⟨il', ir'⟩ := q
    obtain ⟨a1, a2, a3, a4, u, p, v, q, b1, -, b3, -⟩ := h il' ir' rfl
    have S := hL.union hR
    have U := uL.union uR
    have hx : u ≠ v := by
      rintro rfl
      exact hv u ⟨lprev il', a1, b1⟩ ⟨lnext ir', a3, b3⟩
    have nA : ¬ (L n1 ∨ R n1) := not_or.mpr ⟨l1, r1⟩
    obtain ⟨ul, ur, G, c1, c2⟩ := S.start (n := n1) (il := il') (ir := ir') nA z1 (Or.inl a1) (Or.inr a3) a2 b1 b3 a4 hx
      (fun e => ht _ a1 (e ▸ a3)) (fun e => ht _ a1 (e ▸ hR.inside ir' a3))
    have U' : Upright pos (Knit.start m n1 il' ir').mesh (fun t => (L t ∨ R t) ∨ t = n1) := U.grow (z := (n1, 2)) c1 c2
    have nB : ¬ ((L n2 ∨ R n2) ∨ n2 = n1) := by
      rintro ((h | h) | h)
      exacts [l2 h, r2 h, h12 h.symm]
    obtain ⟨r, er, hr⟩ := Gap.loop (pos := pos) (A := fun t => (L t ∨ R t) ∨ t = n1) nB z2 fuel _ _ _ _ _ G U'
    simp only []
    rw [er]
    simp only [Outcome.bind_ok]
    refine ⟨_, rfl, fun m' i j hh => ?_⟩
    cases r with
    | none => cases hh
    | some m1 =>
      cases hh
      obtain ⟨k1, k2, k3, k4⟩ := hr _ rfl
      have hp : (fun t => ((L t ∨ R t) ∨ t = n1) ∨ t = n2) = (fun t => L t ∨ R t ∨ t = n1 ∨ t = n2) := by
        funext t; simp only [or_assoc]
      rw [hp] at k1 k2 k4
      refine ⟨k1, fun w => ?_, k4, fun x hx => k3 x (by simpa only [or_assoc] using hx)⟩
      rw [← k2 w]
      constructor
      · rintro ⟨x, hx, ex⟩
        exact hx.imp (fun h => ⟨x, h, ex⟩) (fun h => ⟨x, h, ex⟩)
      · rintro (⟨x, hx, ex⟩ | ⟨x, hx, ex⟩)
        exacts [⟨x, Or.inl hx, ex⟩, ⟨x, Or.inr hx, ex⟩]

/-- C168: for a cut along the other axis the edges are first shifted along the boundary: an edge that ends at NULL to
one whose next vertex is not lower, an edge that starts at NULL to one whose vertex before is not higher. -/
theorem C168_shift {m : Heap} {A : Nat → Prop} {pos : Nat → Pt K} {x : Otri} (h : Sewn m A) (hx : A x.1) (fuel : Nat) :
    (m.dest x = none → ∃ r, shiftDown m pos fuel x = .ok r ∧ ∀ x', r = some x' → A x'.1 ∧ m.dest x' = none ∧
      ∃ u p, m.org x' = some u ∧ m.apex x' = some p ∧ (pos u).y ≤ (pos p).y) ∧
    (m.org x = none → ∃ r, shiftUp m pos fuel x = .ok r ∧ ∀ x', r = some x' → A x'.1 ∧ m.org x' = none ∧
      ∃ u p, m.dest x' = some u ∧ m.apex (m.sym x') = some p ∧ (pos p).y ≤ (pos u).y) :=
  ⟨shiftDown_spec h fuel x hx, shiftUp_spec h fuel x hx⟩

/-- C169: at the bottom of the merge of two closed, disjoint meshes with the vertices `V` the gap is open. -/
theorem C169_start {m : Heap} {L R : Nat → Prop} {il ir : Otri} {n u v : Nat} (hL : Sewn m L) (hR : Sewn m R)
    (ht : ∀ t, L t → ¬ R t) (h1 : L il.1) (h2 : m.org il = none) (h3 : R ir.1) (h4 : m.dest ir = none)
    (hu : m.dest il = some u) (hv : m.org ir = some v) (huv : u ≠ v) (z : n ≠ 0) (l : ¬ L n) (r : ¬ R n) :
    ∃ ul ur, Gap m (fun t => (L t ∨ R t) ∨ t = n) (IsCorner m (fun t => L t ∨ R t)) (Knit.start m n il ir) u v ul ur := by
  obtain ⟨ul, ur, G, -⟩ := (hL.union hR).start (n := n) (il := il) (ir := ir) (not_or.mpr ⟨l, r⟩) z (Or.inl h1) (Or.inr h3) h2 hu hv h4 huv
      (fun e => ht _ h1 (e ▸ h3)) (fun e => ht _ h1 (e ▸ hR.inside ir h3))
  exact ⟨ul, ur, G⟩

/-- C169: in each round below the top, while edges of the gap are open and the triangles counter-clockwise, the merge
reads no coordinates of NULL, and if the removal of edges ends, a triangle on the base edge from `ll` to `lr` has been
made whose third corner is a vertex on the right (the new `lr'`) or on the left (the new `ll'`); it is
counter-clockwise, and its circle contains neither the vertex beyond the edge it was built on, nor the candidate on the
other side, if that side is not finished. -/
theorem C169_round {m : Heap} {A V : Nat → Prop} {pos : Nat → Pt K} {s : Knit} {ll lr ul ur : Nat} (G : Gap m A V s ll lr ul ur)
    (U : Upright pos s.mesh A) (h : ¬ (turn (pos ul) (pos ll) (pos lr) ≤ 0 ∧ turn (pos ur) (pos ll) (pos lr) ≤ 0)) (fuel : Nat) :
    ∃ r, s.round pos fuel (decide (turn (pos ul) (pos ll) (pos lr) ≤ 0)) (decide (turn (pos ur) (pos ll) (pos lr) ≤ 0)) = .ok r ∧
      ∀ s', r = some s' → ∃ ll' lr' ul' ur', Gap m A V s' ll' lr' ul' ur' ∧ Upright pos s'.mesh A ∧
        ((ll' = ll ∧ s'.mesh.corner s'.base = some lr ∧ 0 < turn (pos ll) (pos lr) (pos lr') ∧
            (∀ w, s'.mesh.corner (s'.mesh.nbr (s'.base.1, s'.base.2 + 2)) = some w → incircleDet (pos ll) (pos lr) (pos lr') (pos w) ≤ 0) ∧
            (0 < turn (pos ul) (pos ll) (pos lr) → incircleDet (pos ll) (pos lr) (pos lr') (pos ul') ≤ 0)) ∨
         (lr' = lr ∧ s'.mesh.corner s'.base = some ll ∧ 0 < turn (pos ll) (pos lr) (pos ll') ∧
            (∀ w, s'.mesh.corner (s'.mesh.nbr (s'.base.1, s'.base.2 + 1)) = some w → incircleDet (pos ll) (pos lr) (pos ll') (pos w) ≤ 0) ∧
            (0 < turn (pos ur) (pos ll) (pos lr) → incircleDet (pos ll) (pos lr) (pos ll') (pos ur') ≤ 0))) :=
  G.round fuel U h

/-- C169: `C169_round` is about the rounds of the merge: the loop stops if both sides are finished, and makes a round otherwise. -/
theorem C169_loop {m : Heap} {A V : Nat → Prop} {pos : Nat → Pt K} {s : Knit} {ll lr ul ur n : Nat} (G : Gap m A V s ll lr ul ur) (fuel : Nat) :
    s.loop pos n (fuel + 1) =
      if turn (pos ul) (pos ll) (pos lr) ≤ 0 ∧ turn (pos ur) (pos ll) (pos lr) ≤ 0 then .ok (some (s.close n))
      else (s.round pos fuel (decide (turn (pos ul) (pos ll) (pos lr) ≤ 0)) (decide (turn (pos ur) (pos ll) (pos lr) ≤ 0))).bind fun r =>
        match r with
        | none => .ok none
        | some s' => s'.loop pos n fuel := by
  rw [Knit.loop, G.vul, G.vll, G.vlr, G.vur, ccwV_some, ccwV_some]
  simp only [Outcome.bind_ok, decide_eq_true_eq]
  rfl

/-- Two pairs of points. -/
private def quadPts : Nat → Pt ℚ := fun v => if v = 0 then ⟨0, 0⟩ else if v = 1 then ⟨1, 3⟩ else if v = 2 then ⟨2, 1⟩ else ⟨4, 3⟩

/-- The edges between the vertices 0, 1 and 2, 3. -/
private def quadMesh : Heap := ((voidCarve.mesh.divconq2 1 2 0 1).1.divconq2 3 4 2 3).1

/-- The hypotheses hold. -/
private theorem quad_ready : Sewn quadMesh (fun t => t ∈ [1, 2]) ∧ Sewn quadMesh (fun t => t ∈ [3, 4]) ∧
    Upright quadPts quadMesh (fun t => t ∈ [1, 2]) ∧ Upright quadPts quadMesh (fun t => t ∈ [3, 4]) ∧
    (∀ v, IsCorner quadMesh (fun t => t ∈ [1, 2]) v → ¬ IsCorner quadMesh (fun t => t ∈ [3, 4]) v) ∧
    quadMesh.corner (2, 0) = none ∧ quadMesh.corner (4, 0) = none ∧ quadMesh.corner (4, 1) = some 3 := by
  obtain ⟨m1, fl, il, e1, g1, -, -, p3, p4, p5, -⟩ := C166_two voidCarve.mesh (n1 := 1) (n2 := 2) (v0 := 0) (v1 := 1) (by decide) (by decide)
  obtain ⟨m2, ir, fr, e2, g2, q1, q2, q3, q4, q5, q6⟩ := C166_two m1 (n1 := 3) (n2 := 4) (v0 := 2) (v1 := 3) (by decide) (by decide)
  have eL : m1 = (voidCarve.mesh.divconq2 1 2 0 1).1 ∧ fl = (2, 1) ∧ il = (2, 2) := by
    have : (voidCarve.mesh.divconq2 1 2 0 1).2 = ((2, 1), (2, 2)) := by decide +kernel
    rw [e1] at this; simp only [Prod.mk.injEq] at this; exact ⟨by rw [e1], this⟩
  obtain ⟨em, rfl, rfl⟩ := eL
  have eR : (m1.divconq2 3 4 2 3).2 = ((4, 1), (4, 2)) := by simp [Heap.divconq2, lprev, lnext]
  rw [e2] at eR
  simp only [Prod.mk.injEq] at eR
  obtain ⟨rfl, rfl⟩ := eR
  have S1 := C168_closed g1
  have S2 := C168_closed g2
  have hfr : ∀ x : Otri, x.1 ∈ [1, 2] → m2.corner x = m1.corner x ∧ m2.nbr x = m1.nbr x := fun x hx => q6 x (by
    simp only [List.mem_cons, List.not_mem_nil, or_false] at hx ⊢; omega)
  have L1 : ∀ t, t ∈ [(2, 1), ((1, 1) : Otri)].map Prod.fst ++ ([] : List Nat) ↔ t ∈ [1, 2] := fun t => by simp; omega
  have L2 : ∀ t, t ∈ [(4, 1), ((3, 1) : Otri)].map Prod.fst ++ ([] : List Nat) ↔ t ∈ [3, 4] := fun t => by simp; omega
  simp only [L1] at S1
  simp only [L2] at S2
  have S1' : Sewn m2 (fun t => t ∈ [1, 2]) := by
    refine ⟨S1.dummy, fun t ht o o' e => ?_, fun x hx => ?_, fun x hx => ?_, fun x hx => ?_⟩
    · rw [(hfr (t, o) ht).1, (hfr (t, o') ht).1] at e; exact S1.proper t ht o o' e
    · rw [(hfr x hx).2]; exact S1.inside x hx
    · rw [(hfr x hx).2, (hfr _ (S1.inside x hx)).2]; exact S1.back x hx
    · rw [(hfr x hx).2]
      have f := S1.fits x hx
      refine ⟨?_, ?_⟩
      · rw [(hfr ((m1.nbr x).1, (m1.nbr x).2 + 1) (S1.inside x hx)).1, (hfr (x.1, x.2 + 2) hx).1]; exact f.1
      · rw [(hfr ((m1.nbr x).1, (m1.nbr x).2 + 2) (S1.inside x hx)).1, (hfr (x.1, x.2 + 1) hx).1]; exact f.2
  have key : (([1, 2, 3, 4] : List Nat).map fun t => ([0, 1, 2] : List (Fin 3)).map fun o => ((voidCarve.mesh.divconq2 1 2 0 1).1.divconq2 3 4 2 3).1.corner (t, o)) =
      [[none, some 0, some 1], [none, some 1, some 0], [none, some 2, some 3], [none, some 3, some 2]] := by decide +kernel
  rw [← em, e2] at key
  simp only [List.map_cons, List.map_nil, List.cons.injEq, and_true] at key
  obtain ⟨⟨a0, a1, a2⟩, ⟨b0, b1, b2⟩, ⟨c0, c1, c2⟩, d0, d1, d2⟩ := key
  have none1 : ∀ t, t ∈ [1, 2] → m2.corner (t, 0) = none := by
    intro t ht
    simp only [List.mem_cons, List.not_mem_nil, or_false] at ht
    rcases ht with rfl | rfl
    exacts [a0, b0]
  have none2 : ∀ t, t ∈ [3, 4] → m2.corner (t, 0) = none := by
    intro t ht
    simp only [List.mem_cons, List.not_mem_nil, or_false] at ht
    rcases ht with rfl | rfl
    exacts [c0, d0]
  have up : ∀ A : Nat → Prop, (∀ t, A t → m2.corner (t, 0) = none) → Upright quadPts m2 A := by
    rintro A hA ⟨t, o⟩ hx a b c h1 h2 h3
    have h0 := hA t hx
    exfalso
    rcases (by decide : ∀ o : Fin 3, o = 0 ∨ o = 1 ∨ o = 2) o with rfl | rfl | rfl
    · rw [h0] at h3; cases h3
    · have : m2.corner (t, 1 + 2) = m2.corner (t, 0) := rfl
      rw [this, h0] at h2; cases h2
    · have : m2.corner (t, 2 + 1) = m2.corner (t, 0) := rfl
      rw [this, h0] at h1; cases h1
  have hvL : ∀ v, IsCorner m2 (fun t => t ∈ [1, 2]) v → v < 2 := by
    rintro v ⟨⟨t, o⟩, ht, e⟩
    simp only [List.mem_cons, List.not_mem_nil, or_false] at ht
    rcases ht with rfl | rfl <;> rcases (by decide : ∀ o : Fin 3, o = 0 ∨ o = 1 ∨ o = 2) o with rfl | rfl | rfl <;>
      simp only [a0, a1, a2, b0, b1, b2, c0, c1, c2, d0, d1, d2, reduceCtorEq, Option.some.injEq] at e <;> omega
  have hvR : ∀ v, IsCorner m2 (fun t => t ∈ [3, 4]) v → 2 ≤ v := by
    rintro v ⟨⟨t, o⟩, ht, e⟩
    simp only [List.mem_cons, List.not_mem_nil, or_false] at ht
    rcases ht with rfl | rfl <;> rcases (by decide : ∀ o : Fin 3, o = 0 ∨ o = 1 ∨ o = 2) o with rfl | rfl | rfl <;>
      simp only [a0, a1, a2, b0, b1, b2, c0, c1, c2, d0, d1, d2, reduceCtorEq, Option.some.injEq] at e <;> omega
  have eq : quadMesh = m2 := by unfold quadMesh; rw [← em, e2]
  rw [eq]
  exact ⟨S1', S2, up _ none1, up _ none2, fun v h1 h2 => absurd (hvL v h1) (by have := hvR v h2; omega), b0, d0, d1⟩

/-- C168: the edges between the vertices 0, 1 and 2, 3 are merged. -/
example : ∃ r, knitHulls quadPts 5 6 10 quadMesh (2, 2) (4, 1) = .ok r ∧ ∀ m' il' ir', r = some (m', il', ir') →
      Sewn m' (fun t => t ∈ [1, 2, 3, 4, 5, 6]) ∧ IsCorner m' (fun t => t ∈ [1, 2, 3, 4, 5, 6]) 3 := by
  obtain ⟨s1, s2, u1, u2, hv, b0, d0, d1⟩ := quad_ready
  obtain ⟨r, hr, h⟩ := C168_merge_partial (pos := quadPts) (il := (2, 2)) (ir := (4, 1)) (n1 := 5) (n2 := 6) s1 s2 u1 u2
    (by intro t h1 h2; simp only [List.mem_cons, List.not_mem_nil, or_false] at h1 h2; omega) hv (by simp) b0 (by simp) d0
    (by decide) (by decide) (by decide) (by simp) (by simp) (by simp) (by simp) 10
  refine ⟨r, hr, fun m' il' ir' e => ?_⟩
  obtain ⟨k1, k2, -⟩ := h m' il' ir' e
  have ep : (fun t => t ∈ [1, 2] ∨ t ∈ [3, 4] ∨ t = 5 ∨ t = 6) = (fun t : Nat => t ∈ [1, 2, 3, 4, 5, 6]) := by
    funext t; simp only [List.mem_cons, List.not_mem_nil, or_false, or_assoc]
  rw [ep] at k1 k2
  exact ⟨k1, (k2 3).mpr (Or.inr ⟨(4, 1), by simp, d1⟩)⟩

/-- C168: the merge does end here, with two triangles 0, 2, 1 and 2, 3, 1. -/
example : (match knitHulls quadPts 5 6 10 quadMesh (2, 2) (4, 1) with
    | .ok (some (m, _, _)) => ([1, 2, 3, 4, 5, 6] : List Nat).map fun t => ([0, 1, 2] : List (Fin 3)).map fun o => m.corner (t, o)
    | _ => []) = [[none, some 0, some 1], [some 2, some 1, some 0], [some 1, some 2, some 3], [none, some 3, some 2],
      [some 2, some 0, none], [none, some 1, some 3]] := by decide +kernel

/-- A high triangle beside an edge. -/
private def highPts : Nat → Pt ℚ := fun v => if v = 0 then ⟨0, 0⟩ else if v = 1 then ⟨1, 9⟩ else if v = 2 then ⟨2, -9⟩ else if v = 3 then ⟨3, 0⟩ else ⟨4, 0⟩

/-- C168: the edge between 1 and 2 is removed, and the vertices 0 and 3 are linked. -/
example : (match knitHulls highPts 7 8 10 ((voidCarve.mesh.divconq3 highPts 1 2 3 4 0 1 2).1.divconq2 5 6 3 4).1
      (voidCarve.mesh.divconq3 highPts 1 2 3 4 0 1 2).2.2 ((voidCarve.mesh.divconq3 highPts 1 2 3 4 0 1 2).1.divconq2 5 6 3 4).2.1 with
    | .ok (some (m, _, _)) => ([1, 2, 3, 4, 5, 6, 7, 8] : List Nat).map fun t => ([0, 1, 2] : List (Fin 3)).map fun o => m.corner (t, o)
    | _ => []) = [[some 3, some 1, some 0], [none, some 2, some 0], [some 2, some 3, some 0], [none, some 0, some 1],
      [some 1, some 3, some 4], [some 2, some 4, some 3], [some 4, some 2, none], [none, some 1, some 4]] := by decide +kernel

/-- C169: the merge of these edges starts from 0 and 2, and the candidates 1 and 3 are above. -/
example : tangent quadMesh quadPts 10 (2, 2) (4, 1) = .ok (some ((1, 2), (4, 1))) ∧
    Gap quadMesh (fun t => (t ∈ [1, 2] ∨ t ∈ [3, 4]) ∨ t = 5) (IsCorner quadMesh (fun t => t ∈ [1, 2] ∨ t ∈ [3, 4])) (Knit.start quadMesh 5 (1, 2) (4, 1)) 0 2 1 3 ∧
    Upright quadPts (Knit.start quadMesh 5 (1, 2) (4, 1)).mesh (fun t => (t ∈ [1, 2] ∨ t ∈ [3, 4]) ∨ t = 5) ∧
    0 < turn (quadPts 1) (quadPts 0) (quadPts 2) ∧ 0 < turn (quadPts 3) (quadPts 0) (quadPts 2) := by
  obtain ⟨s1, s2, u1, u2, -, -, d0, -⟩ := quad_ready
  have k : quadMesh.org (1, 2) = none ∧ quadMesh.dest (1, 2) = some 0 ∧ quadMesh.org (4, 1) = some 2 ∧
      (Knit.start quadMesh 5 (1, 2) (4, 1)).upperleft = some 1 ∧ (Knit.start quadMesh 5 (1, 2) (4, 1)).upperright = some 3 := by decide +kernel
  obtain ⟨k0, k1, k2, k3, k4⟩ := k
  have ht : ∀ t : Nat, t ∈ [1, 2] → ¬ t ∈ [3, 4] := by intro t h1 h2; simp only [List.mem_cons, List.not_mem_nil, or_false] at h1 h2; omega
  obtain ⟨ul, ur, G, c1, c2⟩ := (s1.union s2).start (n := 5) (il := (1, 2)) (ir := (4, 1)) (by simp) (by decide) (Or.inl (by simp)) (Or.inr (by simp))
    k0 k1 k2 d0 (by decide) (by decide) (by decide +kernel)
  obtain rfl : 1 = ul := by have := G.vul; rw [k3] at this; exact Option.some.inj this
  obtain rfl : 3 = ur := by have := G.vur; rw [k4] at this; exact Option.some.inj this
  exact ⟨by decide +kernel, G, (u1.union u2).grow (z := (5, 2)) c1 c2, by decide +kernel, by decide +kernel⟩

/-- C169: the first round makes the triangle 0, 2, 1: the vertex on the left moves from 0 to 1. -/
example : (match (Knit.start quadMesh 5 (1, 2) (4, 1)).round quadPts 10 false false with
    | .ok (some s) => [s.lowerleft, s.lowerright, s.mesh.corner s.base]
    | _ => []) = [some 1, some 2, some 0] := by decide +kernel

end Delynoi
