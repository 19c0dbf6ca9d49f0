import Verif.Proofs.TriLocate4
import Verif.Props.TriHoles
/-!
# C138, C139: finding the triangle with a point

`preciselocate` and `locate` (triangle.c:7488-7777), in exact arithmetic.  What the answers mean is
`Answer` (Spec/TriLocate).
-/
set_option linter.unusedSectionVars false
namespace Delynoi
open Tri

section
variable {K : Type} [Field K] [LinearOrder K] [IsStrictOrderedRing K]
  {m : Heap} {L : Nat → Prop} {ts : List Nat} {pos : Nat → Pt K} {p : Pt K} {fuel : Nat} {x : Otri}

/-- C138: from an edge with the point to its left (or on its line, outside of it) `preciselocate`
never reads a missing corner, and what it answers is right. -/
theorem C138_answer (h : Linked m L) (c : Ccw m L pos) (cs stop : Bool) (fuel : Nat) (hx : Ahead m L pos p x) :
    preciselocate m pos p cs stop fuel x = .ok none ∨
    ∃ r y, preciselocate m pos p cs stop fuel x = .ok (some (r, y)) ∧ Answer m L pos p (cs && stop) r y := by
  obtain ⟨o, d, hd, hp⟩ := hx
  obtain ⟨a, t⟩ := hd.tri h
  rw [precise_eq cs stop t]
  exact loop_answer h c cs stop fuel x a o d t hp

/-- C138: `preciselocate` ends in every mesh, Delaunay or not, convex or not, after at most three
rounds of its loop for each triangle and one more. -/
theorem C138_ends (h : Linked m (· ∈ ts)) (c : Ccw m (· ∈ ts) pos) (cs stop : Bool) (hf : 3 * ts.length < fuel)
    (hx : Ahead m (· ∈ ts) pos p x) :
    ∃ r y, preciselocate m pos p cs stop fuel x = .ok (some (r, y)) ∧ Answer m (· ∈ ts) pos p (cs && stop) r y :=
  precise_ends h c cs stop hf hx

/-- C138: a point that is not beyond any edge of the boundary is found, unless the search is to stop
at subsegments. -/
theorem C138_inside (h : Linked m (· ∈ ts)) (c : Ccw m (· ∈ ts) pos) (hin : Inside m (· ∈ ts) pos p) (cs : Bool)
    (hf : 3 * ts.length < fuel) (hx : Ahead m (· ∈ ts) pos p x) :
    ∃ r y, preciselocate m pos p cs false fuel x = .ok (some (r, y)) ∧ Answer m (· ∈ ts) pos p false r y ∧ r ≠ .outside := by
  obtain ⟨r, y, e, ha⟩ := precise_ends h c cs false hf hx
  rw [Bool.and_false] at ha
  refine ⟨r, y, e, ha, ?_⟩
  rintro rfl
  obtain ⟨v, w, hd, ht, hn | ⟨hn, -⟩⟩ := ha
  · have := hin y v w hd hn; linarith
  · cases hn

/-- C139: wherever `locate` starts, a point that is not beyond any edge of the boundary is found, and
the answer is right. -/
theorem C139_inside (h : Linked m (· ∈ ts)) (c : Ccw m (· ∈ ts) pos) (hin : Inside m (· ∈ ts) pos p) (cs : Bool)
    {dead : Nat → Bool} {recent : Option Otri} {samples : List Nat} (hf : 3 * ts.length < fuel)
    (hs : ∀ t ∈ samples, dead t = false → t ∈ ts) (hr : ∀ r, recent = some r → dead r.1 = false → r.1 ∈ ts) (hx : x.1 ∈ ts) :
    ∃ r y, locate m pos p cs dead recent samples fuel x = .ok (some (r, y)) ∧ Answer m (· ∈ ts) pos p false r y ∧ r ≠ .outside :=
  locate_inside h c hin cs hf hs hr hx

/-- C139 (partial): for any point, the answer is right, unless `locate` has chosen to start at an edge
of the boundary with the point beyond it: then it goes on from `dummytri`. -/
theorem C139_answer_partial (h : Linked m (· ∈ ts)) (c : Ccw m (· ∈ ts) pos) (cs : Bool)
    {dead : Nat → Bool} {recent : Option Otri} {samples : List Nat} (hf : 3 * ts.length < fuel)
    (hs : ∀ t ∈ samples, dead t = false → t ∈ ts) (hr : ∀ r, recent = some r → dead r.1 = false → r.1 ∈ ts) (hx : x.1 ∈ ts) :
    (∃ r y, locate m pos p cs dead recent samples fuel x = .ok (some (r, y)) ∧ Answer m (· ∈ ts) pos p false r y) ∨
    ∃ y v w, m.Dir (· ∈ ts) y v w ∧ m.nbr y = (0, 0) ∧ turn (pos v) (pos w) p < 0 ∧
      locate m pos p cs dead recent samples fuel x = preciselocate m pos p cs false fuel (0, 0) := by
  rcases locate_start (pos := pos) (p := p) h cs fuel hs hr hx with ⟨r, y, e, ha⟩ | ⟨y, hy, e⟩
  · exact Or.inl ⟨r, y, e, ha⟩
  rcases locateFrom_spec (p := p) h c cs fuel hy with ⟨r, z, e', ha⟩ | ⟨z, hz, e'⟩ | ⟨v, w, hd, hn, ht, e'⟩
  · exact Or.inl ⟨r, z, e.trans e', ha⟩
  · obtain ⟨r, u, e'', ha⟩ := precise_ends h c cs false hf hz
    rw [Bool.and_false] at ha
    exact Or.inl ⟨r, u, e.trans (e'.trans e''), ha⟩
  · exact Or.inr ⟨y, v, w, hd, hn, ht, e.trans e'⟩

/-- C139: with `locate` to search for the holes, none of them beyond the boundary, `carveholes` ends;
what it removes is reached, without crossing a subsegment, from triangles that have a hole inside or
on their border (unless -O) or an unprotected edge on the boundary (unless -c).  A triangle is
removed for each hole that is in the box and not on the line of the edge where searches start. -/
theorem C139_holes {s : Carve} {lo hi : Pt K} (w : Whole ts s) (c : Ccw s.mesh (· ∈ ts) pos) (convex noholes cs : Bool)
    (holes : List (Pt K)) (hin : ∀ q ∈ holes, Inside s.mesh (· ∈ ts) pos q)
    {dead : Nat → Bool} {recent : Option Otri} {samples : Pt K → List Nat} (hf : 3 * ts.length < fuel)
    (hs : ∀ q, ∀ t ∈ samples q, dead t = false → t ∈ ts) (hr : ∀ r, recent = some r → dead r.1 = false → r.1 ∈ ts) :
    ∃ s' P, Carve.carveholes (searchHole pos cs dead recent samples fuel) pos lo hi convex noholes holes fuel s = .ok s' ∧
      (∀ t, t ∈ s'.dead ↔ Doomed s.mesh (· ∈ ts) P t) ∧
      (∀ t ∈ P, (convex = false ∧ Unprotected s.mesh ts t) ∨ (noholes = false ∧ ∃ q ∈ holes, ∃ u v w,
        s.mesh.Tri3 (· ∈ ts) (t, 0) u v w ∧ 0 ≤ turn (pos u) (pos v) q ∧ 0 ≤ turn (pos v) (pos w) q ∧ 0 ≤ turn (pos w) (pos u) q)) ∧
      (convex = false → ∀ t, Unprotected s.mesh ts t → t ∈ P) ∧
      (noholes = false → ∀ q ∈ holes, lo.x ≤ q.x → q.x ≤ hi.x → lo.y ≤ q.y → q.y ≤ hi.y →
        (∃ a b, s.mesh.Dir (· ∈ ts) (s.mesh.nbr (0, 0)) a b ∧ turn (pos a) (pos b) q ≠ 0) →
        ∃ t ∈ P, ∃ u v w, s.mesh.Tri3 (· ∈ ts) (t, 0) u v w ∧
          0 ≤ turn (pos u) (pos v) q ∧ 0 ≤ turn (pos v) (pos w) q ∧ 0 ≤ turn (pos w) (pos u) q) := by
  classical
  have spec := fun q (hq : q ∈ holes) => searchHole_spec (dead := dead) (recent := recent) (samples := samples) (x := s.mesh.nbr (0, 0))
    w.linked c (hin q hq) cs hf (hs q) hr w.start.1
  let l' : Heap → Pt K → Otri → Outcome (Option Otri) :=
    fun m q x => if q ∈ holes then searchHole pos cs dead recent samples fuel m q x else .ok none
  have hl : ∀ q ∈ holes, ∀ m x, searchHole pos cs dead recent samples fuel m q x = l' m q x := by
    intro q hq m x; simp only [l', if_pos hq]
  have hloc : ∀ q, ∃ r, l' s.mesh q (s.mesh.nbr (0, 0)) = .ok r ∧ ∀ x, r = some x → x.1 ∈ ts := by
    intro q
    by_cases hq : q ∈ holes
    · obtain ⟨y, e, u, v, w', tr, -⟩ := spec q hq
      refine ⟨some y, by rw [← hl q hq]; exact e, ?_⟩
      rintro x ⟨⟩
      exact tr.1
    · exact ⟨none, by simp only [l', if_neg hq], by rintro x ⟨⟩⟩
  obtain ⟨s', P, e, hP, -, hdead, -⟩ := C137_removed (pos := pos) (lo := lo) (hi := hi) w convex noholes holes hloc hf.le
  refine ⟨s', P, (carveholes_congr hl).trans e, hdead, fun t ht => ?_, fun hc t ht => (hP t).2 (Or.inl ⟨hc, ht⟩), ?_⟩
  · rcases (hP t).1 ht with hh | ⟨hn, q, hq, -, -, y, hy, rfl⟩
    · exact Or.inl hh
    · rw [← hl q hq] at hy
      obtain ⟨z, e, u, v, w', tr, hh⟩ := spec q hq
      rw [e] at hy
      cases hy
      exact Or.inr ⟨hn, q, hq, u, v, w', tr, hh⟩
  · rintro hn q hq b1 b2 b3 b4 ⟨a, b, hd, hne⟩
    obtain ⟨y, e, u, v, w', tr, hh⟩ := spec q hq
    have h0 := hin q hq _ a b hd w.start.2
    refine ⟨y.1, (hP y.1).2 (Or.inr ⟨hn, q, hq, ⟨b1, b2, b3, b4⟩, ⟨a, b, hd, lt_of_le_of_ne h0 hne.symm⟩, y, ?_, rfl⟩), u, v, w', tr, hh⟩
    rw [← hl q hq]; exact e

end

/-! ## A square standing on a corner -/

/-- The mesh of `square`, with the corners of `dummytri` missing (triangle.c:4213-4215). -/
def diamond : Heap := { square with corner := fun x => if x.1 = 0 then none else square.corner x }

/-- The coordinates. -/
def diamondPos (n : Nat) : Pt ℚ :=
  if n = 0 then ⟨0, -1⟩ else if n = 1 then ⟨1, 0⟩ else if n = 2 then ⟨0, 1⟩ else if n = 3 then ⟨-1, 0⟩ else ⟨0, 0⟩

theorem diamond_linked : Linked diamond (· ∈ [1, 2, 3, 4]) :=
  linked_of_table (by decide +kernel) (by decide +kernel) (by decide +kernel) (by decide +kernel) (by decide +kernel)

theorem diamond_ccw : Ccw diamond (· ∈ [1, 2, 3, 4]) diamondPos := by
  have key : ∀ t ∈ [1, 2, 3, 4], ∀ o : Fin 3, ∀ v ∈ [0, 1, 2, 3, 4], ∀ a ∈ [0, 1, 2, 3, 4], ∀ b ∈ [0, 1, 2, 3, 4],
      diamond.corner (t, o) = some v → diamond.corner (t, o + 1) = some a → diamond.corner (t, o + 2) = some b →
      0 < turn (diamondPos v) (diamondPos a) (diamondPos b) := by
    decide +kernel
  have rng : ∀ t ∈ [1, 2, 3, 4], ∀ o : Fin 3, ∃ v ∈ [0, 1, 2, 3, 4], diamond.corner (t, o) = some v := by
    decide +kernel
  rintro ⟨t, o⟩ v a b ⟨h1, h2, h3, h4⟩
  obtain ⟨v', hv, ev⟩ := rng t h1 o
  obtain ⟨a', ha, ea⟩ := rng t h1 (o + 1)
  obtain ⟨b', hb, eb⟩ := rng t h1 (o + 2)
  cases h2.symm.trans ev; cases h3.symm.trans ea; cases h4.symm.trans eb
  exact key t h1 o v hv a ha b hb h2 h3 h4

/-- A point in triangle 3 is found from the edge of triangle 1 on the boundary. -/
example : ∃ r y, preciselocate diamond diamondPos ⟨-1/4, 1/4⟩ true false 13 (1, 0) = .ok (some (r, y)) ∧
    Answer diamond (· ∈ [1, 2, 3, 4]) diamondPos ⟨-1/4, 1/4⟩ false r y := by
  have := C138_ends (fuel := 13) (p := ⟨-1/4, 1/4⟩) (x := (1, 0)) diamond_linked diamond_ccw true false (by decide)
    ⟨0, 1, ⟨by decide, by decide +kernel, by decide +kernel⟩, Or.inl (by decide +kernel)⟩
  simpa using this

example : [preciselocate diamond diamondPos ⟨-1/4, 1/4⟩ true false 13 (1, 0), preciselocate diamond diamondPos ⟨0, 0⟩ true false 13 (1, 0),
    preciselocate diamond diamondPos ⟨-1/4, 0⟩ true false 13 (1, 0), preciselocate diamond diamondPos ⟨-3/4, 3/4⟩ true false 13 (1, 0)] =
    [.ok (some (.inTriangle, (3, 2))), .ok (some (.onVertex, (1, 2))), .ok (some (.onEdge, (4, 2))), .ok (some (.outside, (3, 0)))] := by
  decide +kernel

/-- The search stops at the subsegment between triangles 1 and 4. -/
example : preciselocate diamond diamondPos ⟨-1/4, -1/4⟩ true true 13 (1, 0) = .ok (some (.outside, (1, 2))) := by
  decide +kernel

/-- C138: the point must be ahead: a point behind the edge is reported to be inside the triangle. -/
theorem C138_behind_refuted :
    preciselocate diamond diamondPos ⟨1/2, -3/4⟩ true false 13 (1, 0) = .ok (some (.inTriangle, (1, 0))) ∧
    turn (diamondPos 0) (diamondPos 1) ⟨1/2, -3/4⟩ < 0 := by
  decide +kernel

theorem diamond_inside : Inside diamond (· ∈ [1, 2, 3, 4]) diamondPos ⟨-1/4, 1/4⟩ := by
  have key : ∀ t ∈ [1, 2, 3, 4], ∀ o : Fin 3, ∀ a ∈ [0, 1, 2, 3, 4], ∀ b ∈ [0, 1, 2, 3, 4],
      diamond.corner (t, o + 1) = some a → diamond.corner (t, o + 2) = some b → diamond.nbr (t, o) = (0, 0) →
      0 ≤ turn (diamondPos a) (diamondPos b) ⟨-1/4, 1/4⟩ := by
    decide +kernel
  have rng : ∀ t ∈ [1, 2, 3, 4], ∀ o : Fin 3, ∃ v ∈ [0, 1, 2, 3, 4], diamond.corner (t, o) = some v := by
    decide +kernel
  rintro ⟨t, o⟩ a b ⟨h1, h3, h4⟩ hn
  obtain ⟨a', ha, ea⟩ := rng t h1 (o + 1)
  obtain ⟨b', hb, eb⟩ := rng t h1 (o + 2)
  cases h3.symm.trans ea; cases h4.symm.trans eb
  exact key t h1 o a ha b hb h3 h4 hn

/-- `locate` with all triangles drawn and a recent one. -/
example : ∃ r y, locate diamond diamondPos ⟨-1/4, 1/4⟩ true (fun t => decide (t = 0)) (some (2, 1)) [4, 0, 3, 2, 1] 13 (1, 0) = .ok (some (r, y)) ∧
    Answer diamond (· ∈ [1, 2, 3, 4]) diamondPos ⟨-1/4, 1/4⟩ false r y ∧ r ≠ .outside :=
  C139_inside diamond_linked diamond_ccw diamond_inside true (by decide) (by decide +kernel)
    (by rintro r ⟨⟩ -; decide) (by decide)

/-- C139: a point outside of the mesh may make `locate` read the missing corners of `dummytri`.  Here
the search would start at the edge of triangle 1, which has the point to its left, but triangle 2 is
drawn; its first edge is on the boundary and has the point to its right. -/
theorem C139_outside_refuted :
    locate diamond diamondPos ⟨3/4, 3/4⟩ true (fun _ => false) none [2] 13 (1, 0) = .ub ∧
    locate diamond diamondPos ⟨3/4, 3/4⟩ true (fun _ => false) none [] 13 (1, 0) = .ok (some (.outside, (2, 0))) := by
  decide +kernel

/-- C139: the same with a hole there, inside of the box of the mesh. -/
theorem C139_hole_refuted : (do
    let s' ← Carve.carveholes (searchHole diamondPos true (fun _ => false) none (fun _ => [2]) 13) diamondPos ⟨-1, -1⟩ ⟨1, 1⟩ true false
      [⟨3/4, 3/4⟩] 13 { squareWhole with mesh := diamond }
    Outcome.ok s'.dead) = Outcome.ub := by
  decide +kernel

end Delynoi
