import Verif.Proofs.TriEncroach5
import Verif.Props.TriCdt
/-!
# Encroached subsegments (C162-C164)

`checkseg4encroach` finds exactly the subsegments whose diametral circle has the apex of an adjacent
triangle inside; `splitencsegs` splits them inside, without failing; when it ends, the triangulation is
Delaunay, and the subsegments have only been divided.
-/
set_option linter.unusedSectionVars false
namespace Delynoi
open Tri
variable {K : Type} [Field K] [LinearOrder K] [IsStrictOrderedRing K]
variable {s : Segs} {L : Nat → Prop} {pos : Nat → Pt K}

/-- C162: `checkseg4encroach` for the subsegment of an edge from `a` to `b`, looked at from this side.
It returns 1 if the subsegment is encroached from this side, plus 2 if from the other side; an
encroached subsegment is put in the pool with its ends, seen from a side from which it is encroached. -/
theorem C162_check (M : SegMesh s L) (B : Bare s.mesh L) {y : Otri} {a b : Nat} (hy : s.mesh.Dir L y a b) (h0 : (s.mesh.sub y).1 ≠ 0) (bad : List Enc) :
    ∃ n bad', s.checkEnc pos (s.mesh.sub y) bad = .ok (n, bad') ∧
      (n = 0 ∨ n = 1 ∨ n = 2 ∨ n = 3) ∧
      (n = 1 ∨ n = 3 ↔ SideEncroached s.mesh L pos (s.mesh.sub y)) ∧
      (n = 2 ∨ n = 3 ↔ SideEncroached s.mesh L pos (ssym (s.mesh.sub y))) ∧
      (n = 0 → bad' = bad) ∧ (n = 1 → bad' = bad ++ [⟨s.mesh.sub y, b, a⟩]) ∧ (n = 2 ∨ n = 3 → bad' = bad ++ [⟨ssym (s.mesh.sub y), a, b⟩]) := by
  obtain ⟨v, a', b', T⟩ := M.linked.tri hy.1
  have i1 := hy.2.1.symm.trans (Tri3.dirs T).1.2.1
  have i2 := hy.2.2.symm.trans (Tri3.dirs T).1.2.2
  cases i1; cases i2
  obtain ⟨c1, c2, k1, k2, k3, -⟩ := checkEnc_edge (pos := pos) M B T h0
  refine ⟨_, _, k3 bad, ?_⟩
  rw [← k1, ← k2]
  cases c1 <;> cases c2 <;> simp [encResult]

/-- C162: the same, from the side that has no triangle: a subsegment at the boundary. -/
theorem C162_boundary (M : SegMesh s L) (B : Bare s.mesh L) {y : Otri} {a b : Nat} (hy : s.mesh.Dir L y a b) (h0 : (s.mesh.sub y).1 ≠ 0)
    (hn : s.mesh.nbr y = (0, 0)) (bad : List Enc) :
    (SideEncroached s.mesh L pos (s.mesh.sub y) → s.checkEnc pos (ssym (s.mesh.sub y)) bad = .ok (2, bad ++ [⟨s.mesh.sub y, b, a⟩])) ∧
    (¬ SideEncroached s.mesh L pos (s.mesh.sub y) → s.checkEnc pos (ssym (s.mesh.sub y)) bad = .ok (0, bad)) := by
  obtain ⟨v, a', b', T⟩ := M.linked.tri hy.1
  have i1 := hy.2.1.symm.trans (Tri3.dirs T).1.2.1
  have i2 := hy.2.2.symm.trans (Tri3.dirs T).1.2.2
  cases i1; cases i2
  obtain ⟨c1, c2, k1, k2, -, k4⟩ := checkEnc_edge (pos := pos) M B T h0
  have hc2 : c2 = false := by
    cases c2 with
    | false => rfl
    | true =>
      obtain ⟨x, hx, -, v', a', b', T', -⟩ := k2.1 rfl
      exact absurd hx.symm (ssym_free M.linked M.segmented hy.1 h0 hn x T'.1)
  rw [← k1, k4 bad, hc2]
  cases c1 <;> simp [encResult, ssym_ssym]

/-- C162: encroached means that the apex sees the subsegment under an obtuse angle. -/
theorem C162_obtuse (a b p : Pt K) : InDiametral a b p ↔ (a.x - p.x) * (b.x - p.x) + (a.y - p.y) * (b.y - p.y) < 0 := inDiametral_iff

/-- C163: where a subsegment from `p` to `q` is split: in the middle if no other subsegment is near its
ends, else at a power of two from the end `p`, or from the end `q` if there is one near `q`.  Both parts
have at least a third of the length. -/
theorem C163_ratio {sqrt : K → K} {p q : Pt K} {a b : Bool} {fuel : Nat} {t : K}
    (hlen : 0 < sqrt ((q.x - p.x) * (q.x - p.x) + (q.y - p.y) * (q.y - p.y))) (h : splitRatio sqrt fuel p q a b = some t) :
    1 / 3 ≤ t ∧ t ≤ 2 / 3 ∧ (a = false → b = false → t = 1 / 2) ∧
    (a = true → b = false → ∃ i j : ℕ, t * sqrt ((q.x - p.x) * (q.x - p.x) + (q.y - p.y) * (q.y - p.y)) * 2 ^ i = 2 ^ j) ∧
    (b = true → ∃ i j : ℕ, (1 - t) * sqrt ((q.x - p.x) * (q.x - p.x) + (q.y - p.y) * (q.y - p.y)) * 2 ^ i = 2 ^ j) := by
  obtain ⟨h1, h2, h3, h4⟩ := splitRatio_spec hlen h
  refine ⟨h1, h2, h3, fun ha hb => ?_, fun hb => ?_⟩
  · simpa [hb] using h4 (Or.inl ha)
  · simpa [hb] using h4 (Or.inr hb)

/-- C163: the loops that find the power of two end. -/
theorem C163_ends [Archimedean K] (sqrt : K → K) (hsq : ∀ x, 0 < x → 0 < sqrt x) (p q : Pt K) (hpq : p ≠ q) (a b : Bool) :
    ∃ N, ∀ fuel ≥ N, ∃ t, splitRatio sqrt fuel p q a b = some t := splitRatio_ends sqrt hsq p q hpq a b

/-- C163: the vertex is at the ratio between the ends; in exact arithmetic the refinement step does
nothing. -/
theorem C163_point (p q : Pt K) (t : K) : splitPoint p q t = lineAt p q t := by
  rw [splitPoint_eq]
  simp only [lineAt, Pt.mk.injEq]
  constructor <;> ring

/-- An edge has a subsegment if one of its sides has. -/
theorem hasSub_dir (h : Linked s.mesh L) (g : Segmented s.mesh L) {x : Otri} {v w : Nat} (hx : s.mesh.Dir L x v w) :
    HasSub s.mesh L v w ↔ (s.mesh.sub x).1 ≠ 0 := by
  refine ⟨?_, fun k => ⟨x, Or.inl hx, k⟩⟩
  rintro ⟨z, hz | hz, k⟩
  · rwa [h.once x z v w hx hz]
  · have hn := h.complete z x w v hz hx
    rw [← hn, g.both z hz.1 (by rw [hn]; exact hx.1) k]
    exact k

/-- C163: what the code takes for a subsegment near an end: an edge of one of the two triangles at the
subsegment that ends there and has a subsegment.  `y` is the triangle at the subsegment, which runs from
`l` to `r`. -/
theorem C163_acute (M : SegMesh s L) {y : Otri} {v r l : Nat} (T : s.mesh.Tri3 L y v r l) :
    ((acuteEnds s.mesh y).1 = true ↔ HasSub s.mesh L l v ∨ ∃ d, s.mesh.Tri3 L (s.mesh.nbr y) d l r ∧ HasSub s.mesh L l d) ∧
    ((acuteEnds s.mesh y).2 = true ↔ HasSub s.mesh L r v ∨ ∃ d, s.mesh.Tri3 L (s.mesh.nbr y) d l r ∧ HasSub s.mesh L r d) := by
  have hsymm : ∀ a b, HasSub s.mesh L a b ↔ HasSub s.mesh L b a := fun a b =>
    ⟨fun ⟨x, k, k'⟩ => ⟨x, k.symm, k'⟩, fun ⟨x, k, k'⟩ => ⟨x, k.symm, k'⟩⟩
  obtain ⟨d1, d2, d3⟩ := Tri3.dirs T
  have e1 := hasSub_dir M.linked M.segmented d3
  have e2 := (hsymm r v).trans (hasSub_dir M.linked M.segmented d2)
  have l2 : lnext (lnext y) = lprev y := by simp [lnext, lprev, add_assoc]
  rcases M.linked.links y T.1 with hn | ⟨a, b, hd, hd'⟩
  · have hno : ∀ d, ¬ s.mesh.Tri3 L (s.mesh.nbr y) d l r := by
      rintro d ⟨k, -⟩
      rw [hn] at k
      exact M.linked.dummy k
    rw [hn] at hno
    by_cases q1 : (s.mesh.sub (lnext y)).1 = 0 <;> by_cases q2 : (s.mesh.sub (lprev y)).1 = 0 <;>
      simp [acuteEnds, Heap.sym, Heap.tspivot, hn, e1, e2, l2, hno, q1, q2]
  · have i1 := hd.2.1.symm.trans d1.2.1
    have i2 := hd.2.2.symm.trans d1.2.2
    cases i1; cases i2
    obtain ⟨d, a', b', T'⟩ := M.linked.tri hd'.1
    have j1 := hd'.2.1.symm.trans (Tri3.dirs T').1.2.1
    have j2 := hd'.2.2.symm.trans (Tri3.dirs T').1.2.2
    cases j1; cases j2
    obtain ⟨-, f2, f3⟩ := Tri3.dirs T'
    have e3 := hasSub_dir M.linked M.segmented f3
    have e4 := (hsymm l d).trans (hasSub_dir M.linked M.segmented f2)
    have l3 : lnext (lnext (s.mesh.nbr y)) = lprev (s.mesh.nbr y) := by simp [lnext, lprev, add_assoc]
    have hz : (s.mesh.nbr y).1 ≠ 0 := fun k => M.linked.dummy (k ▸ hd'.1)
    have hd : ∀ d', s.mesh.Tri3 L (s.mesh.nbr y) d' l r ↔ d' = d := by
      intro d'
      refine ⟨fun k => ?_, fun k => k ▸ T'⟩
      have := k.2.1.symm.trans T'.2.1
      exact Option.some.inj this
    by_cases q1 : (s.mesh.sub (lnext y)).1 = 0 <;> by_cases q2 : (s.mesh.sub (lprev y)).1 = 0 <;>
      by_cases q3 : (s.mesh.sub (lnext (s.mesh.nbr y))).1 = 0 <;> by_cases q4 : (s.mesh.sub (lprev (s.mesh.nbr y))).1 = 0 <;>
      simp [acuteEnds, Heap.sym, Heap.tspivot, hz, e1, e2, e3, e4, l2, l3, hd, q1, q2, q3, q4]

/-- The state before the first step. -/
theorem good_start {nvert ntri : Nat} {bad : List Enc} (M : SegMesh s L) (f : Flat s.mesh L pos) (hD : ConstrainedDelaunay true s.mesh L pos)
    (B : Bare s.mesh L) (C : Chained s) (hv : ∀ v w, s.mesh.Adj L v w → v < nvert) (ht : ∀ t, L t → t ≤ ntri)
    (hb : ∀ c ∈ bad, Actual s.mesh L c) (hq : ∀ y, Encroached s.mesh L pos y → Queued s.mesh L bad (s.mesh.sub y).1) :
    Good (⟨s, pos, nvert, ntri, bad⟩ : Refine K) L :=
  ⟨M, f, settled_iff.2 hD, B, C, ht, hv, fun c hc => by
    obtain ⟨h0, z, h1, h2⟩ := hb c hc
    exact ⟨h0, z, h1.1, h2⟩, hq⟩

/-- C164: `enforcequality` on a constrained Delaunay triangulation: in exact arithmetic nothing goes
wrong; and if it ends, then no subsegment is encroached, all edges are locally Delaunay, with or
without subsegments, the old subsegments have been kept or divided, and all new vertices are on old
subsegments.  `pick` is any choice of the next
entry of the pool, `live` are the subsegments. -/
theorem C164_enforce {sqrt : K → K} (hsq : ∀ x, 0 < x → 0 < sqrt x) (pick : List Enc → Nat) (fuel : Nat) {nvert ntri : Nat} {live : List Nat}
    (M : SegMesh s L) (f : Flat s.mesh L pos) (hD : ConstrainedDelaunay true s.mesh L pos)
    (B : Bare s.mesh L) (C : Chained s) (hv : ∀ v w, s.mesh.Adj L v w → v < nvert) (ht : ∀ t, L t → t ≤ ntri)
    (hl : ∀ n, n ∈ live ↔ n ≠ 0 ∧ ∃ y, L y.1 ∧ (s.mesh.sub y).1 = n) :
    enforcequality sqrt pick fuel s pos nvert ntri live = .ok none ∨
    ∃ st' L', enforcequality sqrt pick fuel s pos nvert ntri live = .ok (some st') ∧
      SegMesh st'.segs L' ∧ Flat st'.segs.mesh L' st'.pos ∧ (∀ x, ¬ Encroached st'.segs.mesh L' st'.pos x) ∧ Delaunay st'.segs.mesh L' st'.pos ∧
      Refined s.mesh L pos st'.segs.mesh L' st'.pos := by
  obtain ⟨bad, q1, -, q3, q4⟩ := tallyencs_spec (pos := pos) M B live [] (fun n hn => (hl n).1 hn)
  have G : Good (⟨s, pos, nvert, ntri, bad⟩ : Refine K) L := good_start M f hD B C hv ht
    (fun c hc => by
      rcases q3 c hc with k | k
      · simp at k
      · exact k)
    (fun y hE => by
      obtain ⟨e0, v, a, b, T, hd⟩ := hE
      exact q4 y ((hl _).2 ⟨e0, y, T.1, rfl⟩) ⟨e0, v, a, b, T, hd⟩)
  simp only [enforcequality, q1, Outcome.bind_ok]
  rcases splitencsegs_spec hsq pick fuel _ L G with k | ⟨st', L', k1, G', hb, R⟩
  · exact Or.inl k
  · have hne : ∀ x, ¬ Encroached st'.segs.mesh L' st'.pos x := by
      intro x hE
      obtain ⟨c, hc, -⟩ := G'.queued x hE
      rw [hb] at hc
      simp at hc
    exact Or.inr ⟨st', L', k1, G'.mesh, G'.flat, hne, delaunay_of_settled G'.mesh.linked G'.flat G'.mesh.segmented G'.settled hne, R⟩

/-- C164: a constrained Delaunay triangulation in which no subsegment is encroached is Delaunay. -/
theorem C164_delaunay (M : SegMesh s L) (f : Flat s.mesh L pos) (hD : ConstrainedDelaunay true s.mesh L pos)
    (hne : ∀ x, ¬ Encroached s.mesh L pos x) : Delaunay s.mesh L pos :=
  delaunay_of_settled M.linked f M.segmented (settled_iff.2 hD) hne

/-! ## Examples -/

theorem barred_bare : Bare barred.mesh (· ∈ [1, 2]) := by
  have key : ∀ t ∈ [1, 2], ∀ o, (barred.mesh.sub (t, o)).1 ≠ 0 → barred.mesh.nbr (t, o) = (0, 0) → (barred.mesh.stri (ssym (barred.mesh.sub (t, o)))).1 = 0 := by
    decide +kernel
  exact fun y hy => key y.1 hy y.2

theorem barred_chained : Chained barred := by
  intro o h _
  refine ⟨Nat.zero_le _, fun k => h ?_⟩
  rw [← k]
  rfl

theorem barred_live : ∀ n, n ∈ [1] ↔ n ≠ 0 ∧ ∃ y : Otri, y.1 ∈ [1, 2] ∧ (barred.mesh.sub y).1 = n := by
  have key : ∀ t ∈ [1, 2], ∀ o, (barred.mesh.sub (t, o)).1 = 0 ∨ (barred.mesh.sub (t, o)).1 = 1 := by decide +kernel
  intro n
  constructor
  · intro h
    simp only [List.mem_singleton] at h
    subst h
    exact ⟨by decide, (1, 0), by decide, by decide⟩
  · rintro ⟨h, y, hy, rfl⟩
    have := key y.1 hy y.2
    simp only [List.mem_singleton]
    exact this.resolve_left h

/-- C162: the diagonal of the kite from (2, 0) to (-2, 0) is encroached from both sides. -/
example : ∃ n bad', barred.checkEnc (kiteWith ⟨1, 0⟩) (1, false) [] = .ok (n, bad') ∧ n = 3 ∧ bad' = [⟨(1, true), 0, 1⟩] := by
  obtain ⟨n, bad', h, h1, h2, h3, -, -, h4⟩ := C162_check (pos := kiteWith ⟨1, 0⟩) barred_segMesh barred_bare (y := (1, 0)) (a := 0) (b := 1)
    ⟨by decide, by decide, by decide⟩ (by decide) []
  have s1 := h2.2 ⟨(1, 0), rfl, by decide, 2, 0, 1, ⟨by decide, rfl, rfl, rfl⟩, by unfold InDiametral; decide +kernel⟩
  have s2 := h3.2 ⟨(2, 0), rfl, by decide, 3, 1, 0, ⟨by decide, rfl, rfl, rfl⟩, by unfold InDiametral; decide +kernel⟩
  have hn : n = 3 := by omega
  exact ⟨n, bad', h, hn, h4 (Or.inr hn)⟩

/-- C163: a subsegment of length 5 that shares its origin is split at distance 2. -/
example : splitRatio (fun x : ℚ => x / 5) 10 ⟨0, 0⟩ ⟨3, 4⟩ true false = some (2 / 5) := by decide +kernel

/-- C163: and if it shares its destination, at distance 2 from there. -/
example : splitRatio (fun x : ℚ => x / 5) 10 ⟨0, 0⟩ ⟨3, 4⟩ true true = some (3 / 5) := by decide +kernel

/-- C164: `enforcequality` on the kite. -/
example (fuel : Nat) (pick : List Enc → Nat) : enforcequality id pick fuel barred (kiteWith ⟨1, 0⟩) 4 2 [1] = .ok none ∨
    ∃ st' L', enforcequality id pick fuel barred (kiteWith ⟨1, 0⟩) 4 2 [1] = .ok (some st') ∧ Delaunay st'.segs.mesh L' st'.pos := by
  rcases C164_enforce (K := ℚ) (sqrt := id) (fun x h => h) pick fuel barred_segMesh ((kiteWith_flat ⟨1, 0⟩).congr rfl) (barred_delaunay ⟨1, 0⟩)
    barred_bare barred_chained (nvert := 4) (ntri := 2) (fun v w h => by
      have := two_adj (h : twoTriangles.Adj (· ∈ [1, 2]) v w)
      simp only [twoAdj, List.mem_cons, List.not_mem_nil, or_false, Prod.mk.injEq] at this
      omega) (fun t h => by simp at h; omega) barred_live with k | ⟨st', L', k, -, -, -, k', -⟩
  exacts [Or.inl k, Or.inr ⟨st', L', k, k'⟩]

/-- C164: it ends after two steps, with one new vertex in (0, 0). -/
example : (match enforcequality id (fun _ => 0) 3 barred (kiteWith ⟨1, 0⟩) 4 2 [1] with
    | .ok (some st) => (st.nvert, st.ntri, st.pos 4, st.segs.count)
    | _ => (0, 0, ⟨0, 1⟩, 0)) = (5, 4, ⟨0, 0⟩, 2) := by decide +kernel

end Delynoi
