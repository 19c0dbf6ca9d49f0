import Verif.Proofs.TriFixup3
import Verif.Props.TriSegment
/-! # `insertsegment` -/
set_option linter.unusedSectionVars false
namespace Delynoi.Tri
variable {K : Type} [Field K] [LinearOrder K] [IsStrictOrderedRing K] {s : Segs} {ts : List Nat} {pos : Nat → Pt K}
  {a b c d w : Nat} {x y0 : Otri} {turns : Nat}

/-- The same triangles and subsegments. -/
structure Alike (s s' : Segs) (L : Nat → Prop) : Prop where
  corner : s'.mesh.corner = s.mesh.corner
  nbr : s'.mesh.nbr = s.mesh.nbr
  sub : ∀ y, L y.1 → s'.mesh.sub y = s.mesh.sub y

theorem turn_line1 (c a d : Pt K) (t : K) : turn c a (lineAt c d t) = t * turn c a d := by simp only [turn, lineAt]; ring
theorem turn_line2 (c a d : Pt K) (t : K) : turn c (lineAt c d t) a = t * turn c d a := by simp only [turn, lineAt]; ring

/-- `scoutsegment` stops at the first triangle if the way to the other endpoint starts inside it. -/
theorem scout_cross (M : SegMesh s (· ∈ ts)) (f : Flat s.mesh (· ∈ ts) pos) (hin : Inside s.mesh (· ∈ ts) pos (pos d))
    (hcl : Clear s.mesh (· ∈ ts) pos (pos d)) (hy : s.mesh.Dir (· ∈ ts) y0 c w) (ht : 3 * ts.length ≤ turns)
    (hx : s.mesh.Tri3 (· ∈ ts) x b c a) (h0 : (s.mesh.sub (lnext x)).1 = 0)
    (v1 : 0 < turn (pos c) (pos a) (pos d)) (v2 : 0 < turn (pos c) (pos d) (pos b))
    (si : Segs → Otri → Osub → Outcome (Segs × Otri)) (k : Int) :
    ∃ s', scoutsegment si pos (pos d) k turns turns s y0 = .ok (false, s', x) ∧ SegMesh s' (· ∈ ts) ∧ Alike s s' (· ∈ ts) := by
  have hp : pos c ≠ pos d := by
    intro hh
    rw [← hh] at v1
    have : turn (pos c) (pos a) (pos c) = 0 := by simp only [turn]; ring
    rw [this] at v1
    exact lt_irrefl _ v1
  have TE := (Tri3.rot hx).1
  obtain ⟨path, s', u, c1, c2, c3, c4, c5⟩ := C142_scout si k M f.ccw hin hcl hy hp ht ht
  have hpath : path = [] := by
    cases path with
    | nil => rfl
    | cons w' path =>
      rw [List.isChain_cons_cons] at c1
      obtain ⟨⟨hadj, t, t0, t1, e⟩, -⟩ := c1
      refine absurd ⟨?_, ?_⟩ (f.cone _ _ _ _ w' TE hadj)
      · rw [e, turn_line1]; exact mul_pos t0 v1
      · rw [e, turn_line2]; exact mul_pos t0 v2
  subst hpath
  simp only [List.getLast?_singleton, Option.some.injEq] at c2
  subst c2
  have A : Alike s s' (· ∈ ts) := by
    refine ⟨c4.corner, c4.nbr, fun y hy => ?_⟩
    by_contra hh
    obtain ⟨v, A, B, T⟩ := M.linked.tri (x := y) hy
    rcases c4.only y A B (Tri3.dirs T).1 hh with hk | hk
    · have := hk.length_le; simp at this
    · have := hk.length_le; simp at this
  refine ⟨s', ?_, c3, A⟩
  rcases c5 with ⟨e, -⟩ | ⟨y, l, r, T, k1, k2, -, k3⟩
  · exact absurd e hp
  · have T' : s.mesh.Tri3 (· ∈ ts) y l c r := by
      unfold Heap.Tri3 at T ⊢
      rw [A.corner] at T
      exact T
    have hxy : lnext x = lnext y := same_cone M.linked f TE (Tri3.rot T').1 v1 v2 k1 k2
    have hxy : x = y := by have := congrArg lprev hxy; simpa using this
    subst hxy
    rcases k3 with ⟨-, k3⟩ | ⟨k3, -⟩
    · exact k3
    · rw [A.sub (lnext x) hx.1] at k3
      exact absurd h0 k3

/-- ... and goes along the edge if there is one. -/
theorem scout_edge (M : SegMesh s (· ∈ ts)) (f : Flat s.mesh (· ∈ ts) pos) (hin : Inside s.mesh (· ∈ ts) pos (pos d))
    (hcl : Clear s.mesh (· ∈ ts) pos (pos d)) (hy : s.mesh.Dir (· ∈ ts) y0 c w) (ht : 3 * ts.length ≤ turns)
    (hadj : s.mesh.Adj (· ∈ ts) c d) (si : Segs → Otri → Osub → Outcome (Segs × Otri)) (k : Int) :
    ∃ s' y, scoutsegment si pos (pos d) k turns turns s y0 = .ok (true, s', y) ∧ SegMesh s' (· ∈ ts) ∧ Paved s s' (· ∈ ts) [c, d] := by
  have far : ∀ v v', s.mesh.Adj (· ∈ ts) v v' → pos v ≠ pos v' := by
    have key : ∀ z v v', s.mesh.Dir (· ∈ ts) z v v' → pos v ≠ pos v' := by
      intro z v v' hz hh
      obtain ⟨u, hu⟩ := M.linked.corners z.1 hz.1 z.2
      have := f.ccw z u v v' ⟨hz.1, hu, hz.2.1, hz.2.2⟩
      rw [hh] at this
      have e : turn (pos u) (pos v') (pos v') = 0 := by simp only [turn]; ring
      rw [e] at this
      exact lt_irrefl _ this
    rintro v v' ⟨z, hz | hz⟩
    · exact key z v v' hz
    · exact (key z v' v hz).symm
  have hp := far c d hadj
  obtain ⟨path, s', u, c1, c2, c3, c4, c5⟩ := C142_scout si k M f.ccw hin hcl hy hp ht ht
  have tri' : ∀ {y v A B}, s'.mesh.Tri3 (· ∈ ts) y v A B → s.mesh.Tri3 (· ∈ ts) y v A B := by
    intro y v A B T
    unfold Heap.Tri3 at T ⊢
    rw [c4.corner] at T
    exact T
  cases path with
  | nil =>
    simp only [List.getLast?_singleton, Option.some.injEq] at c2
    subst c2
    rcases c5 with ⟨e, -⟩ | ⟨y, l, r, T, k1, k2, -, k3⟩
    · exact absurd e hp
    · exact absurd ⟨k1, k2⟩ (f.cone _ _ _ _ d (Tri3.rot (tri' T)).1 hadj)
  | cons w' path =>
    rw [List.isChain_cons_cons] at c1
    obtain ⟨⟨hw, t, t0, t1, e⟩, c1⟩ := c1
    have hwd : w' = d := by
      refine f.rays c w' d hw hadj ?_ ?_
      · rw [e, turn_line2]
        have : turn (pos c) (pos d) (pos d) = 0 := by simp only [turn]; ring
        rw [this, mul_zero]
      · have hq : 0 < ((pos d).x - (pos c).x) ^ 2 + ((pos d).y - (pos c).y) ^ 2 := by
          by_contra hh
          have z1 : ((pos d).x - (pos c).x) ^ 2 = 0 := le_antisymm (by have := sq_nonneg ((pos d).y - (pos c).y); linarith) (sq_nonneg _)
          have z2 : ((pos d).y - (pos c).y) ^ 2 = 0 := le_antisymm (by have := sq_nonneg ((pos d).x - (pos c).x); linarith) (sq_nonneg _)
          have z1 := pow_eq_zero_iff (two_ne_zero) |>.1 z1
          have z2 := pow_eq_zero_iff (two_ne_zero) |>.1 z2
          apply hp
          have i1 : (pos c).x = (pos d).x := by linarith
          have i2 : (pos c).y = (pos d).y := by linarith
          cases h1 : pos c; cases h2 : pos d
          rw [h1, h2] at i1 i2
          simp only at i1 i2
          rw [i1, i2]
        rw [e]
        have := mul_pos t0 hq
        simp only [lineAt]
        calc 0 < t * (((pos d).x - (pos c).x) ^ 2 + ((pos d).y - (pos c).y) ^ 2) := this
          _ = _ := by ring
    subst hwd
    have hpath : path = [] := by
      cases path with
      | nil => rfl
      | cons w2 path =>
        rw [List.isChain_cons_cons] at c1
        obtain ⟨⟨hw2, t', -, -, e2⟩, -⟩ := c1
        refine absurd ?_ (far _ _ hw2)
        rw [e2]
        cases pos w'
        simp only [lineAt]
        congr 1 <;> ring
    subst hpath
    simp only [List.getLast?_cons_cons, List.getLast?_singleton, Option.some.injEq] at c2
    subst c2
    rcases c5 with ⟨-, y, k⟩ | ⟨y, l, r, T, k1, -⟩
    · exact ⟨s', y, k, c3, c4⟩
    · have : turn (pos w') (pos r) (pos w') = 0 := by simp only [turn]; ring
      rw [this] at k1
      exact absurd k1 (lt_irrefl _)

theorem Alike.trans {s s' s'' : Segs} {L : Nat → Prop} (h1 : Alike s s' L) (h2 : Alike s' s'' L) : Alike s s'' L :=
  ⟨h2.corner.trans h1.corner, h2.nbr.trans h1.nbr, fun y hy => (h2.sub y hy).trans (h1.sub y hy)⟩

theorem Swapped.alike {s s' t : Segs} {L : Nat → Prop} (A : Alike s s' L) (w : Swapped s' L t a b c d) : Swapped s L t a b c d := by
  have hd : ∀ {x v w}, s'.mesh.Dir L x v w ↔ s.mesh.Dir L x v w := dir_congr A.corner
  have ha : ∀ {v w}, s'.mesh.Adj L v w ↔ s.mesh.Adj L v w := by
    intro v w
    simp only [Heap.Adj, hd]
  constructor
  · intro v w'
    rw [w.adj, ha]
  · exact w.sub
  · intro z v w' hz hs
    rw [← A.sub z hz.1] at hs ⊢
    exact w.kept z v w' (hd.2 hz) hs
  · intro y v w' hy hs
    rcases w.back y v w' hy hs with k | k | ⟨z, hz, e⟩
    · exact Or.inl k
    · exact Or.inr (Or.inl k)
    · exact Or.inr (Or.inr ⟨z, hd.1 hz, by rw [← A.sub z hz.1]; exact e⟩)

theorem findEnd_ok {m : Heap} {v2t : Nat → Option Otri} {v : Nat} {x : Otri} (locate : Heap → Nat → Outcome (Option (Located × Otri)))
    (h1 : v2t v = some x) (h2 : m.org x = some v) : findEnd locate v2t m v = .ok x := by
  simp only [findEnd, h1, h2, if_true]

theorem makevertexmap_none {m : Heap} {v : Nat} : ∀ (ts : List Nat) (v2t v2t' : Nat → Option Otri),
    makevertexmap m ts v2t = .ok v2t' → (∀ t ∈ ts, ∀ o, m.corner (t, o) ≠ some v) → v2t' v = v2t v
  | [], v2t, v2t', h, _ => by
    simp only [makevertexmap, Outcome.ok.injEq] at h
    rw [h]
  | t :: ts, v2t, v2t', h, hv => by
    rw [makevertexmap] at h
    split at h
    · next a b c ha hb hc =>
      have := makevertexmap_none ts _ _ h (fun t' ht' => hv t' (by simp [ht']))
      have n : ∀ {o : Fin 3} {u}, m.org (t, o) = some u → v ≠ u := by
        rintro o u ho rfl
        exact hv t (by simp) _ ho
      rw [this, Function.update_of_ne (n hc), Function.update_of_ne (n hb), Function.update_of_ne (n ha)]
    · cases h

end Delynoi.Tri
