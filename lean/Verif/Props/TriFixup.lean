import Verif.Proofs.TriFixup4
import Verif.Props.TriInsert
/-!
# C158-C160: segments that are forced into the mesh

`delaunayfixup`, `constrainededge` and `insertsegment` of triangle.c (12024-12345).
-/
set_option linter.unusedSectionVars false
namespace Delynoi
open Tri
variable {K : Type} [Field K] [LinearOrder K] [IsStrictOrderedRing K] {pos : Nat → Pt K} {L : Nat → Prop}

/-- C158.  On a mesh without folds `delaunayfixup` ends, on either side of the segment, and leaves the
edges opposite to the origin `nv` of `fixuptri` settled, as far as they were or belong to the triangle of
`fixuptri`; `fixuptri` keeps its origin and destination. -/
theorem C158_fixup {m : Heap} {x : Otri} {nv : Nat} {ts : List Nat} {fuel : Nat} (left : Bool) (h : Linked m L) (f : Flat m L pos)
    (g : Segmented m L) (hts : ∀ t, L t → t ∈ ts) (hx : L x.1) (hc : m.org x = some nv) (hf : ts.length < fuel) :
    ∃ m' x', delaunayfixup pos left fuel m x = .ok (m', x') ∧ FixedUp m L pos nv (lnext x) m' ∧ x'.1 = x.1 ∧
      m'.org x' = some nv ∧ m'.dest x' = m.dest x := by
  obtain ⟨m', x', k1, k2, k3, k4, k5, -⟩ := fixup_spec (pos := pos) nv left ts hts fuel m x h f g hx hc
    (lt_of_le_of_lt List.countP_le_length hf)
  exact ⟨m', x', k1, k2, k3, k4, k5⟩

/-- C158.  If only the edge of `fixuptri` opposite to its origin may be flipped, then afterwards no edge
opposite to that vertex may. -/
theorem C158_all {m : Heap} {x : Otri} {nv : Nat} {ts : List Nat} {fuel : Nat} (left : Bool) (h : Linked m L) (f : Flat m L pos)
    (g : Segmented m L) (hts : ∀ t, L t → t ∈ ts) (hx : L x.1) (hc : m.org x = some nv) (hf : ts.length < fuel)
    (hs : ∀ y, L y.1 → m.apex y = some nv → y ≠ lnext x → Settled true m L pos y) :
    ∃ m' x', delaunayfixup pos left fuel m x = .ok (m', x') ∧ ∀ y, L y.1 → m'.apex y = some nv → Settled true m' L pos y := by
  obtain ⟨m', x', k1, k2, -⟩ := C158_fixup (ts := ts) left h f g hts hx hc hf
  refine ⟨m', x', k1, fun y hy hn => ?_⟩
  rcases k2.settled y hy hn with k | ⟨n1, n2, n3⟩
  · exact k
  · exact absurd (hs y hy n2 n1) n3

/-- C158.  Nothing is flipped at a settled edge. -/
theorem C158_settled {m : Heap} {x : Otri} {nv : Nat} (left : Bool) (fuel : Nat) (h : Linked m L) (f : Flat m L pos) (hx : L x.1)
    (hc : m.org x = some nv) (hs : Settled true m L pos (lnext x)) : delaunayfixup pos left (fuel + 1) m x = .ok (m, x) :=
  fixup_settled h f hx hc hs left fuel

/-- C159.  A segment from `c` to `d` that crosses one edge, between `a` and `b`: `constrainededge`
exchanges the edge, the new one has a subsegment with the given mark, and all edges are settled if they
were.  Missing: segments that cross several edges, where the mesh has folds in between. -/
theorem C159_single_partial {s : Segs} {x : Otri} {a b c d : Nat} (M : SegMesh s L) (f : Flat s.mesh L pos)
    (hall : ∀ y, L y.1 → Settled true s.mesh L pos y)
    (hx : s.mesh.Tri3 L x b c a) (ht : s.mesh.Tri3 L (s.mesh.nbr (lnext x)) d b a) (h0 : (s.mesh.sub (lnext x)).1 = 0)
    (v1 : 0 < turn (pos c) (pos a) (pos d)) (v2 : 0 < turn (pos c) (pos d) (pos b))
    (si : Segs → Otri → Osub → Outcome (Segs × Otri)) (k : Int) (depth turns fuel : Nat) :
    ∃ s', constrainededge si pos (pos d) k (depth + 1) turns (fuel + 1) s x = .ok s' ∧ SegMesh s' L ∧ Flat s'.mesh L pos ∧
      (∀ y, L y.1 → Settled true s'.mesh L pos y) ∧ Swapped s L s' a b c d ∧
      (∃ y, s'.mesh.Dir L y d c ∧ (s'.mesh.sub y).1 = s.count + 1) ∧ s'.count = s.count + 1 ∧ s'.smark (s.count + 1) = k ∧
      (∀ n, 0 < n → n ≤ s.count → s'.smark n = s.smark n) ∧
      ∀ u, s'.vmark u = if (u = d ∨ u = c) ∧ s.vmark u = 0 then k else s.vmark u :=
  constrainededge_single M f hall hx ht h0 (by
    have : turn (pos d) (pos c) (pos a) = turn (pos c) (pos a) (pos d) := by simp only [turn]; ring
    rw [this]; exact v1) v2 si k depth turns fuel

/-- C160.  `insertsegment` with endpoints that have an edge puts a subsegment there, and changes nothing
else. -/
theorem C160_edge {s : Segs} {ts : List Nat} {x1 : Otri} {c d w turns depth fuel : Nat} {v2t : Nat → Option Otri}
    (M : SegMesh s (· ∈ ts)) (f : Flat s.mesh (· ∈ ts) pos) (hin : Inside s.mesh (· ∈ ts) pos (pos d))
    (hcl : Clear s.mesh (· ∈ ts) pos (pos d)) (h1 : v2t c = some x1) (hy : s.mesh.Dir (· ∈ ts) x1 c w)
    (hadj : s.mesh.Adj (· ∈ ts) c d) (ht : 3 * ts.length ≤ turns)
    (si : Pt K → Segs → Otri → Osub → Outcome (Segs × Otri)) (locate : Heap → Nat → Outcome (Option (Located × Otri))) (k : Int) :
    ∃ s', insertsegment si locate pos v2t depth turns fuel s c d k = .ok s' ∧ SegMesh s' (· ∈ ts) ∧ Paved s s' (· ∈ ts) [c, d] := by
  obtain ⟨s', y, k1, k2, k3⟩ := scout_edge M f hin hcl hy ht hadj (si (pos d)) k
  refine ⟨s', ?_, k2, k3⟩
  simp only [insertsegment, findEnd_ok locate h1 hy.2.1, Outcome.bind_ok, k1, if_true]

/-- C160.  `insertsegment` with endpoints on both sides of one edge: the segment is in the mesh
afterwards, all other edges stay, and if the mesh was constrained Delaunay it is again.  Missing:
segments that cross several edges. -/
theorem C160_cross_partial {s : Segs} {ts : List Nat} {x x1 x2 : Otri} {a b c d w1 w2 turns depth fuel : Nat} {v2t : Nat → Option Otri}
    (M : SegMesh s (· ∈ ts)) (f : Flat s.mesh (· ∈ ts) pos)
    (hinc : Inside s.mesh (· ∈ ts) pos (pos c)) (hind : Inside s.mesh (· ∈ ts) pos (pos d))
    (hclc : Clear s.mesh (· ∈ ts) pos (pos c)) (hcld : Clear s.mesh (· ∈ ts) pos (pos d))
    (h1 : v2t c = some x1) (hy1 : s.mesh.Dir (· ∈ ts) x1 c w1) (h2 : v2t d = some x2) (hy2 : s.mesh.Dir (· ∈ ts) x2 d w2)
    (hall : ∀ y : Otri, y.1 ∈ ts → Settled true s.mesh (· ∈ ts) pos y)
    (hx : s.mesh.Tri3 (· ∈ ts) x b c a) (ht : s.mesh.Tri3 (· ∈ ts) (s.mesh.nbr (lnext x)) d b a) (h0 : (s.mesh.sub (lnext x)).1 = 0)
    (v1 : 0 < turn (pos c) (pos a) (pos d)) (v2 : 0 < turn (pos c) (pos d) (pos b)) (hturns : 3 * ts.length ≤ turns)
    (si : Pt K → Segs → Otri → Osub → Outcome (Segs × Otri)) (locate : Heap → Nat → Outcome (Option (Located × Otri))) (k : Int) :
    ∃ s', insertsegment si locate pos v2t (depth + 1) turns (fuel + 1) s c d k = .ok s' ∧ SegMesh s' (· ∈ ts) ∧
      Flat s'.mesh (· ∈ ts) pos ∧ (∀ y : Otri, y.1 ∈ ts → Settled true s'.mesh (· ∈ ts) pos y) ∧ Swapped s (· ∈ ts) s' a b c d := by
  obtain ⟨s1, k1, M1, A1⟩ := scout_cross M f hind hcld hy1 hturns hx h0 v1 v2 (si (pos d)) k
  have hx1 : s1.mesh.Tri3 (· ∈ ts) x b c a := (tri3_congr A1.corner).2 hx
  have ht1 : s1.mesh.Tri3 (· ∈ ts) (s1.mesh.nbr (lnext x)) d b a := by rw [A1.nbr]; exact (tri3_congr A1.corner).2 ht
  have f1 : Flat s1.mesh (· ∈ ts) pos := f.congr A1.corner
  have h01 : (s1.mesh.sub (lnext x)).1 = 0 := by rw [A1.sub (lnext x) hx.1]; exact h0
  have in1 : Inside s1.mesh (· ∈ ts) pos (pos c) := by
    intro y v w hy hn
    rw [A1.nbr] at hn
    exact hinc y v w ((dir_congr A1.corner).1 hy) hn
  have cl1 : Clear s1.mesh (· ∈ ts) pos (pos c) := fun y v p q hy => hclc y v p q ((tri3_congr A1.corner).1 hy)
  have top0 : (s1.mesh.sub (s1.mesh.nbr (lnext x))).1 = 0 :=
    M1.segmented.neither (lnext x) hx.1 ht1.1 h01
  have ht2 : s1.mesh.Tri3 (· ∈ ts) (lprev (s1.mesh.nbr (lnext x))) a d b := (Tri3.rot ht1).2
  have e1 : lnext (lprev (s1.mesh.nbr (lnext x))) = s1.mesh.nbr (lnext x) := lnext_lprev _
  obtain ⟨s2, k2, M2, A2⟩ := scout_cross M1 f1 in1 cl1 ((dir_congr A1.corner).2 hy2) hturns ht2 (by rw [e1]; exact top0)
    (by have : turn (pos d) (pos b) (pos c) = turn (pos c) (pos d) (pos b) := by simp only [turn]; ring
        rw [this]; exact v2)
    (by have : turn (pos d) (pos c) (pos a) = turn (pos c) (pos a) (pos d) := by simp only [turn]; ring
        rw [this]; exact v1) (si (pos c)) k
  have A := A1.trans A2
  have hx2 : s2.mesh.Tri3 (· ∈ ts) x b c a := (tri3_congr A2.corner).2 hx1
  obtain ⟨s', c1, c2, c3, c4, c5, -⟩ := C159_single_partial M2 (f.congr A.corner)
    (fun y hy => (hall y hy).congr A.corner A.nbr (by rw [A.sub y hy]; exact id)) hx2
    (by rw [A2.nbr]; exact (tri3_congr A2.corner).2 ht1) (by rw [A.sub (lnext x) hx.1]; exact h0) v1 v2 (si (pos d)) k depth turns fuel
  refine ⟨s', ?_, c2, c3, c4, c5.alike A⟩
  have o1 : s1.mesh.org x = some c := hx1.2.2.1
  have o2 : s2.mesh.org (lprev (s1.mesh.nbr (lnext x))) = some d := ((tri3_congr A2.corner).2 ht2).2.2.1
  simp only [insertsegment, findEnd_ok locate h1 hy1.2.1, Outcome.bind_ok, k1, Bool.false_eq_true, if_false, o1, deref,
    findEnd_ok locate h2 ((dir_congr A1.corner).2 hy2).2.1, k2, o2, c1]

/-- C160.  An endpoint that is a corner of no triangle, as the second of two vertices at one place is:
`insertsegment` reads its field `vertex2tri`, which `makevertexmap` has not written. -/
theorem C160_uninitialised_refuted {s : Segs} {ts : List Nat} {c : Nat} {v2t : Nat → Option Otri}
    (h : makevertexmap s.mesh ts (fun _ => none) = .ok v2t) (hc : ∀ t ∈ ts, ∀ o, s.mesh.corner (t, o) ≠ some c)
    (si : Pt K → Segs → Otri → Osub → Outcome (Segs × Otri)) (locate : Heap → Nat → Outcome (Option (Located × Otri)))
    (depth turns fuel d : Nat) (k : Int) : insertsegment si locate pos v2t depth turns fuel s c d k = .ub := by
  have : v2t c = none := makevertexmap_none ts _ _ h hc
  simp only [insertsegment, findEnd, this, Outcome.bind_ub]

/-! ## The claims on two triangles -/

/-- Two triangles without subsegments. -/
def unbarred : Segs where
  mesh := { twoTriangles with sub := fun _ => (0, false), stri := fun _ => (0, 0) }
  send := fun _ => none
  segend := fun _ => none
  smark := fun _ => 0
  vmark := fun _ => 0
  count := 0

theorem unbarred_segMesh : SegMesh unbarred (· ∈ [1, 2]) := by
  have z : ∀ x, (unbarred.mesh.sub x).1 = 0 := fun _ => rfl
  have conv : ∀ (P : Otri → Prop), (∀ t ∈ [1, 2], ∀ o, P (t, o)) → ∀ x : Otri, x.1 ∈ [1, 2] → P x := fun P h x hx => h x.1 hx x.2
  refine ⟨two_linked.congr rfl rfl, ?_, by unfold Proper; decide +kernel, ⟨fun x _ => le_refl _, fun x v w _ h => absurd (z x) h⟩⟩
  refine ⟨conv _ (by decide +kernel), conv _ (by decide +kernel), conv _ (by decide +kernel), conv _ (by decide +kernel), ?_⟩
  intro x y hx hy h
  exact absurd (z x) h

theorem unbarred_settled (y : Otri) (hy : y.1 ∈ [1, 2]) : Settled true unbarred.mesh (· ∈ [1, 2]) (tallKite ⟨0, -1⟩) y := by
  refine Or.inr (Or.inr ?_)
  intro v a b d h1 h2 o e1 e2
  have := tall_empty y v a b ((tri3_congr rfl).1 h1) o (e2.symm.trans rfl) (e2.symm.trans e1) d b
    ⟨lprev (unbarred.mesh.nbr y), Or.inl ((dir_congr rfl).1 (Tri3.dirs h2).2.1)⟩
  rw [← e2] at this
  exact this

theorem tall_inside (v : Nat) (hv : v = 2 ∨ v = 3) : Inside unbarred.mesh (· ∈ [1, 2]) (tallKite ⟨0, -1⟩) (tallKite ⟨0, -1⟩ v) := by
  intro x a b hx hn
  have hx := (two_dir x a b).1 ((dir_congr rfl).1 hx)
  have : ∀ T ∈ [(((1, 0) : Otri), 0, 1), ((1, 1), 1, 2), ((1, 2), 2, 0), ((2, 0), 1, 0), ((2, 1), 0, 3), ((2, 2), 3, 1)],
      ∀ v ∈ [2, 3], unbarred.mesh.nbr T.1 = (0, 0) → 0 ≤ turn (tallKite ⟨0, -1⟩ T.2.1) (tallKite ⟨0, -1⟩ T.2.2) (tallKite ⟨0, -1⟩ v) := by
    decide +kernel
  exact this _ hx v (by simp [hv]) hn

theorem tall_clear (v : Nat) (hv : v = 2 ∨ v = 3) : Clear unbarred.mesh (· ∈ [1, 2]) (tallKite ⟨0, -1⟩) (tallKite ⟨0, -1⟩ v) := by
  intro x u a b hx
  have hx := two_tri ((tri3_congr rfl).1 hx)
  have : ∀ T ∈ twoTri, ∀ v ∈ [2, 3], 0 ≤ turn (tallKite ⟨0, -1⟩ T.2.1) (tallKite ⟨0, -1⟩ T.2.2.1) (tallKite ⟨0, -1⟩ v) →
      0 ≤ turn (tallKite ⟨0, -1⟩ T.2.2.1) (tallKite ⟨0, -1⟩ T.2.2.2) (tallKite ⟨0, -1⟩ v) →
      0 ≤ turn (tallKite ⟨0, -1⟩ T.2.2.2) (tallKite ⟨0, -1⟩ T.2.1) (tallKite ⟨0, -1⟩ v) →
      tallKite ⟨0, -1⟩ v = tallKite ⟨0, -1⟩ T.2.1 ∨ tallKite ⟨0, -1⟩ v = tallKite ⟨0, -1⟩ T.2.2.1 ∨
      tallKite ⟨0, -1⟩ v = tallKite ⟨0, -1⟩ T.2.2.2 := by
    decide +kernel
  exact this _ hx v (by simp [hv])

/-- C158: the long diagonal of the kite is flipped. -/
example : ∃ m' x', delaunayfixup (kiteWith ⟨0, 0⟩) true 3 twoTriangles (1, 2) = .ok (m', x') ∧
    FixedUp twoTriangles (· ∈ [1, 2]) (kiteWith ⟨0, 0⟩) 2 (1, 0) m' := by
  obtain ⟨m', x', k1, k2, -⟩ := C158_fixup (fuel := 3) (ts := [1, 2]) (nv := 2) (x := (1, 2)) true two_linked (kiteWith_flat ⟨0, 0⟩)
    two_segmented (fun _ h => h) (by decide) rfl (by decide)
  exact ⟨m', x', k1, k2⟩

example : (match delaunayfixup (kiteWith ⟨0, 0⟩) true 3 twoTriangles (1, 2), delaunayfixup (kiteWith ⟨0, 0⟩) false 3 twoTriangles (1, 2) with
    | .ok (m', _), .ok (m'', _) => [m'.corner (1, 0), m'.corner (1, 1), m'.corner (1, 2), m''.corner (1, 0), m''.corner (1, 1), m''.corner (1, 2)]
    | _, _ => []) = [some 0, some 3, some 2, some 0, some 3, some 2] := by decide +kernel

/-- C159, C160: the segment between 2 and 3 crosses the short diagonal. -/
example : ∃ s', insertsegment (fun _ _ _ _ => .exn) (fun _ _ => .exn) (tallKite ⟨0, -1⟩) (fun v => if v = 2 then some (1, 2) else some (2, 2))
      1 6 1 unbarred 2 3 5 = .ok s' ∧ Swapped unbarred (· ∈ [1, 2]) s' 0 1 2 3 := by
  obtain ⟨s', k1, -, -, -, k2⟩ := C160_cross_partial (ts := [1, 2]) (x := (1, 2)) (x1 := (1, 2)) (x2 := (2, 2)) (a := 0) (b := 1) (c := 2) (d := 3)
    (w1 := 0) (w2 := 1) (turns := 6) (depth := 0) (fuel := 0) (v2t := fun v => if v = 2 then some (1, 2) else some (2, 2))
    unbarred_segMesh (tall_flat.congr rfl) (tall_inside 2 (Or.inl rfl)) (tall_inside 3 (Or.inr rfl)) (tall_clear 2 (Or.inl rfl))
    (tall_clear 3 (Or.inr rfl)) rfl ⟨by decide, rfl, rfl⟩ rfl ⟨by decide, rfl, rfl⟩ unbarred_settled ⟨by decide, rfl, rfl, rfl⟩
    ⟨by decide, rfl, rfl, rfl⟩ rfl (by decide +kernel) (by decide +kernel) (by decide) (fun _ _ _ _ => .exn) (fun _ _ => .exn) 5
  exact ⟨s', k1, k2⟩

example : (match insertsegment (fun _ _ _ _ => .exn) (fun _ _ => .exn) (tallKite ⟨0, -1⟩) (fun v => if v = 2 then some (1, 2) else some (2, 2))
      1 6 1 unbarred 2 3 5 with
    | .ok s' => (s'.mesh.corner (1, 0), s'.mesh.corner (1, 1), s'.mesh.corner (1, 2), s'.mesh.sub (1, 0), s'.smark 1, s'.count)
    | _ => (none, none, none, (0, false), 0, 0)) = (some 0, some 3, some 2, (1, false), 5, 1) := by decide +kernel

/-- C160: the endpoints of an edge. -/
example : ∃ s', insertsegment (fun _ _ _ _ => .exn) (fun _ _ => .exn) (tallKite ⟨0, -1⟩) (fun _ => some (1, 0)) 1 6 1 unbarred 0 3 5 = .ok s' ∧
    Paved unbarred s' (· ∈ [1, 2]) [0, 3] := by
  obtain ⟨s', k1, -, k2⟩ := C160_edge (ts := [1, 2]) (x1 := (1, 0)) (c := 0) (d := 3) (w := 1) (turns := 6) (depth := 1) (fuel := 1)
    (v2t := fun _ => some (1, 0)) unbarred_segMesh (tall_flat.congr rfl) (tall_inside 3 (Or.inr rfl)) (tall_clear 3 (Or.inr rfl)) rfl
    ⟨by decide, rfl, rfl⟩ ⟨(2, 1), Or.inl ⟨by decide, rfl, rfl⟩⟩ (by decide) (fun _ _ _ _ => .exn) (fun _ _ => .exn) 5
  exact ⟨s', k1, k2⟩

/-- C160: vertex 4 of two triangles with the corners 0, 1, 2 and 3. -/
example : (do
    let v2t ← makevertexmap unbarred.mesh [1, 2] (fun _ => none)
    insertsegment (fun _ _ _ _ => .exn) (fun _ _ => .exn) (tallKite ⟨0, -1⟩) v2t 1 6 1 unbarred 4 0 5) = .ub := by
  have ⟨v2t, e⟩ : ∃ v2t, makevertexmap unbarred.mesh [1, 2] (fun _ => none) = .ok v2t := ⟨_, rfl⟩
  rw [e, Outcome.bind_ok]
  exact C160_uninitialised_refuted e (by decide +kernel) _ _ _ _ _ _ _

end Delynoi
