import Verif.Proofs.TriCarve6
import Verif.Props.TriCarve
/-!
# C137: carving holes and concavities

`carveholes` (triangle.c:12976-13150) without regions.  The search for the triangle of a hole is a
parameter; it is only assumed that it ends and returns a triangle of the mesh.
-/
set_option linter.unusedSectionVars false
namespace Delynoi
open Tri

section
variable {K : Type} [Field K] [LinearOrder K] {locate : Heap → Pt K → Otri → Outcome (Option Otri)}
  {pos : Nat → Pt K} {lo hi : Pt K} {ts : List Nat} {s : Carve} {fuel : Nat}

/-- C137: `carveholes` ends and removes exactly what can be reached, without crossing a subsegment,
from triangles in which holes are found (unless -O) and from triangles with an unprotected edge on
the boundary (unless -c); what stays is a consistent mesh whose boundary edges are counted by
`hullsize`. -/
theorem C137_removed (w : Whole ts s) (convex noholes : Bool) (holes : List (Pt K))
    (hloc : ∀ p, ∃ r, locate s.mesh p (s.mesh.nbr (0, 0)) = .ok r ∧ ∀ x, r = some x → x.1 ∈ ts) (hf : 3 * ts.length ≤ fuel) :
    ∃ s' P, Carve.carveholes locate pos lo hi convex noholes holes fuel s = .ok s' ∧
      (∀ t, t ∈ P ↔ (convex = false ∧ Unprotected s.mesh ts t) ∨
        (noholes = false ∧ HoleIn s.mesh ts locate pos lo hi holes t)) ∧
      s'.dead.Nodup ∧ (∀ t, t ∈ s'.dead ↔ Doomed s.mesh (· ∈ ts) P t) ∧
      Linked s'.mesh (Stays s.mesh ts P) ∧ Segmented s'.mesh (Stays s.mesh ts P) ∧
      s'.hullsize = hullEdges s'.mesh (Stays s.mesh ts P) := by
  obtain ⟨s1, P, e, r, hP, -⟩ := carve_ready (pos := pos) (lo := lo) (hi := hi) w convex noholes holes hloc hf
  obtain ⟨s2, s', D, R, T, e2, hD, I1, I⟩ := plague_inv r hf
  refine ⟨s', P, e.trans e2, hP, ?_, ?_, stays_linked hD I r.linked, stays_segmented hD I1 I r.linked r.segmented, stays_hull hD I1 I⟩
  · rw [I.dead]; exact I1.nodup
  · rw [I.dead]; exact hD

/-- C137: an area whose border, inner and outer, consists of subsegments and in which no hole is
found stays completely. -/
theorem C137_protected (w : Whole ts s) (convex noholes : Bool) (holes : List (Pt K))
    (hloc : ∀ p, ∃ r, locate s.mesh p (s.mesh.nbr (0, 0)) = .ok r ∧ ∀ x, r = some x → x.1 ∈ ts) (hf : 3 * ts.length ≤ fuel)
    (S : Nat → Prop) (hin : ∀ t, S t → t ∈ ts)
    (hborder : ∀ x : Otri, S x.1 → ¬ S (s.mesh.nbr x).1 → (s.mesh.sub x).1 ≠ 0)
    (hhole : ∀ t, HoleIn s.mesh ts locate pos lo hi holes t → ¬ S t) :
    ∃ s', Carve.carveholes locate pos lo hi convex noholes holes fuel s = .ok s' ∧ ∀ t, S t → t ∉ s'.dead := by
  obtain ⟨s', P, e, hP, -, hdead, -⟩ := C137_removed (pos := pos) (lo := lo) (hi := hi) w convex noholes holes hloc hf
  refine ⟨s', e, fun t ht hd => ?_⟩
  rw [hdead] at hd
  have : ∀ u, Doomed s.mesh (· ∈ ts) P u → ¬ S u := by
    intro u hu
    induction hu with
    | start hu =>
      rw [hP] at hu
      rcases hu with ⟨-, x, hx, rfl, h0⟩ | ⟨-, hh⟩
      · intro hS
        refine hborder x hS (fun hn => ?_) h0
        rw [hx.2] at hn; exact w.linked.dummy (hin _ hn)
      · exact hhole _ hh
    | @spread x hx hl h0 ih =>
      intro hS
      have hxL : x.1 ∈ ts := by
        refine hx.live (fun u hu => ?_)
        rw [hP] at hu
        rcases hu with ⟨-, y, hy, rfl, -⟩ | ⟨-, p, -, -, -, y, hy, rfl⟩
        · exact hy.1
        · obtain ⟨r, hr, hl⟩ := hloc p
          rw [hr] at hy
          exact hl y (by cases hy; rfl)
      have hne : s.mesh.nbr x ≠ (0, 0) := by
        intro e; rw [e] at hl; exact w.linked.dummy hl
      have hback := (w.linked.across hxL hne).2.1
      refine hborder (s.mesh.nbr x) hS ?_ (w.segmented.neither x hxL hl h0)
      rw [hback]; exact ih
  exact this t hd ht

/-- C137: without -c, the boundary of what stays consists of subsegments with nonzero markers; where
the boundary is new, or the subsegment had no marker, its endpoints have nonzero markers, too. -/
theorem C137_boundary (w : Whole ts s) (noholes : Bool) (holes : List (Pt K))
    (hloc : ∀ p, ∃ r, locate s.mesh p (s.mesh.nbr (0, 0)) = .ok r ∧ ∀ x, r = some x → x.1 ∈ ts) (hf : 3 * ts.length ≤ fuel) :
    ∃ s', Carve.carveholes locate pos lo hi false noholes holes fuel s = .ok s' ∧
      ∀ y : Otri, y.1 ∈ ts → y.1 ∉ s'.dead → s'.mesh.nbr y = (0, 0) →
        (s'.mesh.sub y).1 ≠ 0 ∧ s'.mesh.sub y = s.mesh.sub y ∧ s'.smark (s.mesh.sub y).1 ≠ 0 ∧
        (s.mesh.nbr y ≠ (0, 0) ∨ s.smark (s.mesh.sub y).1 = 0 →
          ∀ a b, s.mesh.Dir (· ∈ ts) y a b → s'.vmark a ≠ 0 ∧ s'.vmark b ≠ 0) := by
  obtain ⟨s1, P, e, r, hP, hb, -⟩ := carve_ready (pos := pos) (lo := lo) (hi := hi) w false noholes holes hloc hf
  obtain ⟨s2, s', D, R, T, e2, hD, I1, I⟩ := plague_inv r hf
  refine ⟨s', e.trans e2, fun y hy hyd hn => ?_⟩
  rw [I.dead, hD] at hyd
  have hst : Stays s.mesh ts P y.1 := ⟨hy, hyd⟩
  rw [stays_sub hD I1 I hst]
  by_cases h0 : s.mesh.nbr y = (0, 0)
  · have hyP : y.1 ∉ P := fun hh => hyd (Doomed.start hh)
    have hsub : (s.mesh.sub y).1 ≠ 0 := by
      intro hs
      apply hyP
      rw [hP]
      exact Or.inl ⟨rfl, y, ⟨hy, h0⟩, rfl, hs⟩
    obtain ⟨h1, h2⟩ := hb rfl y ⟨hy, h0⟩ hyP
    have keepS : s'.smark (s.mesh.sub y).1 ≠ 0 := by
      rw [I.smark]
      rcases I1.smarks (s.mesh.sub y).1 with e | ⟨e, -⟩
      · rw [e]; exact h1
      · exact absurd e h1
    have keepV : ∀ v, s1.vmark v ≠ 0 → s'.vmark v ≠ 0 := by
      intro v hv
      rw [I.vmark]
      rcases I1.vmarks v with e | ⟨e, -⟩
      · rw [e]; exact hv
      · exact absurd e hv
    refine ⟨hsub, rfl, keepS, fun hh a b hd => ?_⟩
    rcases hh with hh | hh
    · exact absurd h0 hh
    · exact ⟨keepV _ (h2 hh a b hd).1, keepV _ (h2 hh a b hd).2⟩
  · obtain ⟨hl, -, -⟩ := w.linked.across hy h0
    have hd : Doomed s.mesh (· ∈ ts) P (s.mesh.nbr y).1 := by
      by_contra hd
      rw [(stays_nbr hD I hst).2 hd] at hn
      exact h0 hn
    obtain ⟨h1, h2, h3, h4⟩ := cut_spec hD I1 I r.linked r.segmented hst hd hl
    exact ⟨h1, rfl, h3, fun _ => h4⟩

/-- C137: the link of `dummytri` is not changed; if its triangle stays, it leads to the boundary. -/
theorem C137_dummytri_partial (w : Whole ts s) (convex noholes : Bool) (holes : List (Pt K))
    (hloc : ∀ p, ∃ r, locate s.mesh p (s.mesh.nbr (0, 0)) = .ok r ∧ ∀ x, r = some x → x.1 ∈ ts) (hf : 3 * ts.length ≤ fuel) :
    ∃ s', Carve.carveholes locate pos lo hi convex noholes holes fuel s = .ok s' ∧
      s'.mesh.nbr (0, 0) = s.mesh.nbr (0, 0) ∧
      ((s.mesh.nbr (0, 0)).1 ∉ s'.dead → s'.mesh.nbr (s.mesh.nbr (0, 0)) = (0, 0)) := by
  obtain ⟨s1, P, e, r, hP, -⟩ := carve_ready (pos := pos) (lo := lo) (hi := hi) w convex noholes holes hloc hf
  obtain ⟨s2, s', D, R, T, e2, hD, I1, I⟩ := plague_inv r hf
  refine ⟨s', e.trans e2, I.dummy, fun hd => ?_⟩
  rw [I.dead, hD] at hd
  rw [(stays_nbr hD I ⟨w.start.1, hd⟩).2, w.start.2]
  rw [w.start.2]
  intro h0
  exact w.linked.dummy (h0.live r.live)

end

/-! ## The square again -/

/-- Can one get from `x` to `y` in at most `n` steps along the boundary? -/
def alongTo (m : Heap) (hull : List Otri) : Nat → Otri → Otri → Bool
  | 0, x, y => decide (x = y)
  | n + 1, x, y => decide (x = y) ||
    hull.any fun z => decide (m.corner (x.1, x.2 + 2) = m.corner (z.1, z.2 + 1)) && alongTo m hull n z y

theorem alongTo_sound {m : Heap} {ts : List Nat} {hull : List Otri} (hh : ∀ z ∈ hull, Hull m (· ∈ ts) z) :
    ∀ n x y, Hull m (· ∈ ts) x → alongTo m hull n x y = true →
    Relation.EqvGen (fun a b : Otri => Hull m (· ∈ ts) a ∧ Hull m (· ∈ ts) b ∧
      m.corner (a.1, a.2 + 2) = m.corner (b.1, b.2 + 1)) x y := by
  intro n
  induction n with
  | zero =>
    intro x y hx h
    simp only [alongTo, decide_eq_true_eq] at h
    rw [h]; exact .refl _
  | succ n ih =>
    intro x y hx h
    simp only [alongTo, Bool.or_eq_true, List.any_eq_true, Bool.and_eq_true, decide_eq_true_eq] at h
    rcases h with h | ⟨z, h1, h2, h3⟩
    · rw [h]; exact .refl _
    · exact .trans _ _ _ (.rel _ _ ⟨hx, hh z h1, h2⟩) (ih _ _ (hh z h1) h3)

/-- The square, nothing infected. -/
def squareWhole : Carve := { squareSick with sick := fun _ => false }

theorem square_whole : Whole [1, 2, 3, 4] squareWhole where
  linked := square_linked
  segmented := square_segmented
  proper := square_ready.proper
  fans := square_ready.fans
  hull := by
    have hz : ∀ z ∈ [((1, 0) : Otri), (2, 0), (3, 0), (4, 0)], Hull square (· ∈ [1, 2, 3, 4]) z := by
      unfold Hull; decide +kernel
    have only : ∀ t ∈ [1, 2, 3, 4], ∀ o : Fin 3, square.nbr (t, o) = (0, 0) → ((t, o) : Otri) ∈ [((1, 0) : Otri), (2, 0), (3, 0), (4, 0)] := by
      decide +kernel
    have all : ∀ x ∈ [((1, 0) : Otri), (2, 0), (3, 0), (4, 0)], ∀ y ∈ [((1, 0) : Otri), (2, 0), (3, 0), (4, 0)],
        alongTo square [(1, 0), (2, 0), (3, 0), (4, 0)] 4 x y = true := by
      decide +kernel
    intro x y hx hy
    exact alongTo_sound hz 4 x y hx (all x (only x.1 hx.1 x.2 hx.2) y (only y.1 hy.1 y.2 hy.2))
  start := by unfold Hull; decide +kernel
  sick := fun _ => rfl
  freed := rfl
  dead := rfl
  undead := rfl
  hullsize := square_ready.hullsize

/-- The coordinates of the square. -/
def squarePos (n : Nat) : Pt ℚ :=
  if n = 0 then ⟨0, 0⟩ else if n = 1 then ⟨2, 0⟩ else if n = 2 then ⟨2, 2⟩ else if n = 3 then ⟨0, 2⟩ else ⟨1, 1⟩

/-- With -c and a hole found in triangle 4, triangles 3 and 4 go. -/
example : ∃ s' P, Carve.carveholes (fun _ _ _ => .ok (some (4, 1))) squarePos ⟨0, 0⟩ ⟨2, 2⟩ true false [⟨1/4, 1⟩] 12 squareWhole = .ok s' ∧
    (4 ∈ P) ∧ (∀ t, t ∈ s'.dead ↔ Doomed square (· ∈ [1, 2, 3, 4]) P t) := by
  obtain ⟨s', P, h1, h2, -, h3, -⟩ := C137_removed (locate := fun _ _ _ => .ok (some (4, 1))) (pos := squarePos) (lo := ⟨0, 0⟩)
    (hi := ⟨2, 2⟩) square_whole true false [⟨1/4, 1⟩] (fun p => ⟨some (4, 1), rfl, by rintro x ⟨⟩; decide⟩) (fuel := 12) (by decide)
  refine ⟨s', P, h1, (h2 4).2 (Or.inr ⟨rfl, ⟨1/4, 1⟩, by simp, by decide +kernel, ⟨0, 1, ⟨by decide, rfl, rfl⟩, ?_⟩, (4, 1), rfl, rfl⟩), h3⟩
  decide +kernel

example : (do
    let s' ← Carve.carveholes (fun _ _ _ => .ok (some (4, 1))) squarePos ⟨0, 0⟩ ⟨2, 2⟩ true false [⟨1/4, 1⟩] 12 squareWhole
    Outcome.ok ([s'.dead, s'.freed, s'.undead], s'.hullsize)) = Outcome.ok ([[4, 3], [3], [3]], 4) := by
  decide +kernel

/-- C137: the link of `dummytri` may lead to a triangle that has been given back; here to triangle 1,
in which the hole lies.  Triangles 3 and 4 stay. -/
theorem C137_dummytri_refuted : (do
    let s' ← Carve.carveholes (fun _ _ _ => .ok (some (1, 0))) squarePos ⟨0, 0⟩ ⟨2, 2⟩ true false [⟨1, 1/4⟩] 12 squareWhole
    Outcome.ok (s'.dead, s'.mesh.nbr (0, 0), s'.mesh.nbr (4, 1))) = Outcome.ok ([1, 2], (1, 0), (0, 0)) := by
  decide +kernel

/-- Without -c, the triangles 1, 2 and 3 are infected: their edges on the boundary are not protected. -/
example : (do
    let r ← Carve.infecthull 12 squareWhole
    Outcome.ok (r.2, [r.1.smark 3, r.1.vmark 3, r.1.vmark 0, r.1.vmark 1])) = Outcome.ok ([1, 2, 3], [1, 1, 1, 0]) := by
  decide +kernel

end Delynoi
