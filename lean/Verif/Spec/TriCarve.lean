import Verif.Spec.TriMesh
import Verif.Model.TriCarve
import Mathlib.Data.Set.Card
import Mathlib.Logic.Relation
/-!
# Which triangles are removed

What the mesh is like before triangles are removed, and which of them should go.
-/
namespace Delynoi.Tri

/-- The corners of every triangle are different. -/
def Proper (m : Heap) (L : Nat → Prop) : Prop :=
  ∀ t, L t → ∀ o o', m.corner (t, o) = m.corner (t, o') → o = o'

/-- The triangles that can be reached from the triangles `P` without crossing a subsegment. -/
inductive Doomed (m : Heap) (L : Nat → Prop) (P : List Nat) : Nat → Prop
  | start {t : Nat} : t ∈ P → Doomed m L P t
  | spread {x : Otri} : Doomed m L P x.1 → L (m.nbr x).1 → (m.sub x).1 = 0 → Doomed m L P (m.nbr x).1

/-- The triangles around a vertex are linked: from each one can turn to each other one across edges
at the vertex. -/
def Fans (m : Heap) (L : Nat → Prop) : Prop :=
  ∀ x y v w w', m.Dir L x v w → m.Dir L y v w' →
    Relation.EqvGen (fun a b : Otri => L a.1 ∧ L b.1 ∧ m.nbr (a.1, a.2 + 2) = b) x y

/-- The number of edges on the boundary. -/
noncomputable def hullEdges (m : Heap) (L : Nat → Prop) : Nat := Set.ncard {y : Otri | L y.1 ∧ m.nbr y = (0, 0)}

/-- An edge on the boundary. -/
def Hull (m : Heap) (L : Nat → Prop) (x : Otri) : Prop := L x.1 ∧ m.nbr x = (0, 0)

/-- The boundary is one closed line: one can get from each of its edges to each other one over
common endpoints. -/
def OneHull (m : Heap) (L : Nat → Prop) : Prop :=
  ∀ x y, Hull m L x → Hull m L y → Relation.EqvGen (fun a b : Otri => Hull m L a ∧ Hull m L b ∧
    m.corner (a.1, a.2 + 2) = m.corner (b.1, b.2 + 1)) x y

/-- A mesh with the triangles `ts` of which exactly those of `P` are infected, before anything is
deleted. -/
structure Ready (m : Heap) (ts : List Nat) (P : List Nat) (s : Carve) : Prop where
  linked : Linked m (· ∈ ts)
  segmented : Segmented m (· ∈ ts)
  proper : Proper m (· ∈ ts)
  fans : Fans m (· ∈ ts)
  mesh : s.mesh = m
  nodup : P.Nodup
  live : ∀ t ∈ P, t ∈ ts
  sick : ∀ t, s.sick t = true ↔ t ∈ P
  freed : s.freed = []
  dead : s.dead = []
  undead : s.undead = []
  hullsize : s.hullsize = hullEdges m (· ∈ ts)

/-- The triangles that stay. -/
def Stays (m : Heap) (ts : List Nat) (P : List Nat) (t : Nat) : Prop := t ∈ ts ∧ ¬ Doomed m (· ∈ ts) P t

/-- A mesh with the triangles `ts` before `carveholes`: nothing is infected or deleted, the boundary
is one closed line and can be reached from `dummytri`. -/
structure Whole (ts : List Nat) (s : Carve) : Prop where
  linked : Linked s.mesh (· ∈ ts)
  segmented : Segmented s.mesh (· ∈ ts)
  proper : Proper s.mesh (· ∈ ts)
  fans : Fans s.mesh (· ∈ ts)
  hull : OneHull s.mesh (· ∈ ts)
  start : Hull s.mesh (· ∈ ts) (s.mesh.nbr (0, 0))
  sick : ∀ t, s.sick t = false
  freed : s.freed = []
  dead : s.dead = []
  undead : s.undead = []
  hullsize : s.hullsize = hullEdges s.mesh (· ∈ ts)

/-- Some hole is found in triangle `t`: the point is in the box, to the left of the edge where the
search starts, and the search ends in `t`. -/
def HoleIn {K : Type} [Field K] [LinearOrder K] (m : Heap) (ts : List Nat)
    (locate : Heap → Pt K → Otri → Outcome (Option Otri)) (pos : Nat → Pt K) (lo hi : Pt K) (holes : List (Pt K)) (t : Nat) : Prop :=
  ∃ p ∈ holes, (lo.x ≤ p.x ∧ p.x ≤ hi.x ∧ lo.y ≤ p.y ∧ p.y ≤ hi.y) ∧
    (∃ a b, m.Dir (· ∈ ts) (m.nbr (0, 0)) a b ∧ 0 < turn (pos a) (pos b) p) ∧
    ∃ x, locate m p (m.nbr (0, 0)) = .ok (some x) ∧ x.1 = t

/-- Triangle `t` has an edge on the boundary without a subsegment. -/
def Unprotected (m : Heap) (ts : List Nat) (t : Nat) : Prop :=
  ∃ x, Hull m (· ∈ ts) x ∧ x.1 = t ∧ (m.sub x).1 = 0

end Delynoi.Tri
