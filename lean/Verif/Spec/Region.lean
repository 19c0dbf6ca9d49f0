import Verif.Model.Region
/-!
# Vocabulary for region properties
-/
namespace Delynoi
variable {K : Type} [Field K] [LinearOrder K]

/-- All segment indices of a hole refer to its points. -/
def Hole.WF (h : Hole K) : Prop :=
  ∀ s ∈ h.segments, (0 ≤ s.p1 ∧ s.p1 < h.points.length) ∧ 0 ≤ s.p2 ∧ s.p2 < h.points.length

/-- The region's polygon refers to its points and its holes are well formed.  True of every region
built by the library's constructors (`region_wf_*`). -/
def Region.WF (r : Region K) : Prop :=
  (∀ i ∈ r.poly.points, 0 ≤ i ∧ i < r.p.length) ∧ ∀ h ∈ r.holes, h.WF

/-- A good seed: the region contains it and no hole does. -/
def GoodSeed (tol : K) (r : Region K) (q : Pt K) : Prop :=
  r.containsPoint tol q = .ok true ∧ ∀ h ∈ r.holes, h.containsPoint tol q = .ok false

/-- The points of a list whose coordinates are numbers. -/
def numericPts : List (Pt (Option K)) → List (Pt K)
  | [] => []
  | ⟨some x, some y⟩ :: l => ⟨x, y⟩ :: numericPts l
  | _ :: l => numericPts l

/-- One call on a region; exceptions are caught by the caller, who goes on using the region. -/
inductive ROp (σ K : Type) where
  | addHole (scale : Int) (clip : Region.Clip) (h : Hole K)
  | mutate (pts : List (Pt K))
  | addSeedPoints (s : List (Pt K))
  | appendSeeds (s : List (Pt K))
  | generate (xFirst : Bool) (g : Gen σ K) (s : σ) (nX nY : Int)
  | cleanSeeds
  | cleanHoles

variable {σ : Type} [FloorRing K]

/-- State of the region after one call. -/
def ROp.step (tol : K) (r : Region K) : ROp σ K → Outcome (Region K)
  | .addHole scale clip h => do
    let x ← r.addHole tol scale clip h
    return x.1
  | .mutate pts => .ok (r.mutate tol pts).1
  | .addSeedPoints s => r.addSeedPoints tol s
  | .appendSeeds s => r.appendSeeds tol s
  | .generate xf g s nX nY => do
    let x ← r.generateSeedPoints tol xf g s nX nY
    return x.1
  | .cleanSeeds => .ok r.cleanSeedPoints
  | .cleanHoles => .ok r.cleanInternalHoles

/-- State of the region after a history of calls. -/
def ROp.run (tol : K) : Region K → List (ROp σ K) → Outcome (Region K)
  | r, [] => .ok r
  | r, o :: os => do
    let r' ← o.step tol r
    ROp.run tol r' os

/-- Calls that change the outline or add a hole. -/
def ROp.Shrinks : ROp σ K → Prop
  | .addHole .. => True
  | .mutate _ => True
  | _ => False

/-- Calls that filter the seeds. -/
def ROp.Seeds : ROp σ K → Prop
  | .addSeedPoints _ => True
  | .appendSeeds _ => True
  | .generate .. => True
  | _ => False

end Delynoi
