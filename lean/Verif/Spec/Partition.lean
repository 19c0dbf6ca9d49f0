import Verif.Spec.Polygon
/-!
# Vocabulary for triangulations: a polygon filled by triangles
-/
namespace Delynoi
variable {K : Type} [Field K] [LinearOrder K]

/-- `q` is in the closed triangle. -/
def InTri (t : Pt K × Pt K × Pt K) (q : Pt K) : Prop :=
  0 ≤ turn t.1 t.2.1 q ∧ 0 ≤ turn t.2.1 t.2.2 q ∧ 0 ≤ turn t.2.2 t.1 q

/-- `q` is strictly inside the triangle. -/
def InOpenTri (t : Pt K × Pt K × Pt K) (q : Pt K) : Prop :=
  0 < turn t.1 t.2.1 q ∧ 0 < turn t.2.1 t.2.2 q ∧ 0 < turn t.2.2 t.1 q

/-- The triangles fill the (convex, counter-clockwise) polygon: each is counter-clockwise, the
points of the polygon are the points of the triangles, and no two triangles share an inner point. -/
def Tiles (tps : List (Pt K × Pt K × Pt K)) (pts : List (Pt K)) : Prop :=
  (∀ t ∈ tps, 0 < turn t.1 t.2.1 t.2.2) ∧
  (∀ q, ¬ Outside pts q ↔ ∃ t ∈ tps, InTri t q) ∧
  tps.Pairwise (fun s t => ∀ q, ¬ (InOpenTri s q ∧ InOpenTri t q))

/-- `x` is in the star around `p` with the outline `l`: in a triangle between `p` and a side. -/
def InStar (p : Pt K) (l : List (Pt K)) (x : Pt K) : Prop :=
  ∃ i : Fin l.length, 0 < turn p l[i] (nextV l i) ∧ InTri (p, l[i], nextV l i) x

/-- `x` is strictly inside one of these triangles. -/
def InOpenStar (p : Pt K) (l : List (Pt K)) (x : Pt K) : Prop :=
  ∃ i : Fin l.length, InOpenTri (p, l[i], nextV l i) x

/-- The edge `ab` (half-open in height: lower end included, upper end excluded) meets the
horizontal ray going right from `q`. -/
def CrossesRight (a b q : Pt K) : Prop :=
  min a.y b.y ≤ q.y ∧ q.y < max a.y b.y ∧
    ∃ t, 0 ≤ t ∧ t ≤ 1 ∧ (lineAt a b t).y = q.y ∧ q.x < (lineAt a b t).x

open Classical in
/-- How often the outline `l` goes around `q`: crossings of the ray going right from `q`, upward ones
minus downward ones. -/
noncomputable def winding (l : List (Pt K)) (q : Pt K) : Int :=
  ((List.finRange l.length).countP (fun i => decide (CrossesRight l[i] (nextV l i) q ∧ l[i].y < (nextV l i).y)) : Int) -
  ((List.finRange l.length).countP (fun i => decide (CrossesRight l[i] (nextV l i) q ∧ (nextV l i).y < l[i].y)) : Int)

/-- The triangle with the other orientation. -/
def flipTri (t : Pt K × Pt K × Pt K) : Pt K × Pt K × Pt K := (t.1, t.2.2, t.2.1)

open Classical in
/-- Number of triangles that have `q` strictly inside. -/
noncomputable def openCount (ts : List (Pt K × Pt K × Pt K)) (q : Pt K) : Nat :=
  ts.countP (fun t => decide (InOpenTri t q))

open Classical in
/-- Number of proper counter-clockwise triangles that contain `q`. -/
noncomputable def closedCount (ts : List (Pt K × Pt K × Pt K)) (q : Pt K) : Nat :=
  ts.countP (fun t => decide (0 < turn t.1 t.2.1 t.2.2 ∧ InTri t q))

end Delynoi
