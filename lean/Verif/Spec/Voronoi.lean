import Verif.Spec.Triangulation
/-!
# What a Voronoi cell should consist of

Only talks about the triangulation, a point list and index lists.
-/
namespace Delynoi
variable {K : Type} [Field K] [LinearOrder K]

/-- Index `i` of the point list `l` denotes the point `q`, up to the tolerance. -/
def Denotes (tol : K) (l : List (Pt K)) (i : Int) (q : Pt K) : Prop :=
  ∃ y, vecGet l i = .ok y ∧ Close tol y q

/-- Index `i` denotes the circumcenter of triangle number `t`. -/
def DenotesCenter (tol : K) (out : TriOut K) (l : List (Pt K)) (t : Nat) (i : Int) : Prop :=
  ∃ tt a b c q, out.tris[t]? = some tt ∧ vecGet out.points tt.1 = .ok a ∧
    vecGet out.points tt.2.1 = .ok b ∧ vecGet out.points tt.2.2 = .ok c ∧
    sqDist q a = sqDist q b ∧ sqDist q a = sqDist q c ∧ Denotes tol l i q

/-- Index `i` denotes the middle of the points number `v` and `a`. -/
def DenotesMid (tol : K) (out : TriOut K) (l : List (Pt K)) (v a i : Int) : Prop :=
  ∃ pv pa, vecGet out.points v = .ok pv ∧ vecGet out.points a = .ok pa ∧
    Denotes tol l i ⟨(pv.x + pa.x) / 2, (pv.y + pa.y) / 2⟩

/-- Exactly one triangle has the side `v a`. -/
def BoundaryEdge (tris : List (Int × Int × Int)) (v a : Int) : Prop :=
  ∃ t : Nat, (∃ tt, tris[t]? = some tt ∧ s(v, a) ∈ sides tt) ∧
    ∀ (u : Nat) uu, tris[u]? = some uu → s(v, a) ∈ sides uu → u = t

/-- The indices `idx` of a cell around the point number `v`, whose triangles `ts` form a fan over the
neighbours `ns`.  Inner points: the circumcenters of the triangles in order, starting with the last.
Boundary points: the middle of the first edge, the circumcenters, the middle of the last edge, and
the point itself unless it lies (up to the tolerance) on the line through the first and the last
index kept. -/
inductive CellIdx (tol : K) (out : TriOut K) (l : List (Pt K)) (v : Int) (ns : List Int)
    (ts : List Nat) : List Int → Prop
  | inner (cs : List Int) (c : Int) : ns.head? = ns.getLast? →
      List.Forall₂ (DenotesCenter tol out l) ts cs → cs.getLast? = some c →
      CellIdx tol out l v ns ts (c :: cs)
  | flat (a b i m e : Int) (cs : List Int) (qf ql p : Pt K) : ns.head? = some a →
      ns.getLast? = some b → BoundaryEdge out.tris v a → BoundaryEdge out.tris v b →
      DenotesMid tol out l v a i → List.Forall₂ (DenotesCenter tol out l) ts cs →
      DenotesMid tol out l v b m →
      (firsts (i :: cs ++ [m])).getLast? = some e →
      vecGet l i = .ok qf → vecGet out.points v = .ok p → vecGet l e = .ok ql →
      |turn qf p ql| < tol →
      CellIdx tol out l v ns ts (i :: cs ++ [m])
  | corner (a b i m e r : Int) (cs : List Int) (qf ql p : Pt K) : ns.head? = some a →
      ns.getLast? = some b → BoundaryEdge out.tris v a → BoundaryEdge out.tris v b →
      DenotesMid tol out l v a i → List.Forall₂ (DenotesCenter tol out l) ts cs →
      DenotesMid tol out l v b m →
      (firsts (i :: cs ++ [m])).getLast? = some e →
      vecGet l i = .ok qf → vecGet out.points v = .ok p → vecGet l e = .ok ql →
      ¬ |turn qf p ql| < tol → Denotes tol l r p →
      CellIdx tol out l v ns ts (i :: cs ++ [m] ++ [r])

/-- `q` is the middle or an end of an edge that is a side of exactly one triangle. -/
def OnBoundaryEdge (out : TriOut K) (q : Pt K) : Prop :=
  ∃ v a pv pa, BoundaryEdge out.tris v a ∧ vecGet out.points v = .ok pv ∧
    vecGet out.points a = .ok pa ∧
    (q = ⟨(pv.x + pa.x) / 2, (pv.y + pa.y) / 2⟩ ∨ q = pv)

/-- `q` is at the same distance from the vertices of a (proper) triangle of the triangulation. -/
def IsCenterOf (out : TriOut K) (q : Pt K) : Prop :=
  ∃ t ∈ out.tris, ∃ a b c, vecGet out.points t.1 = .ok a ∧ vecGet out.points t.2.1 = .ok b ∧
    vecGet out.points t.2.2 = .ok c ∧ turn a b c ≠ 0 ∧ sqDist q a = sqDist q b ∧ sqDist q a = sqDist q c

/-- Merge adjacent repetitions. -/
def dropRepeats : List Int → List Int
  | a :: b :: l => if a = b then dropRepeats (b :: l) else a :: dropRepeats (b :: l)
  | l => l

/-- The path of indices around a cell never comes back to an index it left (except, for an inner
cell, to close). -/
def NoReturn (ns idx : List Int) : Prop :=
  if ns.head? = ns.getLast? then (dropRepeats idx).tail.Nodup else (dropRepeats idx).Nodup

/-- The neighbours stored for an edge are consistent with polygon number `j` having it. -/
def Remembers (n : NbSeg) (j : Nat) : Prop :=
  ∃ i : Int, n.n1 = some i ∧ i ≤ j ∧ (i = j ∨ (j : Int) ≤ n.n2)

end Delynoi
