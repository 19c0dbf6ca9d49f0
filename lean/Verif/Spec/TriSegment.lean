import Verif.Spec.TriLocate
import Verif.Spec.TriCarve
import Verif.Model.TriSegment
/-!
# Segments in the mesh

What the answers of `finddirection` mean, what subsegments know about their edges, and what it means
that a part of a segment has been inserted.
-/
namespace Delynoi.Tri
variable {K : Type} [Field K] [LinearOrder K]

/-- The answer is right: the triangle is in use and has the origin `v`, and the way from `v` to `p` is
* strictly between its edges at `v`, or
* along the edge to its apex, or
* along the edge to its destination. -/
def Toward (m : Heap) (L : Nat → Prop) (pos : Nat → Pt K) (v : Nat) (p : Pt K) : Found → Otri → Prop
  | .within, y => ∃ l r, m.Tri3 L y l v r ∧ 0 < turn (pos v) (pos r) p ∧ 0 < turn (pos v) p (pos l)
  | .leftCollinear, y => ∃ l r, m.Tri3 L y l v r ∧ ∃ t, 0 < t ∧ pos l = lineAt (pos v) p t
  | .rightCollinear, y => ∃ l r, m.Tri3 L y l v r ∧ ∃ t, 0 < t ∧ pos r = lineAt (pos v) p t

/-- The point is not beyond any edge of the boundary at the vertex `v`. -/
def InsideAt (m : Heap) (L : Nat → Prop) (pos : Nat → Pt K) (v : Nat) (p : Pt K) : Prop :=
  ∀ x a b, m.Dir L x a b → m.nbr x = (0, 0) → (a = v ∨ b = v) → 0 ≤ turn (pos a) (pos b) p

/-- The subsegments at edges of the mesh have been made, and have the endpoints of their edges. -/
structure Endpointed (s : Segs) (L : Nat → Prop) : Prop where
  made : ∀ x, L x.1 → (s.mesh.sub x).1 ≤ s.count
  ends : ∀ x v w, s.mesh.Dir L x v w → (s.mesh.sub x).1 ≠ 0 →
    s.send (s.mesh.sub x) = some w ∧ s.send ((s.mesh.sub x).1, !(s.mesh.sub x).2) = some v

/-- A mesh with subsegments. -/
structure SegMesh (s : Segs) (L : Nat → Prop) : Prop where
  linked : Linked s.mesh L
  segmented : Segmented s.mesh L
  proper : Proper s.mesh L
  endpointed : Endpointed s L

/-- `s'` is `s` with a subsegment at the edge `x` from `v` to `w`, and the mark `k` where there was
none: only the subsegments of both sides of the edge have changed, and those only if there were none. -/
structure Subbed (s s' : Segs) (L : Nat → Prop) (x : Otri) (v w : Nat) (k : Int) : Prop where
  nbr : s'.mesh.nbr = s.mesh.nbr
  corner : s'.mesh.corner = s.mesh.corner
  has : (s'.mesh.sub x).1 ≠ 0
  other : ∀ y, L y.1 → y ≠ x → y ≠ s.mesh.nbr x → s'.mesh.sub y = s.mesh.sub y
  old : (s.mesh.sub x).1 ≠ 0 → s'.mesh.sub = s.mesh.sub ∧ s'.count = s.count ∧
    s'.smark (s.mesh.sub x).1 = (if s.smark (s.mesh.sub x).1 = 0 then k else s.smark (s.mesh.sub x).1)
  new : (s.mesh.sub x).1 = 0 → s'.count = s.count + 1 ∧ (s'.mesh.sub x).1 = s.count + 1 ∧ s'.smark (s.count + 1) = k ∧
    s'.segorg (s'.mesh.sub x) = some w ∧ s'.segdest (s'.mesh.sub x) = some v
  smark : ∀ n ≤ s.count, n ≠ (s.mesh.sub x).1 → s'.smark n = s.smark n
  segend : ∀ o : Osub, o.1 ≤ s.count → s'.segend o = s.segend o
  vmark : ∀ u, s'.vmark u = if (u = v ∨ u = w) ∧ s.vmark u = 0 then k else s.vmark u
  slink : ∀ o : Osub, o.1 ≤ s.count → s'.slink o = s.slink o
  alone : (s.mesh.sub x).1 = 0 → ∀ o : Osub, o.1 = s.count + 1 → s'.slink o = (0, false)

/-- A point in a triangle or on its border is one of its corners. -/
def Clear (m : Heap) (L : Nat → Prop) (pos : Nat → Pt K) (p : Pt K) : Prop :=
  ∀ x v a b, m.Tri3 L x v a b → 0 ≤ turn (pos v) (pos a) p → 0 ≤ turn (pos a) (pos b) p → 0 ≤ turn (pos b) (pos v) p →
    p = pos v ∨ p = pos a ∨ p = pos b

/-- The edge between `v` and `w` has a subsegment. -/
def HasSub (m : Heap) (L : Nat → Prop) (v w : Nat) : Prop :=
  ∃ x, (m.Dir L x v w ∨ m.Dir L x w v) ∧ (m.sub x).1 ≠ 0

/-- There is an edge between `a` and `b`, and `b` is on the way from `a` to `p`. -/
def OnWay (m : Heap) (L : Nat → Prop) (pos : Nat → Pt K) (p : Pt K) (a b : Nat) : Prop :=
  m.Adj L a b ∧ ∃ t, 0 < t ∧ t ≤ 1 ∧ pos b = lineAt (pos a) p t

/-- `s'` is `s` with subsegments along the path: the triangles are the same, no subsegment has been
taken away, every edge of the path has one, and no other edge has got one. -/
structure Paved (s s' : Segs) (L : Nat → Prop) (path : List Nat) : Prop where
  nbr : s'.mesh.nbr = s.mesh.nbr
  corner : s'.mesh.corner = s.mesh.corner
  kept : ∀ y, L y.1 → (s.mesh.sub y).1 ≠ 0 → s'.mesh.sub y = s.mesh.sub y
  has : ∀ a b, [a, b] <:+: path → HasSub s'.mesh L a b
  only : ∀ y v w, s.mesh.Dir L y v w → s'.mesh.sub y ≠ s.mesh.sub y → [v, w] <:+: path ∨ [w, v] <:+: path

/-- `s'` is `s` with subsegments at the edges `H` and the mark 1 where there was none: edges with a
subsegment keep it, and nothing else has changed. -/
structure SubbedAll (s s' : Segs) (L : Nat → Prop) (H : Otri → Prop) : Prop where
  nbr : s'.mesh.nbr = s.mesh.nbr
  corner : s'.mesh.corner = s.mesh.corner
  other : ∀ y, L y.1 → ¬ H y → s'.mesh.sub y = s.mesh.sub y
  kept : ∀ y, H y → (s.mesh.sub y).1 ≠ 0 → s'.mesh.sub y = s.mesh.sub y
  new : ∀ y, H y → (s.mesh.sub y).1 = 0 → s.count < (s'.mesh.sub y).1 ∧ s'.smark (s'.mesh.sub y).1 = 1
  smark : ∀ n, 0 < n → n ≤ s.count → (∃ y, H y ∧ (s.mesh.sub y).1 = n) → s.smark n = 0 → s'.smark n = 1
  smark' : ∀ n, 0 < n → n ≤ s.count → (∀ y, H y → (s.mesh.sub y).1 ≠ n) ∨ s.smark n ≠ 0 → s'.smark n = s.smark n
  vmark : ∀ u, (∃ y, H y ∧ (s.mesh.corner (y.1, y.2 + 1) = some u ∨ s.mesh.corner (y.1, y.2 + 2) = some u)) → s.vmark u = 0 →
    s'.vmark u = 1
  vmark' : ∀ u, (∀ y, H y → s.mesh.corner (y.1, y.2 + 1) ≠ some u ∧ s.mesh.corner (y.1, y.2 + 2) ≠ some u) ∨ s.vmark u ≠ 0 →
    s'.vmark u = s.vmark u

/-- How `scoutsegment` ends, with the mesh `s'`, at the vertex `u`:
* the end of the segment has been reached, or
* the way to it leaves the triangle `y` through the edge opposite to `u`, which has no subsegment; the
  edge is left to the caller, or
* that edge has a subsegment, which is split; then the search goes on. -/
def ScoutEnd (segmentintersection : Segs → Otri → Osub → Outcome (Segs × Otri)) (pos : Nat → Pt K) (p : Pt K) (k : Int) (turns : Nat)
    (L : Nat → Prop) (s' : Segs) (u : Nat) (res : Outcome (Bool × Segs × Otri)) : Prop :=
  (pos u = p ∧ ∃ y, res = .ok (true, s', y)) ∨
  (∃ y l r, s'.mesh.Tri3 L y l u r ∧ 0 < turn (pos u) (pos r) p ∧ 0 < turn (pos u) p (pos l) ∧ turn (pos r) (pos l) p < 0 ∧
    ((s'.mesh.sub (lnext y)).1 = 0 ∧ res = .ok (false, s', y) ∨
     (s'.mesh.sub (lnext y)).1 ≠ 0 ∧ ∃ fuel, res = (do
        let q ← segmentintersection s' (lnext y) (s'.mesh.sub (lnext y))
        let s'' ← q.1.insertsubseg q.2 k
        scoutsegment segmentintersection pos p k turns fuel s'' q.2)))

end Delynoi.Tri
