import Verif.Spec.TriCarve
import Mathlib.Data.List.Chain
/-!
# Triangulations with bounding triangles

While a triangulation is built, each edge of its boundary has a bounding triangle on the outer side,
whose third corner is NULL ("ghost").
-/
namespace Delynoi.Tri

/-- The triangles `ts` are surrounded by the bounding triangles `gs`: `gs` are the edges that run from
the boundary to NULL, in the order in which the bounding triangles follow each other.  Every edge, of
both kinds of triangles, is linked to the same edge in the opposite direction; no directed edge between
vertices occurs twice. -/
structure Ghosted (m : Heap) (ts : List Nat) (gs : List Otri) : Prop where
  nodup : (gs.map Prod.fst ++ ts).Nodup
  dummy : 0 ∉ gs.map Prod.fst ++ ts
  inside : ∀ x : Otri, x.1 ∈ gs.map Prod.fst ++ ts → (m.nbr x).1 ∈ gs.map Prod.fst ++ ts
  back : ∀ x : Otri, x.1 ∈ gs.map Prod.fst ++ ts → m.nbr (m.nbr x) = x
  first : ∀ x : Otri, x.1 ∈ gs.map Prod.fst ++ ts → m.corner ((m.nbr x).1, (m.nbr x).2 + 1) = m.corner (x.1, x.2 + 2)
  second : ∀ x : Otri, x.1 ∈ gs.map Prod.fst ++ ts → m.corner ((m.nbr x).1, (m.nbr x).2 + 2) = m.corner (x.1, x.2 + 1)
  once : ∀ x y v w, m.Dir (· ∈ gs.map Prod.fst ++ ts) x v w → m.Dir (· ∈ gs.map Prod.fst ++ ts) y v w → x = y
  proper : Proper m (· ∈ gs.map Prod.fst ++ ts)
  real : ∀ t ∈ ts, ∀ o, ∃ v, m.corner (t, o) = some v
  ghost : ∀ g ∈ gs, m.corner (g.1, g.2 + 2) = none ∧ (∃ v, m.corner (g.1, g.2 + 1) = some v) ∧ ∃ v, m.corner g = some v
  ring : ∃ g rest, gs = g :: rest ∧ List.IsChain (fun a b => m.nbr (a.1, a.2 + 1) = b) (gs ++ [g])

/-- Every bounding triangle has a triangle on its inner side. -/
def Solid (m : Heap) (ts : List Nat) (gs : List Otri) : Prop :=
  ∀ g ∈ gs, (m.nbr (g.1, g.2 + 2)).1 ∈ ts

/-- What removal of the bounding triangles leaves: a mesh with the links among `ts`, whose
boundary is one closed line with one edge for each bounding triangle, found from `dummytri`. -/
structure Unghosted (m : Heap) (ts : List Nat) (gs : List Otri) (m' : Heap) : Prop where
  linked : Linked m' (· ∈ ts)
  hull : OneHull m' (· ∈ ts)
  start : Hull m' (· ∈ ts) (m'.nbr (0, 0))
  size : hullEdges m' (· ∈ ts) = gs.length
  corner : m'.corner = m.corner
  proper : Proper m' (· ∈ ts)
  sub : m'.sub = m.sub
  stri : m'.stri = m.stri
  nbr : ∀ x : Otri, x.1 ∈ ts → (m.nbr x).1 ∈ ts → m'.nbr x = m.nbr x

end Delynoi.Tri
