import Verif.Model.TriWrite
import Verif.Spec.Geometry
/-!
# Consistent meshes

What it means that the records of a mesh describe a triangulation; nothing here mentions how the
mesh is written.
-/
namespace Delynoi.Tri
variable {K : Type} [Field K] [LinearOrder K]

/-- The oriented edge `o` of triangle number `t` runs from vertex `u` to vertex `v`. -/
def EdgeFrom (m : OutMesh K) (t : Nat) (o : Fin 3) (u v : Nat) : Prop :=
  ∃ r : TriRec, m.tris[t]? = some r ∧ r.corner (o + 1) = u ∧ r.corner (o + 2) = v

/-- A mesh whose records fit together.  Triangles are at different addresses and counter-clockwise,
their corners are vertices in use; every oriented edge belongs to one triangle; two triangles are
neighbours across an edge exactly if they have it in opposite directions; the counters are right. -/
structure MeshOk (m : OutMesh K) : Prop where
  addrs : (m.tris.map TriRec.addr).Nodup
  corners : ∀ r ∈ m.tris, ∀ o, ∃ v, m.verts[r.corner o]? = some v ∧ v.undead = false
  ccw : ∀ r ∈ m.tris, ∀ a b c, m.verts[r.corner 0]? = some a → m.verts[r.corner 1]? = some b →
    m.verts[r.corner 2]? = some c → 0 < turn a.pt b.pt c.pt
  once : ∀ t t' o o' u v, EdgeFrom m t o u v → EdgeFrom m t' o' u v → t = t' ∧ o = o'
  nbr : ∀ (t : Nat) (r : TriRec), m.tris[t]? = some r → ∀ o t' o',
    r.nbr o = some (t', o') ↔ EdgeFrom m t' o' (r.corner (o + 2)) (r.corner (o + 1))
  undeads : m.undeads = m.verts.countP (fun v => v.undead)
  hullsize : m.hullsize = (m.tris.flatMap (fun r => [r.nbr 0, r.nbr 1, r.nbr 2])).countP (fun n => n.isNone)

/-- The number of vertex `i` when the vertices that are not used are left out. -/
def number (m : OutMesh K) (i : Nat) : Int := ((m.verts.take i).countP (fun v => !v.undead) : Nat)

end Delynoi.Tri
