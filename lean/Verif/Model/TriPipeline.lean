import Verif.Model.TriEncroach
/-!
# Triangle's last two phases

`delynoi/include/delynoi/voronoi/lib/triangle.c:15801-15826`: holes are carved, then encroached
subsegments are split.
-/
namespace Delynoi.Tri
variable {K : Type} [Field K] [LinearOrder K]

/-- The subsegments after `carveholes`: `c` has the mesh and the marks, `s` the rest. -/
def Segs.carved (s : Segs) (c : Carve) : Segs := { s with mesh := c.mesh, smark := c.smark, vmark := c.vmark }

/-- The traversal of the pool of subsegments: those that have been made and not given back. -/
def liveSubs (s : Segs) (c : Carve) : List Nat := (List.range' 1 s.count).filter (fun n => decide (n ∉ c.freed))

/-- triangle.c:15801-15826 for the switches with D (Delynoi's `pzejDQ`).  `enforcequality` is also called
if no triangle is left; then there are no subsegments, and it does nothing. -/
def carveThenSplit (locate : Heap → Pt K → Otri → Outcome (Option Otri)) (pos : Nat → Pt K) (lo hi : Pt K) (convex noholes : Bool)
    (holes : List (Pt K)) (sqrt : K → K) (pick : List Enc → Nat) (fuel steps nvert ntri : Nat) (s : Segs) (c : Carve) :
    Outcome (Option (Refine K)) := do
  let c ← Carve.carveholes locate pos lo hi convex noholes holes fuel c
  enforcequality sqrt pick steps (s.carved c) pos nvert ntri (liveSubs s c)

end Delynoi.Tri
