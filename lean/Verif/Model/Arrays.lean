import Verif.Model.Delaunay
/-!
# The C arrays exchanged with Triangle (TriangleDelaunayGenerator.cpp:25-116)

`malloc` gives an array of uninitialised elements; a write or read out of range and a read of an
uninitialised element are undefined.
-/
namespace Delynoi

/-- A heap array: `none` is an uninitialised element. -/
abbrev Arr (α : Type) := List (Option α)

namespace Arr
variable {α : Type}

/-- `malloc(n * sizeof(α))` (allocation does not fail). -/
def alloc (n : Nat) : Arr α := List.replicate n none

/-- `a[i] = v`. -/
def write (a : Arr α) (i : Nat) (v : α) : Outcome (Arr α) :=
  if i < a.length then .ok (a.set i (some v)) else .ub

/-- `a[i]`. -/
def read (a : Arr α) (i : Nat) : Outcome α :=
  match a[i]? with
  | some (some v) => .ok v
  | _ => .ub

end Arr

/-- The fields of `struct triangulateio in` that are set on lines 25-68. -/
structure RawIn (K : Type) where
  numberofpoints : Nat
  pointlist : Arr K
  numberofpointattributes : Nat
  pointattributelist : Arr K
  numberofsegments : Nat
  segmentlist : Arr Int
  numberofholes : Nat
  holelist : Arr K

section
variable {K : Type} [Field K] [LinearOrder K]

/-- Lines 31-36: the loop over the points; `i` counts points, `points` array elements. -/
def fillPoints (i points : Nat) : List (Pt K) → Arr K × Arr K → Outcome (Arr K × Arr K)
  | [], a => .ok a
  | q :: qs, a => do
    let p ← a.1.write points q.x
    let p ← p.write (points + 1) q.y
    let t ← a.2.write i 0
    fillPoints (i + 1) (points + 2) qs (p, t)

/-- Lines 47-50: the segments of the region; returns the array and the final `k`. -/
def fillSegments (regionIndex : List Nat) (k : Nat) : List ISeg → Arr Int → Outcome (Arr Int × Nat)
  | [], a => .ok (a, k)
  | s :: ss, a => do
    let i ← vecGet regionIndex s.p1
    let a ← a.write (2 * k) (i : Int)
    let j ← vecGet regionIndex s.p2
    let a ← a.write (2 * k + 1) (j : Int)
    fillSegments regionIndex (k + 1) ss a

/-- Lines 52-58: the restricted segments. -/
def fillRestricted (tol : K) (l : List (Pt K)) (k : Nat) : List (Pt K × Pt K) → Arr Int →
    Outcome (Arr Int)
  | [], a => .ok a
  | s :: ss, a => do
    let a ← a.write (2 * k) (UList.indexOf (fun a b : Pt K => a.eqTol tol b) l s.1)
    let a ← a.write (2 * k + 1) (UList.indexOf (fun a b : Pt K => a.eqTol tol b) l s.2)
    fillRestricted tol l (k + 1) ss a

/-- Lines 63-66: the hole centers. -/
def fillHoles (i : Nat) : List (Hole K) → Arr K → Outcome (Arr K)
  | [], a => .ok a
  | h :: hs, a => do
    let a ← a.write (2 * i) h.center.x
    let a ← a.write (2 * i + 1) h.center.y
    fillHoles (i + 1) hs a

/-- Lines 20-68. -/
def rawInput (tol : K) (region : Region K) (seeds : List (Pt K))
    (restricted : List (Pt K × Pt K)) : Outcome (RawIn K) := do
  let u := trianglePoints tol region seeds
  let n := u.1.list.length
  let p ← fillPoints 0 0 u.1.list (Arr.alloc (n * 2), Arr.alloc (n * 1))
  let segs := region.getSegments
  let ns := segs.length + restricted.length
  let s ← fillSegments u.2 0 segs (Arr.alloc (ns * 2))
  let s ← fillRestricted tol u.1.list s.2 restricted s.1
  let nh := region.holes.length
  let h ← fillHoles 0 region.holes (Arr.alloc (nh * 2))
  return ⟨n, p.1, 1, p.2, ns, s, nh, h⟩

/-- The fields of `struct triangulateio out` that are read on lines 82-116 (`pointmarkerlist` only
decides about the boundary flag and is left out). -/
structure RawOut (K : Type) where
  numberofpoints : Nat
  pointlist : Arr K
  numberofedges : Nat
  edgelist : Arr Int
  edgemarkerlist : Arr Int
  numberoftriangles : Nat
  trianglelist : Arr Int

/-- Lines 82-89: the points from number `i` on, `n` of them. -/
def readPts (a : Arr K) : Nat → Nat → Outcome (List (Pt K))
  | _, 0 => .ok []
  | i, n + 1 => do
    let x ← Arr.read a (i * 2)
    let y ← Arr.read a (i * 2 + 1)
    let r ← readPts a (i + 1) n
    return ⟨x, y⟩ :: r

/-- Lines 91-97. -/
def readEdges (a m : Arr Int) : Nat → Nat → Outcome (List (Int × Int × Int))
  | _, 0 => .ok []
  | i, n + 1 => do
    let x ← a.read (2 * i)
    let y ← a.read (2 * i + 1)
    let z ← m.read i
    let r ← readEdges a m (i + 1) n
    return (x, y, z) :: r

/-- Lines 99-116. -/
def readTris (a : Arr Int) : Nat → Nat → Outcome (List (Int × Int × Int))
  | _, 0 => .ok []
  | i, n + 1 => do
    let x ← a.read (3 * i)
    let y ← a.read (3 * i + 1)
    let z ← a.read (3 * i + 2)
    let r ← readTris a (i + 1) n
    return (x, y, z) :: r

/-- Lines 82-116, the reads only; the code stores what it has read before it reads on, which does
not change what is read. -/
def readOut (r : RawOut K) : Outcome (TriOut K) := do
  let p ← readPts r.pointlist 0 r.numberofpoints
  let e ← readEdges r.edgelist r.edgemarkerlist 0 r.numberofedges
  let t ← readTris r.trianglelist 0 r.numberoftriangles
  return ⟨p, e, t⟩

end

end Delynoi
