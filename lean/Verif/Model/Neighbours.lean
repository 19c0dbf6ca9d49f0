import Verif.Model.IndexSegment
import Verif.Model.Point
import Verif.Model.UniqueList
/-!
# Neighbourhood maps (delynoi/src/models/neighbourhood)
-/
namespace Delynoi

/-- NeighboursBySegment.h:16-17.  `n1 = none` stands for a member that was never initialised. -/
structure NbSeg where
  n1 : Option Int
  n2 : Int
  deriving DecidableEq, Repr

namespace NbSeg

/-- NeighboursBySegment.cpp:3, default constructor: `n1` has no initialiser, `n2 = -1`
(NeighboursBySegment.h:16-17). -/
def default' : NbSeg := ⟨none, -1⟩

/-- NeighboursBySegment.cpp:5-7. -/
def one (i : Int) : NbSeg := ⟨some i, -1⟩

/-- NeighboursBySegment.cpp:9-12. -/
def two (i j : Int) : NbSeg := ⟨some i, j⟩

/-- NeighboursBySegment.cpp:19-21 `setNeighbour`. -/
def setNeighbour (n : NbSeg) (i : Int) : NbSeg := { n with n2 := i }

/-- NeighboursBySegment.cpp:40-42 `setFirst`. -/
def setFirst (n : NbSeg) (i : Int) : NbSeg := { n with n1 := some i }

/-- NeighboursBySegment.cpp:44-46 `setSecond`. -/
def setSecond (n : NbSeg) (i : Int) : NbSeg := { n with n2 := i }

/-- NeighboursBySegment.cpp:23-25 `getFirst`: reading an uninitialised `int` is undefined
behaviour. -/
def getFirst (n : NbSeg) : Outcome Int :=
  match n.n1 with
  | some i => .ok i
  | none => .ub

/-- NeighboursBySegment.cpp:35-38 `operator==`.  Both operands are assumed to be initialised
(`getFirst` on the left of `&&` is always evaluated). -/
def eq (a b : NbSeg) : Outcome Bool := do
  let a1 ← a.getFirst
  let b1 ← b.getFirst
  return (a1 == b1 && a.n2 == b.n2) || (a1 == b.n2 && a.n2 == b1)

end NbSeg

/-- SegmentMap.h:29: `std::unordered_map<IndexSegment, NeighboursBySegment, SegmentHasher>`
(mapdata.h:44-51: the hasher reads the `hash` field). -/
abbrev SegMap := UMap ISeg NbSeg

namespace SegMap

/-- SegmentMap.cpp:4. -/
def empty : SegMap := []

/-- `this->map.find(s)`. -/
def find (m : SegMap) (s : ISeg) : Option NbSeg := UMap.find ISeg.hash ISeg.eq m s

/-- SegmentMap.cpp:6-15. -/
def insert (m : SegMap) (s : ISeg) (i : Int) : SegMap :=
  UMap.upsert ISeg.hash ISeg.eq (NbSeg.one i) (fun n => n.setNeighbour i) m s

/-- SegmentMap.cpp:17-19: assignment through `operator[]`. -/
def assign (m : SegMap) (s : ISeg) (n : NbSeg) : SegMap :=
  UMap.upsert ISeg.hash ISeg.eq n (fun _ => n) m s

/-- SegmentMap.cpp:21-23 `get`: `operator[]` inserts a default-constructed value if the key is
absent.  The returned reference is modelled by its value. -/
def get (m : SegMap) (s : ISeg) : SegMap × NbSeg :=
  match find m s with
  | some n => (m, n)
  | none => (UMap.upsert ISeg.hash ISeg.eq NbSeg.default' id m s, NbSeg.default')

/-- SegmentMap.cpp:33-35 `size` (conversion to `int` not modelled). -/
def size (m : SegMap) : Nat := m.length

/-- SegmentMap.cpp:52-54. -/
def containsSegment (m : SegMap) (s : ISeg) : Bool := (find m s).isSome

/-- The calls a program can make on a `SegmentMap`. -/
inductive Op where
  | insert (s : ISeg) (i : Int)
  | assign (s : ISeg) (n : NbSeg)
  | get (s : ISeg)
  | contains (s : ISeg)

/-- One call. -/
def step (m : SegMap) : Op → SegMap
  | .insert s i => m.insert s i
  | .assign s n => m.assign s n
  | .get s => (m.get s).1
  | .contains _ => m

/-- A history of calls on a new map. -/
def run (ops : List Op) : SegMap := ops.foldl step empty

end SegMap

/-- PointMap.h:19: `std::map<Point, NeighboursByPoint>`; a `NeighboursByPoint`
(NeighboursByPoint.cpp:3-27) is its vector. -/
abbrev PtMap (K : Type) := List (Pt K × List Int)

namespace PtMap
variable {K : Type} [Field K] [LinearOrder K]

/-- PointMap.cpp:4. -/
def empty : PtMap K := []

/-- `this->map.find(p)` with `Point::operator<`. -/
def find (tol : K) (m : PtMap K) (p : Pt K) : Option (List Int) :=
  SMap.find (fun a b => a.ltTol tol b) m p

/-- PointMap.cpp:17-27 `insert(Point&, vector<int>&)`: `find`, then either `insert` of a fresh
entry or appending to the entry found (line 25). -/
def insertAll (tol : K) (m : PtMap K) (p : Pt K) (n : List Int) : PtMap K :=
  match find tol m p with
  | none => SMap.insert (fun a b => a.ltTol tol b) m p n
  | some _ => SMap.upsert (fun a b => a.ltTol tol b) [] (fun l => l ++ n) m p

/-- PointMap.cpp:5-15 `insert(Point, int)`. -/
def insert (tol : K) (m : PtMap K) (p : Pt K) (n : Int) : PtMap K :=
  match find tol m p with
  | none => SMap.insert (fun a b => a.ltTol tol b) m p [n]
  | some _ => SMap.upsert (fun a b => a.ltTol tol b) [] (fun l => l ++ [n]) m p

/-- PointMap.cpp:29-31 `get`: `operator[]`; inserts an empty list if the point is absent. -/
def get (tol : K) (m : PtMap K) (p : Pt K) : PtMap K × List Int :=
  match find tol m p with
  | some n => (m, n)
  | none => (SMap.insert (fun a b => a.ltTol tol b) m p [], [])

/-- PointMap.cpp:37-39. -/
def size (m : PtMap K) : Nat := m.length

/-- The calls a program can make on a `PointMap`. -/
inductive Op (K : Type) where
  | insert (p : Pt K) (n : Int)
  | insertAll (p : Pt K) (n : List Int)
  | get (p : Pt K)

/-- One call. -/
def step (tol : K) (m : PtMap K) : Op K → PtMap K
  | .insert p n => m.insert tol p n
  | .insertAll p n => m.insertAll tol p n
  | .get p => (m.get tol p).1

/-- A history of calls on a new map. -/
def run (tol : K) (ops : List (Op K)) : PtMap K := ops.foldl (step tol) empty

end PtMap
end Delynoi
