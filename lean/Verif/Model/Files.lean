import Verif.Model.Text
/-!
# Files written by the library besides meshes

Directories (`utilities::getPath`) are not modelled: each function returns the contents of its file.
-/
namespace Delynoi

/-- `operator<<(int)`. -/
def OStream.putI (o : OStream) (n : Int) : OStream :=
  (if n < 0 then o.putS ['-'] else o).putN n.natAbs

/-- TriangleDelaunayGenerator.cpp:163-165: the vertex lines; also 179-181 for the centers of the
holes.  The counter is a natural number (no overflow of `int`). -/
def numberedPoints (o : OStream) : Nat → List (Pt ℚ) → OStream
  | _, [] => o
  | i, p :: ps => numberedPoints (((o.putN i).putS [' ']).line (ptString p)) (i + 1) ps

/-- TriangleDelaunayGenerator.cpp:171-173: the segment lines; `regionIndex[..]` is not checked. -/
def numberedSegments (regionIndex : List Int) (o : OStream) : Nat → List ISeg → Outcome OStream
  | _, [] => .ok o
  | i, s :: ss => do
    let a ← vecGet regionIndex s.p1
    let b ← vecGet regionIndex s.p2
    numberedSegments regionIndex
      ((((((o.putN i).putS [' ']).putI a).putS [' ']).putI b).endl) (i + 1) ss

/-- TriangleDelaunayGenerator.cpp:154-184 `writeTriangleInputFile`: the contents of
`toTriangle.poly`. -/
def writeTriangleInputFile (points : List (Pt ℚ)) (r : Region ℚ) (regionIndex : List Int) :
    Outcome (List Char) := do
  let o := ((OStream.new.putN points.length).putS " 2 0 0".toList).endl
  let o := numberedPoints o 0 points
  let o := ((o.putN r.getSegments.length).putS " 0".toList).endl
  let o ← numberedSegments regionIndex o 0 r.getSegments
  let o := (o.putN r.holes.length).endl
  return (numberedPoints o 0 (r.holes.map Hole.center)).buf

/-- NeighboursBySegment.cpp:31-33 `getString`: the `int`s are converted to `double`; `n1` may be
uninitialised. -/
def NbSeg.getString (n : NbSeg) : Outcome (List Char) := do
  let a ← n.getFirst
  return toStringD (a : ℚ) ++ ' ' :: toStringD (n.n2 : ℚ)

/-- SegmentMap.cpp:45-47: the loop over the hash table, in the order `order`. -/
def segMapLines (o : OStream) : List (ISeg × NbSeg) → Outcome OStream
  | [] => .ok o
  | e :: es => do
    let t ← e.2.getString
    segMapLines (o.line (isegString e.1 ++ ' ' :: t)) es

/-- SegmentMap.cpp:37-50 `printInFile`; `order` lists the entries in the order in which the hash
table is traversed, some permutation of the map. -/
def SegMap.printInFile (order : List (ISeg × NbSeg)) : Outcome (List Char) := do
  let o ← segMapLines OStream.new order
  return o.buf

/-- PointMap.cpp:50-57: the line of one point, with a space after every item. -/
def ptMapLine (o : OStream) (e : Pt ℚ × List Int) : OStream :=
  (e.2.foldl (fun o i => (o.putI i).putS [' ']) (o.putS (ptString e.1 ++ [' ']))).endl

/-- PointMap.cpp:41-61 `printInFile`. -/
def PtMap.printInFile (m : PtMap ℚ) : List Char := (m.foldl ptMapLine OStream.new).buf

/-- EdgeData.cpp:19-21 `getString` (of the end points `p1`, `p2`). -/
def edgeDataString (p1 p2 : Int) : List Char := toStringD (p1 : ℚ) ++ ' ' :: toStringD (p2 : ℚ)

/-- PointSegment.cpp:15-17 `getString`. -/
def psegString (a b : Pt ℚ) : List Char := ptString a ++ ' ' :: ptString b

end Delynoi
