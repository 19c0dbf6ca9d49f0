import Verif.Model.Polygon
/-!
# Triangles and the two self-contained triangulation schemes
-/
namespace Delynoi

/-- EdgeData.h:16-19 fields: endpoints and incident triangles. -/
structure EdgeData where
  p1 : Int
  p2 : Int
  t1 : Int
  t2 : Int
  deriving DecidableEq, Repr

namespace EdgeData
/-- EdgeData.cpp:4-9. -/
def mk' (p1 p2 : Int) : EdgeData := ⟨p1, p2, -1, -1⟩
/-- EdgeData.cpp:11-17 `setTriangle`. -/
def setTriangle (e : EdgeData) (t : Int) : EdgeData :=
  if e.t1 = -1 then { e with t1 := t } else { e with t2 := t }
/-- EdgeData.cpp:23-26 `operator==`. -/
def eq (a b : EdgeData) : Bool := (a.p1 == b.p1 && a.p2 == b.p2) || (a.p2 == b.p1 && a.p1 == b.p2)
end EdgeData

/-- Triangle.cpp:48-65 `thirdPoint` for the vertex list `[a, b, c]`. -/
def thirdPoint3 (a b c p1 p2 : Int) : Int :=
  if a = p1 then (if b = p2 then c else b)
  else if b = p1 then (if a = p2 then c else a)
  else (if a = p2 then b else a)

/-- Triangle.cpp:48-65 on the vertex vector (reading a missing vertex is undefined). -/
def thirdPoint (pts : List Int) (e : EdgeData) : Outcome Int :=
  match pts with
  | a :: b :: c :: _ => .ok (thirdPoint3 a b c e.p1 e.p2)
  | _ => .ub

section
variable {K : Type} [Field K] [LinearOrder K]

/-- Triangle.cpp:34 `d`. -/
def circumD (a b c : Pt K) : K := 2 * (a.x * (b.y - c.y) + b.x * (c.y - a.y) + c.x * (a.y - b.y))

/-- Point.cpp `squareNorm`. -/
def sqNorm (a : Pt K) : K := a.x ^ 2 + a.y ^ 2

/-- Triangle.cpp:29-40 `calculateCircumcenter`; `none` when `d = 0` (the C++ divides by zero
and yields NaN or infinite coordinates). -/
def circumcenter (a b c : Pt K) : Option (Pt K) :=
  if circumD a b c = 0 then none
  else some
    ⟨(sqNorm a * (b.y - c.y) + sqNorm b * (c.y - a.y) + sqNorm c * (a.y - b.y)) / circumD a b c,
     (sqNorm a * (c.x - b.x) + sqNorm b * (a.x - c.x) + sqNorm c * (b.x - a.x)) / circumD a b c⟩

/-! ### Ear clipping (EarTriangulationGenerator.cpp) -/

/-- EarTriangulationGenerator.cpp:22-26: the inner loop over all vertices (no early exit). -/
def earBlocked (tol : K) (p : List (Pt K)) (t : List (Pt K)) (tri : List Int) :
    List Int → Outcome Bool
  | [] => .ok false
  | v :: vs => do
    let b ← (if isVertex tri v then .ok false
      else do
        let q ← vecGet p v
        return containsPoint tol t q)
    let r ← earBlocked tol p t tri vs
    return b || r

/-- EarTriangulationGenerator.cpp:17-34: try the vertices in order; `some (triangle, rest)` if
one is accepted as an ear, `none` for the null triangle. -/
def findEar (tol : K) (p : List (Pt K)) (l : List Int) :
    List Nat → Outcome (Option (List Int × List Int))
  | [] => .ok none
  | i :: is => do
    let n := l.length
    let tri ← resolve l [((n + i - 1) % n : Nat), (i % n : Nat), ((n + i + 1) % n : Nat)]
    let t ← resolve p tri
    let cv ← isConvex t
    if cv then
      let test ← earBlocked tol p t tri l
      if test then findEar tol p l is else return some (tri, l.eraseIdx i)
    else findEar tol p l is

/-- EarTriangulationGenerator.cpp:3-38 `getEar`.  With three vertices left the triangle is
emitted without any test (its constructor reads the three points). -/
def getEar (tol : K) (p : List (Pt K)) (l : List Int) : Outcome (Option (List Int × List Int)) :=
  if l.length < 3 then .ok none
  else if l.length = 3 then do
    let _ ← resolve p l
    return some (l, [])
  else findEar tol p l (List.range l.length)

/-- EarTriangulationGenerator.cpp:44-50: the `while` loop, run for at most `fuel` iterations;
running out of fuel is `ub` (a loop that does not end).  Property C39 shows that `fuel` equal to
the number of vertices is always enough. -/
def earLoop (tol : K) (p : List (Pt K)) : Nat → List Int → List (List Int) → Outcome (List (List Int))
  | fuel, l, acc =>
    if l.length < 3 then .ok acc
    else match fuel with
    | 0 => .ub
    | fuel + 1 => do
      match ← getEar tol p l with
      | none => return acc
      | some (t, l') => earLoop tol p fuel l' (acc ++ [t])

/-- EarTriangulationGenerator.cpp:40-53 `triangulate` (vertex lists of the triangles). -/
def earTriangulate (tol : K) (p : List (Pt K)) (idx : List Int) : Outcome (List (List Int)) :=
  earLoop tol p idx.length idx []

/-! ### Center triangulation (CenterTriangulationGenerator.cpp) -/

/-- CenterTriangulationGenerator.cpp:3-24 `triangulate`: new point list and the triangles'
vertex lists.  A NaN center (`none`) needs an empty polygon, which `isConvex` does not survive. -/
def centerTriangulate (p : List (Pt K)) (idx : List Int) :
    Outcome (List (Pt K) × List (List Int)) := do
  let l ← resolve p idx
  let cv ← isConvex l
  if !cv then .exn
  else match getAverage l with
    | none => .ub
    | some c =>
      return (p ++ [c], (cycPairs idx).map (fun e => [e.1, e.2, (p.length : Int)]))

end
end Delynoi
