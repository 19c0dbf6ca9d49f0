import Verif.Model.Region
import Verif.Model.Delaunay
import Mathlib.Data.Int.Log
import Mathlib.Data.Rat.Floor
/-!
# Text input and output

Strings are lists of characters.  Coordinates are rational numbers here: every finite `double` is
one.  Reading rounds to the nearest `double` in C++; the model keeps the exact value.
-/
namespace Delynoi

/-! ### Splitting (lib/utilities/src/utilities.cpp) -/

/-- What `\s` of an ECMAScript `std::regex` and `isspace` match in the "C" locale. -/
def isSpace (c : Char) : Bool :=
  c == ' ' || c == '\t' || c == '\n' || c == Char.ofNat 11 || c == Char.ofNat 12 || c == '\r'

/-- utilities.cpp:73-76: the pieces a `sregex_token_iterator` with submatch `-1` visits for the
regular expression `\s+`: the text before the first maximal run of spaces, then the pieces of the
text after it.  (The fuel is the length of the text plus one, see `splitBySpaces`; it is never
used up because every round consumes a character.) -/
def pieces : Nat → List Char → List (List Char)
  | 0, _ => []
  | fuel + 1, s =>
    match s.dropWhile (fun c => !isSpace c) with
    | [] => [s]
    | _ :: rest => s.takeWhile (fun c => !isSpace c) :: pieces fuel (rest.dropWhile isSpace)

/-- utilities.cpp:70-86 `split` with `\s+`, `splitBySpaces`: empty pieces are dropped. -/
def splitBySpaces (s : List Char) : List (List Char) :=
  (pieces (s.length + 1) s).filter (fun t => !t.isEmpty)

/-! ### Reading numbers (C library) -/

/-- The optional sign of `strtol` and `strtod`. -/
def readSign : List Char → Bool × List Char
  | '-' :: s => (true, s)
  | '+' :: s => (false, s)
  | s => (false, s)

/-- Value of a run of decimal digits. -/
def digitsVal (s : List Char) : Nat := Nat.ofDigitChars 10 s 0

/-- `std::atoi`: spaces, an optional sign, the longest run of digits; 0 if there is none;
undefined if the value is not an `int`. -/
def atoi (s : List Char) : Outcome Int :=
  let sg := readSign (s.dropWhile isSpace)
  let n : Int := digitsVal (sg.2.takeWhile Char.isDigit)
  let v := if sg.1 then -n else n
  if -2147483648 ≤ v ∧ v ≤ 2147483647 then .ok v else .ub

/-- The exponent part accepted by `strtod`, 0 if it is not well-formed. -/
def readExp : List Char → Int
  | [] => 0
  | c :: s =>
    if c = 'e' ∨ c = 'E' then
      let sg := readSign s
      let n : Int := digitsVal (sg.2.takeWhile Char.isDigit)
      if sg.1 then -n else n
    else 0

/-- The fraction part accepted by `strtod`: its digits and the rest. -/
def readFrac : List Char → List Char × List Char
  | '.' :: s => (s.takeWhile Char.isDigit, s.dropWhile Char.isDigit)
  | s => ([], s)

/-- `std::atof` on decimal numbers: spaces, sign, digits with an optional point, optional
exponent; 0 if there is no digit.  Simplified: exact value instead of the nearest `double`, no
overflow, and the forms `inf`, `nan` and hexadecimal numbers are not recognised. -/
def atof (s : List Char) : ℚ :=
  let sg := readSign (s.dropWhile isSpace)
  let ip := sg.2.takeWhile Char.isDigit
  let fr := readFrac (sg.2.dropWhile Char.isDigit)
  if ip = [] ∧ fr.1 = [] then 0
  else
    let m : ℚ := digitsVal (ip ++ fr.1)
    (if sg.1 then -m else m) * (10 : ℚ) ^ (readExp fr.2 - (fr.1.length : Int))

/-! ### Writing numbers (C library) -/

/-- Rounding to the nearest integer, ties to even (what `printf` does with the exact value). -/
def roundHE (q : ℚ) : Int :=
  let f := ⌊q⌋
  if q - f < 1 / 2 then f
  else if 1 / 2 < q - f then f + 1
  else if f % 2 = 0 then f else f + 1

/-- Decimal digits of a natural number. -/
def natText (n : Nat) : List Char := Nat.toDigits 10 n

/-- Decimal digits, filled up with zeros on the left. -/
def padText (w n : Nat) : List Char :=
  List.replicate (w - (natText n).length) '0' ++ natText n

/-- `%.{prec}f` of a non-negative number. -/
def fixedAbs (prec : Nat) (x : ℚ) : List Char :=
  let n := (roundHE (x * 10 ^ prec)).toNat
  if prec = 0 then natText n
  else natText (n / 10 ^ prec) ++ '.' :: padText prec (n % 10 ^ prec)

/-- `%.{P-1}e` of a positive number: its `P` digits and the exponent. -/
def sciParts (P : Nat) (x : ℚ) : Nat × Int :=
  let e := Int.log 10 x
  let m := (roundHE (x / (10 : ℚ) ^ (e - (P : Int) + 1))).toNat
  if m = 10 ^ P then (10 ^ (P - 1), e + 1) else (m, e)

/-- `%g` drops trailing zeros of a fraction, and the point if nothing is left of it. -/
def stripZeros (s : List Char) : List Char :=
  match s.reverse.dropWhile (fun c => c == '0') with
  | '.' :: r => r.reverse
  | r => r.reverse

/-- The exponent of `%e`: at least two digits. -/
def expText (e : Int) : List Char :=
  'e' :: (if e < 0 then '-' else '+') :: padText 2 e.natAbs

/-- `%.{P}g` of a positive number (`P > 0`), C11 7.21.6.1. -/
def fmtGAbs (P : Nat) (x : ℚ) : List Char :=
  let r := sciParts P x
  if -4 ≤ r.2 ∧ r.2 < (P : Int) then
    let prec := ((P : Int) - 1 - r.2).toNat
    if prec = 0 then fixedAbs 0 x else stripZeros (fixedAbs prec x)
  else
    let ds := natText r.1
    (if P = 1 then ds else stripZeros (ds.take 1 ++ '.' :: ds.drop 1)) ++ expText r.2

/-- The sign `printf` writes (negative zero is not modelled). -/
def signText (x : ℚ) : List Char := if x < 0 then ['-'] else []

/-! ### Streams -/

/-- The part of an output stream that matters: text written so far, `floatfield`, precision. -/
structure OStream where
  buf : List Char
  fixed : Bool
  prec : Int
  deriving DecidableEq

namespace OStream

/-- A new stream: default floating-point format, precision 6. -/
def new : OStream := ⟨[], false, 6⟩

/-- `operator<<(const std::string&)`; also `std::endl` as the string `"\n"`. -/
def putS (o : OStream) (s : List Char) : OStream := { o with buf := o.buf ++ s }

/-- `operator<<(size_t)` and `operator<<(int)` of a non-negative number. -/
def putN (o : OStream) (n : Nat) : OStream := o.putS (natText n)

/-- `operator<<(double)`: `%.{prec}f` if fixed, otherwise `%.{prec}g`; a negative precision means
6 and a zero precision of `%g` means 1. -/
def putD (o : OStream) (x : ℚ) : OStream :=
  let p : Nat := if o.prec < 0 then 6 else o.prec.toNat
  if o.fixed then o.putS (signText x ++ fixedAbs p |x|)
  else if x = 0 then o.putS ['0']
  else o.putS (signText x ++ fmtGAbs (if p = 0 then 1 else p) |x|)

/-- `<< std::fixed << std::setprecision(p)`. -/
def setFixed (o : OStream) (p : Int) : OStream := { o with fixed := true, prec := p }

/-- `<< std::endl`. -/
def endl (o : OStream) : OStream := o.putS ['\n']

end OStream

/-- utilities.h:13-20 `toString<double>`: a new `stringstream` every time. -/
def toStringD (x : ℚ) : List Char := (OStream.new.putD x).buf

/-- utilities.cpp:17-24 `toStringWithPrecision`. -/
def toStringWithPrecision (x : ℚ) (p : Int) : List Char := ((OStream.new.setFixed p).putD x).buf

/-- Point.cpp:28-30. -/
def ptString (p : Pt ℚ) : List Char := toStringD p.x ++ ' ' :: toStringD p.y

/-- IndexSegment.cpp:55-57; the `int`s are converted to `double`. -/
def isegString (s : ISeg) : List Char := toStringD (s.p1 : ℚ) ++ ' ' :: toStringD (s.p2 : ℚ)

/-- Polygon.cpp:246-254; size and indices are converted to `double`. -/
def polyString (pts : List Int) : List Char :=
  toStringD (pts.length : ℚ) ++ pts.flatMap (fun i : Int => ' ' :: toStringD (i : ℚ))

/-- An input file stream: text not read yet and `eofbit`.  (`failbit` is only ever set together
with `eofbit` here.) -/
structure IStream where
  rest : List Char
  eof : Bool
  deriving DecidableEq

namespace IStream

/-- A file just opened. -/
def ofText (s : List Char) : IStream := ⟨s, false⟩

/-- `std::getline(in, line)`: if `eofbit` is set the line keeps its old value; otherwise
everything up to the next newline, which is dropped; `eofbit` is set when the text ends first. -/
def getline (i : IStream) (line : List Char) : IStream × List Char :=
  if i.eof then (i, line)
  else match i.rest.dropWhile (fun c => c != '\n') with
    | [] => (⟨[], true⟩, i.rest)
    | _ :: r => (⟨r, false⟩, i.rest.takeWhile (fun c => c != '\n'))

end IStream

/-- One round of Mesh.h:171-176 and Region.cpp:104-108: read a line and parse a point;
`splittedLine[0]` and `[1]` are undefined on shorter lines. -/
def readPoint (i : IStream) (line : List Char) : Outcome (IStream × List Char × Pt ℚ) :=
  let g := i.getline line
  match splitBySpaces g.2 with
  | a :: b :: _ => .ok (g.1, g.2, ⟨atof a, atof b⟩)
  | _ => .ub

/-- Mesh.h:171-177 and Region.cpp:103-109, `n` rounds: the points in reading order. -/
def readPoints : Nat → IStream → List Char → Outcome (IStream × List Char × List (Pt ℚ))
  | 0, i, line => .ok (i, line, [])
  | n + 1, i, line => do
    let r ← readPoint i line
    let rs ← readPoints n r.1 r.2.1
    return (rs.1, rs.2.1, r.2.2 :: rs.2.2)

/-- `int` subtraction. -/
def subInt (a b : Int) : Outcome Int :=
  if -2147483648 ≤ a - b ∧ a - b ≤ 2147483647 then .ok (a - b) else .ub

/-- Mesh.h:187-189: the indices of a polygon line (its tokens but the first). -/
def readIndices (start : Int) : List (List Char) → Outcome (List Int)
  | [] => .ok []
  | t :: ts => do
    let n ← atoi t
    let k ← subInt n start
    let ks ← readIndices start ts
    return k :: ks

/-- Mesh.h:192-199: add one polygon and its edges. -/
def addPolygon (tol : ℚ) (m : Mesh ℚ (Poly ℚ)) (i : Int) (pts : List Int) :
    Outcome (Mesh ℚ (Poly ℚ)) := do
  let p ← Poly.ofIndices tol pts m.points.list
  return { m with
    polygons := m.polygons ++ [p],
    edges := (getSegments p.points).foldl (fun e s => e.insert s i) m.edges }

/-- Mesh.h:182-200: `n` rounds of the polygon loop, loop counter `i`. -/
def readPolygons (tol : ℚ) (start : Int) : Nat → Int → IStream → List Char →
    Mesh ℚ (Poly ℚ) → Outcome (Mesh ℚ (Poly ℚ))
  | 0, _, _, _, m => .ok m
  | n + 1, i, s, line, m => do
    let g := s.getline line
    let pts ← readIndices start ((splitBySpaces g.2).drop 1)
    let m ← addPolygon tol m i pts
    readPolygons tol start n (i + 1) g.1 g.2 m

/-- Mesh.h:167-201 `createFromStream` of a `Mesh<Polygon>` that may already have contents.  The
points are all read before they are pushed; C++ pushes each one right after reading it, with the
same result. -/
def createFromStream (tol : ℚ) (s : IStream) (start : Int) (m : Mesh ℚ (Poly ℚ)) :
    Outcome (Mesh ℚ (Poly ℚ)) := do
  let g := s.getline []
  let n ← atoi g.2
  let r ← readPoints n.toNat g.1 g.2
  let m := { m with points := (m.points.pushList (fun a b => a.ltTol tol b) r.2.2).1 }
  let g := r.1.getline r.2.1
  let k ← atoi g.2
  readPolygons tol start k.toNat 0 g.1 g.2 m

/-- Mesh.h:128-131, default constructor. -/
def Mesh.new {T : Type} : Mesh ℚ T := ⟨UList.empty, [], SegMap.empty, PtMap.empty⟩

/-- Mesh.h:157-164 `createFromFile`; a file that cannot be opened throws (utilities.cpp:92-94). -/
def createFromFile (tol : ℚ) (file : Option (List Char)) (start : Int) (m : Mesh ℚ (Poly ℚ)) :
    Outcome (Mesh ℚ (Poly ℚ)) :=
  match file with
  | none => .exn
  | some text => createFromStream tol (IStream.ofText text) start m

/-- A line of text. -/
def OStream.line (o : OStream) (s : List Char) : OStream := (o.putS s).endl

/-- Mesh.h:231-248 `printInStream`.  `order` is the order in which the hash table is traversed:
some permutation of the keys. -/
def printInStream (o : OStream) (order : List ISeg) (m : Mesh ℚ (Poly ℚ)) : OStream :=
  let o := (o.putN m.points.list.length).endl
  let o := m.points.list.foldl (fun o p => o.line (ptString p)) o
  let o := (o.putN m.edges.size).endl
  let o := order.foldl (fun o s => o.line (isegString s)) o
  let o := (o.putN m.polygons.length).endl
  m.polygons.foldl (fun o p => o.line (polyString p.points)) o

/-- Mesh.h:203-214 `printInFile`: the contents of the file; `precision` is
`DelynoiConfig::getPrecision()`. -/
def printInFile (precision : Int) (order : List ISeg) (m : Mesh ℚ (Poly ℚ)) : List Char :=
  (printInStream (OStream.new.setFixed precision) order m).buf

/-- Region.cpp:197-227 `Region::printInFile`: the contents of the file. -/
def Region.printInFile (r : Region ℚ) : List Char :=
  let o := (OStream.new.putN (r.getRegionPoints.length + r.seeds.length)).endl
  let o := r.getRegionPoints.foldl (fun o p => o.line (ptString p)) o
  let o := r.seeds.foldl (fun o p => o.line (ptString p)) o
  let o := (o.putN r.getSegments.length).endl
  let o := r.getSegments.foldl (fun o s => o.line (isegString s)) o
  ((o.putN 0).endl).buf

/-- Region.cpp:97-114 `addSeedsFromFile`. -/
def Region.addSeedsFromFile (tol : ℚ) (r : Region ℚ) (file : Option (List Char)) :
    Outcome (Region ℚ) :=
  match file with
  | none => .exn
  | some text => do
    let g := (IStream.ofText text).getline []
    let n ← atoi g.2
    let rs ← readPoints n.toNat g.1 g.2
    r.appendSeeds tol rs.2.2

end Delynoi
