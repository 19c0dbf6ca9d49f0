import Verif.Model.Text
/-!
# Triangle's command line

`parsecommandline` (`delynoi/include/delynoi/voronoi/lib/triangle.c:3276-3554`), compiled with
`TRILIBRARY` and `ANSI_DECLARATORS` and without `REDUCED` and `CDT_ONLY`
(`voronoi/lib/CMakeLists.txt:6`): `argc` is 1 and the characters are read from the first one on.

The C string is the list of its characters before the terminating zero.  `triexit` ends the
process; the model returns `exn`.  The counters `nobisect` and `verbose` are not limited to the
range of `int`.  The fields `goodangle` and `offconstant` (cosine, square root) and the warnings
printed at the end are left out.
-/
namespace Delynoi.Tri

/-- triangle.c:741-811 `struct behavior`, without the file names and `goodangle`,
`offconstant`; `weighted` is 0, 1 or 2. -/
structure Behavior where
  poly : Bool
  refine : Bool
  quality : Bool
  vararea : Bool
  fixedarea : Bool
  usertest : Bool
  regionattrib : Bool
  convex : Bool
  weighted : Nat
  jettison : Bool
  firstnumber : Int
  edgesout : Bool
  voronoi : Bool
  neighbors : Bool
  geomview : Bool
  nobound : Bool
  nopolywritten : Bool
  nonodewritten : Bool
  noelewritten : Bool
  noiterationnum : Bool
  noholes : Bool
  noexact : Bool
  conformdel : Bool
  incremental : Bool
  sweepline : Bool
  dwyer : Bool
  splitseg : Bool
  docheck : Bool
  quiet : Bool
  verbose : Nat
  usesegments : Bool
  order : Nat
  nobisect : Nat
  steiner : Int
  minangle : ℚ
  maxarea : ℚ
  deriving DecidableEq

/-- triangle.c:3297-3315; `usesegments` is not initialised there, it is set on line 3516. -/
def Behavior.init : Behavior where
  poly := false
  refine := false
  quality := false
  vararea := false
  fixedarea := false
  usertest := false
  regionattrib := false
  convex := false
  weighted := 0
  jettison := false
  firstnumber := 1
  edgesout := false
  voronoi := false
  neighbors := false
  geomview := false
  nobound := false
  nopolywritten := false
  nonodewritten := false
  noelewritten := false
  noiterationnum := false
  noholes := false
  noexact := false
  conformdel := false
  incremental := false
  sweepline := false
  dwyer := true
  splitseg := false
  docheck := false
  quiet := false
  verbose := 0
  usesegments := false
  order := 1
  nobisect := 0
  steiner := -1
  minangle := 0
  maxarea := -1

/-- The test of lines 3334-3335 and 3351-3352: a digit or a point. -/
def isNum (c : Char) : Bool := (decide ('0' ≤ c) && decide (c ≤ '9')) || c == '.'

/-- triangle.c:275 `FILENAMESIZE`, the size of `workstring`. -/
def fileNameSize : Nat := 2048

/-- Lines 3336-3344 and 3354-3362: the characters are copied to `workstring`, a zero is put
behind them and `strtod` is called.  A number that does not fit is written behind the array. -/
def workNumber (w : List Char) : Outcome ℚ :=
  if w.length < fileNameSize then .ok (atof w) else .ub

/-- Lines 3441-3444: the digits after `S`; `int` overflow is undefined. -/
def steinerNumber : List Char → Int → Outcome Int
  | [], v => .ok v
  | c :: s, v =>
    let v' := v * 10 + ((c.toNat : Int) - 48)
    if v' ≤ 2147483647 then steinerNumber s v' else .ub

/-- The letters that only set a flag, lines 3325-3477 (without `q`, `a`, `o`, `S`). -/
def letter (c : Char) (b : Behavior) : Behavior :=
  if c = 'p' then { b with poly := true }
  else if c = 'r' then { b with refine := true }
  else if c = 'u' then { b with quality := true, usertest := true }
  else if c = 'A' then { b with regionattrib := true }
  else if c = 'c' then { b with convex := true }
  else if c = 'w' then { b with weighted := 1 }
  else if c = 'W' then { b with weighted := 2 }
  else if c = 'j' then { b with jettison := true }
  else if c = 'z' then { b with firstnumber := 0 }
  else if c = 'e' then { b with edgesout := true }
  else if c = 'v' then { b with voronoi := true }
  else if c = 'n' then { b with neighbors := true }
  else if c = 'g' then { b with geomview := true }
  else if c = 'B' then { b with nobound := true }
  else if c = 'P' then { b with nopolywritten := true }
  else if c = 'N' then { b with nonodewritten := true }
  else if c = 'E' then { b with noelewritten := true }
  else if c = 'O' then { b with noholes := true }
  else if c = 'X' then { b with noexact := true }
  else if c = 'Y' then { b with nobisect := b.nobisect + 1 }
  else if c = 'i' then { b with incremental := true }
  else if c = 'F' then { b with sweepline := true }
  else if c = 'l' then { b with dwyer := false }
  else if c = 's' then { b with splitseg := true }
  else if c = 'D' ∨ c = 'L' then { b with quality := true, conformdel := true }
  else if c = 'C' then { b with docheck := true }
  else if c = 'Q' then { b with quiet := true }
  else if c = 'V' then { b with verbose := b.verbose + 1 }
  else b

theorem length_dropWhile_le' (p : Char → Bool) (s : List Char) :
    (s.dropWhile p).length ≤ s.length := (List.dropWhile_suffix p).length_le

/-- The loop of lines 3324-3485 over the characters.  Where the code reads characters ahead it
leaves `j` on the last of them, a digit or a point, which none of the later tests accepts. -/
def readSwitches : List Char → Behavior → Outcome Behavior
  | [], b => .ok b
  | c :: s, b =>
    if c = 'q' then
      if s.takeWhile isNum ≠ [] then
        match workNumber (s.takeWhile isNum) with
        | .ok x => readSwitches (s.dropWhile isNum) { b with quality := true, minangle := x }
        | .exn => .exn
        | .ub => .ub
      else readSwitches s { b with quality := true, minangle := 20 }
    else if c = 'a' then
      if s.takeWhile isNum ≠ [] then
        match workNumber (s.takeWhile isNum) with
        | .ok x =>
          if x ≤ 0 then .exn
          else readSwitches (s.dropWhile isNum) { b with quality := true, fixedarea := true, maxarea := x }
        | .exn => .exn
        | .ub => .ub
      else readSwitches s { b with quality := true, vararea := true }
    else if c = 'o' then
      if s.head? = some '2' then readSwitches s.tail { b with order := 2 }
      else readSwitches s b
    else if c = 'S' then
      match steinerNumber (s.takeWhile Char.isDigit) 0 with
      | .ok v => readSwitches (s.dropWhile Char.isDigit) { b with steiner := v }
      | .exn => .exn
      | .ub => .ub
    else readSwitches s (letter c b)
  termination_by s => s.length
  decreasing_by
    all_goals simp only [List.length_cons, List.length_tail]
    all_goals first
      | omega
      | (have := length_dropWhile_le' isNum s; omega)
      | (have := length_dropWhile_le' Char.isDigit s; omega)

/-- Lines 3516-3548, what follows the loop. -/
def adjust (b : Behavior) : Behavior :=
  let b := { b with usesegments := b.poly || b.refine || b.quality || b.convex }
  let b := if !b.refine && !b.poly then { b with vararea := false } else b
  let b := if b.refine || !b.poly then { b with regionattrib := false } else b
  if b.weighted ≠ 0 ∧ (b.poly = true ∨ b.quality = true) then { b with weighted := 0 } else b

/-- triangle.c:3276-3554 `parsecommandline`; the test of lines 3524-3528 needs `noiterationnum`,
which stays 0 in the library. -/
def parsecommandline (s : List Char) : Outcome Behavior := do
  let b ← readSwitches s Behavior.init
  if b.refine && b.noiterationnum then .exn else return adjust b

end Delynoi.Tri
