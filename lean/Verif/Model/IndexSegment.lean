import Verif.Model.Outcome
import Verif.Model.Segment
/-!
# Hashing and index segments
-/
namespace Delynoi

/-- lib/utilities/src/utilities.cpp:60-68 `hash32`, as compiled on a two's complement machine
(wrap-around arithmetic, arithmetic right shift). -/
def hash32 (key : BitVec 32) : BitVec 32 :=
  let key := (key ^^^ 61#32) ^^^ (key.sshiftRight 16)
  let key := key + (key <<< 3)
  let key := key ^^^ (key.sshiftRight 4)
  let key := key * 0x27d4eb2d#32
  key ^^^ (key.sshiftRight 15)

/-- Is the mathematical value representable as a 32-bit `int`? -/
def fitsInt32 (z : Int) : Bool := decide (-2147483648 ≤ z) && decide (z ≤ 2147483647)

/-- utilities.cpp:60-68 `hash32` by the letter of the standard: overflow of the signed `+`
(line 63) or `*` (line 65) is undefined behaviour.  The left shift on line 63 is treated
leniently as wrapping (in C++11 a shift overflow is undefined as well). -/
def hash32Checked (key : BitVec 32) : Outcome (BitVec 32) :=
  let k1 := (key ^^^ 61#32) ^^^ (key.sshiftRight 16)
  if fitsInt32 (k1.toInt + (k1 <<< 3).toInt) then
    let k2 := k1 + (k1 <<< 3)
    let k3 := k2 ^^^ (k2.sshiftRight 4)
    if fitsInt32 (k3.toInt * 0x27d4eb2d) then
      let k4 := k3 * 0x27d4eb2d#32
      .ok (k4 ^^^ (k4.sshiftRight 15))
    else .ub
  else .ub

/-- `hash32` of an `int` index. -/
def hashInt (i : Int) : BitVec 32 := hash32 (BitVec.ofInt 32 i)

/-- `hash32(i1) + hash32(i2)`: an `int` sum converted to `std::size_t`
(IndexSegment.cpp:4, mapdata.h:18). -/
def pairHash (i1 i2 : Int) : BitVec 64 := (hashInt i1 + hashInt i2).signExtend 64

/-- delynoi/include/delynoi/models/basic/IndexSegment.h: endpoints and the public `hash`
field. -/
structure ISeg where
  p1 : Int
  p2 : Int
  hash : BitVec 64
  deriving DecidableEq, Repr

namespace ISeg

/-- IndexSegment.cpp:3-5. -/
def mk' (i1 i2 : Int) : ISeg := ⟨i1, i2, pairHash i1 i2⟩

/-- IndexSegment.cpp:7-12 copy constructor (recomputes the hash). -/
def copy (o : ISeg) : ISeg := ⟨o.p1, o.p2, pairHash o.p1 o.p2⟩

/-- IndexSegment.cpp:59-62 `operator==`. -/
def eq (a b : ISeg) : Bool :=
  (a.p1 == b.p1 && a.p2 == b.p2) || (a.p1 == b.p2 && a.p2 == b.p1)

/-- IndexSegment.cpp:64-70 `operator<`. -/
def lt (a b : ISeg) : Bool :=
  if a.p1 = b.p1 then decide (a.p2 < b.p2) else decide (a.p1 < b.p1)

/-- IndexSegment.cpp:80-82 `add` (the `int` additions are assumed not to overflow). -/
def add (a : ISeg) (o : Int) : ISeg := mk' (a.p1 + o) (a.p2 + o)

/-- Segment.cpp:35-38 `isVertex`. -/
def isVertex (a : ISeg) (p : Int) : Bool := a.p1 == p || a.p2 == p

variable {K : Type} [Field K] [LinearOrder K]

/-- IndexSegment.cpp:48-53 `isCCW`. -/
def isCCW (points : List (Pt K)) (center : Pt K) (s : ISeg) : Outcome Bool := do
  let a ← vecGet points s.p1
  let b ← vecGet points s.p2
  return decide (orientation a b center > 0)

/-- IndexSegment.cpp:40-46 `orderCCW`: swaps the endpoints, leaves the hash field alone. -/
def orderCCW (points : List (Pt K)) (center : Pt K) (s : ISeg) : Outcome ISeg := do
  let c ← isCCW points center s
  if c then return s else return { s with p1 := s.p2, p2 := s.p1 }

/-- IndexSegment.cpp:16-18 `contains(p, point)`. -/
def contains (tol : K) (p : List (Pt K)) (point : Pt K) (s : ISeg) : Outcome Bool := do
  let a ← vecGet p s.p1
  let b ← vecGet p s.p2
  return Seg.contains tol point a b

/-- IndexSegment.cpp:24-26 `middlePoint`. -/
def middlePoint (p : List (Pt K)) (s : ISeg) : Outcome (Pt K) := do
  let a ← vecGet p s.p1
  let b ← vecGet p s.p2
  return Seg.middle a b

/-- IndexSegment.cpp:36-38 `intersection` with another index segment. -/
def intersection (tol : K) (p : List (Pt K)) (s o : ISeg) : Outcome (Option (Pt K)) := do
  let a ← vecGet p s.p1
  let b ← vecGet p s.p2
  let c ← vecGet p o.p1
  let d ← vecGet p o.p2
  return Seg.intersects tol a b c d

end ISeg

/-- mapdata.h:10-25 `Key`. -/
structure Key where
  first : Int
  second : Int
  hash : BitVec 64
  deriving DecidableEq, Repr

namespace Key
/-- mapdata.h:15-19. -/
def mk' (f s : Int) : Key := ⟨f, s, pairHash f s⟩
/-- mapdata.h:21-24 `operator==`. -/
def eq (a b : Key) : Bool :=
  (a.first == b.first && a.second == b.second) || (a.first == b.second && a.second == b.first)
end Key

/-- `std::unordered_map` with a user hash `h` and equality `eq` as association list: an entry
is found iff its hash and the key compare equal. -/
abbrev UMap (α : Type u) (β : Type v) := List (α × β)

namespace UMap
variable {α : Type u} {β : Type v} {H : Type w} [DecidableEq H]

/-- `find`. -/
def find (h : α → H) (eq : α → α → Bool) : UMap α β → α → Option β
  | [], _ => none
  | e :: m, k => if h e.1 = h k ∧ eq e.1 k = true then some e.2 else find h eq m k

/-- `insert` / `operator[]` with update: applies `f` to the value if the key is present,
otherwise appends the key with value `d`. -/
def upsert (h : α → H) (eq : α → α → Bool) (d : β) (f : β → β) : UMap α β → α → UMap α β
  | [], k => [(k, d)]
  | e :: m, k =>
    if h e.1 = h k ∧ eq e.1 k = true then (e.1, f e.2) :: m else e :: upsert h eq d f m k

end UMap
end Delynoi
