import Verif.Model.Outcome
/-!
# Model of `UniqueList<T>` (lib/utilities/include/utilities/UniqueList.h)

`std::map<T,int>` is an association list kept sorted by the comparator `lt`
(`std::less<T>`, i.e. `T::operator<`).  `upper_bound`, `find`, `insert`, `erase` follow the
definitions of the C++ standard ([associative.reqmts]); they are only meaningful for a strict
weak order, which is what the standard demands of the comparator.
-/
namespace Delynoi

variable {T : Type u}

namespace SMap

/-- `std::map::upper_bound`: position of the first key `k` with `x < k`
(used in UniqueList.h:47). -/
def upperBound (lt : T → T → Bool) {V : Type v} (m : List (T × V)) (x : T) : Nat :=
  m.findIdx (fun e => lt x e.1)

/-- `std::map::insert` (with or without hint: the hint never changes the result): nothing
happens if an equivalent key exists (UniqueList.h:50, 162). -/
def insert (lt : T → T → Bool) {V : Type v} : List (T × V) → T → V → List (T × V)
  | [], k, v => [(k, v)]
  | e :: m, k, v =>
    if lt e.1 k then e :: insert lt m k v
    else if lt k e.1 then (k, v) :: e :: m
    else e :: m

/-- `std::map::find`: `lower_bound`, then check that the key is not larger
(UniqueList.h:124, 155). -/
def find (lt : T → T → Bool) {V : Type v} : List (T × V) → T → Option V
  | [], _ => none
  | e :: m, k =>
    if lt e.1 k then find lt m k
    else if lt k e.1 then none
    else some e.2

/-- `std::map::erase(key)`: removes the equivalent key (UniqueList.h:72). -/
def erase (lt : T → T → Bool) {V : Type v} (m : List (T × V)) (k : T) : List (T × V) :=
  m.filter (fun e => lt e.1 k || lt k e.1)

/-- `std::map::operator[]` followed by an update of the value: the key is inserted with the
value `d` first if absent. -/
def upsert (lt : T → T → Bool) {V : Type v} (d : V) (f : V → V) :
    List (T × V) → T → List (T × V)
  | [], k => [(k, f d)]
  | e :: m, k =>
    if lt e.1 k then e :: upsert lt d f m k
    else if lt k e.1 then (k, f d) :: e :: m
    else (e.1, f e.2) :: m

end SMap

/-- UniqueList.h:14-15, fields `map` and `list`. -/
structure UList (T : Type u) where
  list : List T
  map : List (T × Nat)
  deriving DecidableEq, Repr

namespace UList

/-- UniqueList.h:36-37. -/
def empty : UList T := ⟨[], []⟩

/-- UniqueList.h:45-58 `push_back`: returns the new state and the index.  The element before
`upper_bound` is the last of the prefix cut at that position (`none` iff
`it == map.begin()`).  `size_t`→`int` conversion of the size is not modelled (fewer than 2^31
elements). -/
def pushBack (lt : T → T → Bool) (u : UList T) (x : T) : UList T × Nat :=
  let fresh : UList T × Nat :=
    (⟨u.list ++ [x], SMap.insert lt u.map x u.list.length⟩, u.list.length)
  match (u.map.take (SMap.upperBound lt u.map x)).getLast? with
  | none => fresh
  | some e => if lt e.1 x then fresh else (u, e.2)

/-- UniqueList.h:60-65 `force_push_back`: only the vector grows, the map does not learn the
element. -/
def forcePushBack (u : UList T) (x : T) : UList T × Nat :=
  (⟨u.list ++ [x], u.map⟩, u.list.length)

/-- UniqueList.h:67-73 `pop_front`; `list[0]` on an empty list is undefined behaviour. -/
def popFront (lt : T → T → Bool) (u : UList T) : Outcome (UList T) :=
  match u.list with
  | [] => .ub
  | x :: l => .ok ⟨l, SMap.erase lt u.map x⟩

/-- UniqueList.h:100-120 `push_list` (both overloads: they only read the argument by index). -/
def pushList (lt : T → T → Bool) : UList T → List T → UList T × List Nat
  | u, [] => (u, [])
  | u, x :: xs =>
    let r := pushBack lt u x
    let rs := pushList lt r.1 xs
    (rs.1, r.2 :: rs.2)

/-- UniqueList.h:122-126 `contains`. -/
def contains (lt : T → T → Bool) (u : UList T) (x : T) : Bool :=
  (SMap.find lt u.map x).isSome

/-- UniqueList.h:133-142 `hasCommonElement`. -/
def hasCommonElement (lt : T → T → Bool) (u other : UList T) : Bool :=
  other.list.any (fun x => contains lt u x)

/-- UniqueList.h:144-148 `clear`. -/
def clear (_ : UList T) : UList T := ⟨[], []⟩

/-- UniqueList.h:159-163: the loop that refills the map after an erase; `i` is the loop
counter. -/
def reindex (lt : T → T → Bool) : List T → Nat → List (T × Nat) → List (T × Nat)
  | [], _, m => m
  | e :: l, i, m => reindex lt l (i + 1) (SMap.insert lt m e i)

/-- UniqueList.h:150-164 `delete_element`. -/
def deleteElement (lt : T → T → Bool) (u : UList T) (x : T) : UList T :=
  if contains lt u x then
    match SMap.find lt u.map x with
    | some i => ⟨u.list.eraseIdx i, reindex lt (u.list.eraseIdx i) 0 []⟩
    | none => u
  else u

/-- utilities.h:22-27 `indexOf` through UniqueList.h:85-88: first position equal (`==`) to the
element, `-1` if there is none. -/
def indexOf (eq : T → T → Bool) (l : List T) (x : T) : Int :=
  let pos := l.findIdx (fun e => eq e x)
  if pos < l.length then (pos : Int) else -1

/-- The mutating operations of a list, for histories. -/
inductive Op (T : Type u) where
  | push (x : T)
  | pushAll (xs : List T)
  | delete (x : T)
  | clear

/-- One operation. -/
def step (lt : T → T → Bool) (u : UList T) : Op T → UList T
  | .push x => (pushBack lt u x).1
  | .pushAll xs => (pushList lt u xs).1
  | .delete x => deleteElement lt u x
  | .clear => clear u

/-- A history of operations from the empty list. -/
def run (lt : T → T → Bool) (ops : List (Op T)) : UList T :=
  ops.foldl (step lt) empty

end UList
end Delynoi
