import Verif.Model.Ieee
import Verif.Model.Outcome
import Mathlib.Tactic.Ring
/-!
# Sorting inside Triangle

The first half of Triangle's divide-and-conquer algorithm
(`delynoi/include/delynoi/voronoi/lib/triangle.c`): the random numbers, the quicksort, the
order statistic, the rearrangement for alternating cuts, the removal of duplicate vertices and
the shape of the recursion.

A `vertex *sortarray` is the list of the elements the call may touch: a call on
`&sortarray[k]` with size `s` gets the slice of `s` elements from `k` on, and its result is
written back in that place.  A subscript outside the slice is undefined behaviour here, which
is stricter than in C, where it may still be inside the whole array.  Sizes are not limited to
the range of `int`.  The vertices have an arbitrary type `V`; the comparison is a parameter of
the sorting functions, so that coordinates that are NaN can be handled too.
-/
namespace Delynoi.Tri

/-- triangle.c:6665-6674 `randomnation`, with the global `randomseed` (an `unsigned long` of 64
bits) threaded through: the number and the new seed.  `choices = 0` divides by zero. -/
def randomnation (choices seed : Nat) : Outcome (Nat × Nat) :=
  if choices = 0 then .ub
  else
    let s := (seed * 1366 + 150889) % 2 ^ 64 % 714025
    .ok (s / (714025 / choices + 1), s)

section
variable {V : Type}

/-- triangle.c:9230-9234, 9306-9310: `do left++; while (left <= right && a[left] < pivot)`,
where `lt x` says that `x` comes before the pivot. -/
def scanUp (lt : V → Bool) (a : List V) (right left : Int) : Outcome Int :=
  if _h : left + 1 ≤ right then
    match vecGet a (left + 1) with
    | .ok x => if lt x then scanUp lt a right (left + 1) else .ok (left + 1)
    | .exn => .exn
    | .ub => .ub
  else .ok (left + 1)
termination_by (right - left).toNat
decreasing_by omega

/-- triangle.c:9236-9240, 9312-9316: `do right--; while (left <= right && a[right] > pivot)`,
where `gt x` says that `x` comes after the pivot. -/
def scanDown (gt : V → Bool) (a : List V) (left right : Int) : Outcome Int :=
  if _h : left ≤ right - 1 then
    match vecGet a (right - 1) with
    | .ok x => if gt x then scanDown gt a left (right - 1) else .ok (right - 1)
    | .exn => .exn
    | .ub => .ub
  else .ok (right - 1)
termination_by (right - left).toNat
decreasing_by omega

theorem scanUp_gt (lt : V → Bool) (a : List V) (right left l : Int)
    (h : scanUp lt a right left = .ok l) : left < l := by
  fun_induction scanUp lt a right left with
  | case1 left _ x _ _ ih => exact lt_trans (lt_add_one left) (ih h)
  | case2 => simp only [Outcome.ok.injEq] at h; omega
  | case3 => cases h
  | case4 => cases h
  | case5 => simp only [Outcome.ok.injEq] at h; omega

theorem scanDown_lt (gt : V → Bool) (a : List V) (left right r : Int)
    (h : scanDown gt a left right = .ok r) : r < right := by
  fun_induction scanDown gt a left right with
  | case1 right _ x _ _ ih => have := ih h; omega
  | case2 => simp only [Outcome.ok.injEq] at h; omega
  | case3 => cases h
  | case4 => cases h
  | case5 => simp only [Outcome.ok.injEq] at h; omega

/-- triangle.c:9243-9245, 9319-9321: `temp = a[i]; a[i] = a[j]; a[j] = temp`. -/
def swap (a : List V) (i j : Int) : Outcome (List V) := do
  let x ← vecGet a i
  let y ← vecGet a j
  return (a.set i.toNat y).set j.toNat x

/-- triangle.c:9228-9247, 9304-9323: the splitting loop `while (left < right)`, with the array,
`left` and `right` as state. -/
def splitLoop (lt gt : V → Bool) (a : List V) (left right : Int) :
    Outcome (List V × Int × Int) :=
  if left < right then
    match _h1 : scanUp lt a right left with
    | .ok l =>
      match _h2 : scanDown gt a l right with
      | .ok r =>
        if l < r then
          match swap a l r with
          | .ok b => splitLoop lt gt b l r
          | .exn => .exn
          | .ub => .ub
        else .ok (a, l, r)
      | .exn => .exn
      | .ub => .ub
    | .exn => .exn
    | .ub => .ub
  else .ok (a, left, right)
termination_by (right - left).toNat
decreasing_by
  have := scanUp_gt _ _ _ _ _ _h1
  have := scanDown_lt _ _ _ _ _ _h2
  omega

/-- triangle.c:9210-9220, 9286-9296: the base case, an array of two vertices. -/
def sortTwo (lt : V → V → Bool) (x y : V) : List V := if lt y x then [y, x] else [x, y]

/-- triangle.c:9221-9247, 9297-9323: choose a pivot and split the array.  Result: the array,
`left`, `right` and the seed. -/
def split (lt : V → V → Bool) (a : List V) (seed : Nat) :
    Outcome (List V × Int × Int × Nat) := do
  let k ← randomnation a.length seed
  let p ← vecGet a k.1
  let s ← splitLoop (fun x => lt x p) (fun x => lt p x) a (-1) a.length
  return (s.1, s.2.1, s.2.2, k.2)

/-- triangle.c:9197-9256 `vertexsort`.  The first argument limits the depth of the recursion;
a deeper recursion is `ub` (C128 shows that the size of the array is enough). -/
def vertexsort (lt : V → V → Bool) : Nat → List V → Nat → Outcome (List V × Nat)
  | 0, _, _ => .ub
  | d + 1, a, seed =>
    match a with
    | [x, y] => .ok (sortTwo lt x y, seed)
    | a => do
      let s ← split lt a seed
      let left := s.2.1
      let right := s.2.2.1
      let u ← (if left > 1 then do
          let t ← vertexsort lt d (s.1.take left.toNat) s.2.2.2
          return (t.1 ++ s.1.drop left.toNat, t.2)
        else return (s.1, s.2.2.2))
      if right < a.length - 2 then do
        let t ← vertexsort lt d (u.1.drop (right + 1).toNat) u.2
        return (u.1.take (right + 1).toNat ++ t.1, t.2)
      else return u

/-- triangle.c:9271-9335 `vertexmedian`, with the comparison along the axis as `lt`; the depth
is limited as in `vertexsort`. -/
def vertexmedian (lt : V → V → Bool) : Nat → List V → Int → Nat → Outcome (List V × Nat)
  | 0, _, _, _ => .ub
  | d + 1, a, median, seed =>
    match a with
    | [x, y] => .ok (sortTwo lt x y, seed)
    | a => do
      let s ← split lt a seed
      let left := s.2.1
      let right := s.2.2.1
      let u ← (if left > median then do
          let t ← vertexmedian lt d (s.1.take left.toNat) median s.2.2.2
          return (t.1 ++ s.1.drop left.toNat, t.2)
        else return (s.1, s.2.2.2))
      if right < median - 1 then do
        let t ← vertexmedian lt d (u.1.drop (right + 1).toNat) (median - right - 1) u.2
        return (u.1.take (right + 1).toNat ++ t.1, t.2)
      else return u

/-- triangle.c:9349-9375 `alternateaxes`; `lt false` and `lt true` compare along the axes 0
and 1.  The depth is limited as in `vertexsort`; the calls of `vertexmedian` get the size of
their array as limit. -/
def alternateaxes (lt : Bool → V → V → Bool) : Nat → List V → Bool → Nat →
    Outcome (List V × Nat)
  | 0, _, _, _ => .ub
  | d + 1, a, axis, seed => do
    let divider := a.length / 2
    let axis := if a.length ≤ 3 then false else axis
    let s ← vertexmedian (lt axis) a.length a divider seed
    if a.length - divider ≥ 2 then do
      let u ← (if divider ≥ 2 then do
          let t ← alternateaxes lt d (s.1.take divider) (!axis) s.2
          return (t.1 ++ s.1.drop divider, t.2)
        else return s)
      let t ← alternateaxes lt d (u.1.drop divider) (!axis) u.2
      return (u.1.take divider ++ t.1, t.2)
    else return s

/-- triangle.c:9993-10008: the loop that discards duplicates, from the indices `i` and `j` on;
`same` compares the coordinates, `dead` collects the vertices that get the type
`UNDEADVERTEX`.  Result: the array, the last `i` and the discarded vertices. -/
def dedup (same : V → V → Bool) (a : List V) (i j : Nat) (dead : List V) :
    Outcome (List V × Nat × List V) :=
  if _h : j < a.length then
    match vecGet a i, vecGet a j with
    | .ok x, .ok y =>
      if same x y then dedup same a i (j + 1) (dead ++ [y])
      else if i + 1 < a.length then dedup same (a.set (i + 1) y) (i + 1) (j + 1) dead
      else .ub
    | _, _ => .ub
  else .ok (a, i, dead)
termination_by a.length - j
decreasing_by
  · omega
  · simp only [List.length_set]; omega

/-- triangle.c:9984-10019, the part of `divconqdelaunay` before the recursion, with the switch
`-l` absent (`b->dwyer = 1`): sort, discard duplicates, rearrange.  Result: the vertices handed
to `divconqrecurse`, the discarded vertices, and the seed. -/
def prepare (lt : Bool → V → V → Bool) (same : V → V → Bool) (a : List V) (seed : Nat) :
    Outcome (List V × List V × Nat) := do
  let s ← vertexsort (lt false) a.length a seed
  let d ← dedup same s.1 0 1 []
  let n := d.2.1 + 1
  let b := d.1.take n
  let divider := n / 2
  if n - divider ≥ 2 then do
    let u ← (if divider ≥ 2 then do
        let t ← alternateaxes lt divider (b.take divider) true s.2
        return (t.1 ++ b.drop divider, t.2)
      else return (b, s.2))
    let t ← alternateaxes lt (n - divider) (u.1.drop divider) true u.2
    return (u.1.take divider ++ t.1, d.2.2, t.2)
  else return (b, d.2.2, s.2)

/-- triangle.c:9740-9901, the recursion of `divconqrecurse` alone: the arrays of two or three
vertices for which a triangulation is built directly, in the order of the calls, with depth at
most the first argument.  What is built and how it is merged is not modelled. -/
def recurseLeaves : Nat → List V → Outcome (List (List V))
  | 0, _ => .ub
  | d + 1, a =>
    if a.length = 2 then .ok [a]
    else if a.length = 3 then .ok [a]
    else do
      let l ← recurseLeaves d (a.take (a.length / 2))
      let r ← recurseLeaves d (a.drop (a.length / 2))
      return l ++ r

end

/-- triangle.c:9213-9215, 9232-9234, 9287-9289, ...: the comparison of vertices: first the
coordinate of the axis, then the other one (`false` = axis 0, x first). -/
def axisLt {K : Type} [LinearOrder K] (axis : Bool) (p q : Pt K) : Bool :=
  if axis then decide (p.y < q.y) || (decide (p.y = q.y) && decide (p.x < q.x))
  else decide (p.x < q.x) || (decide (p.x = q.x) && decide (p.y < q.y))

/-- The same comparison for coordinates that may be NaN or infinite; `x == y` of doubles is
`x <= y && y <= x`. -/
def axisLtExt {K : Type} [LinearOrder K] (axis : Bool) (p q : Ext K × Ext K) : Bool :=
  if axis then p.2.lt q.2 || ((p.2.le q.2 && q.2.le p.2) && p.1.lt q.1)
  else p.1.lt q.1 || ((p.1.le q.1 && q.1.le p.1) && p.2.lt q.2)

/-- triangle.c:9995-9996: `a[i][0] == a[j][0] && a[i][1] == a[j][1]`. -/
def samePt {K : Type} [LinearOrder K] (p q : Pt K) : Bool :=
  decide (p.x = q.x) && decide (p.y = q.y)

end Delynoi.Tri
