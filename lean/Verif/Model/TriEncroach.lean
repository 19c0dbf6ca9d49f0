import Verif.Model.TriInsert
/-!
# Triangle splits encroached subsegments

`delynoi/include/delynoi/voronoi/lib/triangle.c:7094-7190` (`checkseg4encroach`), `13170-13192`
(`tallyencs`), `13231-13430` (`splitencsegs`) and `13608-13631` (`enforcequality`), without the prints.
Delynoi's switches `pzejDQ` set `conformdel`; `nobisect` and `minangle` are 0, there is no limit for
the number of Steiner points (`steinerleft` is -1), so the free vertices of 13299-13310 and
13329-13341 stay, and `enforcequality` ends after `splitencsegs` (13636 ff. need `minangle`,
`vararea`, `fixedarea` or `usertest`).  Coordinates are exact; `sqrt` is a parameter.
-/
namespace Delynoi.Tri
variable {K : Type} [Field K] [LinearOrder K]

/-- triangle.c:540-543 `struct badsubseg`. -/
structure Enc where
  ss : Osub
  org : Nat
  dest : Nat
  deriving DecidableEq

/-- A pointer to a vertex whose coordinates are read; it must not be NULL. -/
def must (v : Option Nat) : Outcome Nat :=
  match v with
  | some v => .ok v
  | none => .ub

/-- triangle.c:7136-7137, 7160-7161: the dot product. -/
def dotAt (o d a : Pt K) : K := (o.x - a.x) * (d.x - a.x) + (o.y - a.y) * (d.y - a.y)

namespace Segs

/-- triangle.c:7124-7149 and 7152-7173: one side of the subsegment; with `conformdel` the second
condition (7139-7145) is not looked at. -/
def encSide (s : Segs) (pos : Nat → Pt K) (eorg edest : Nat) (neighbortri : Otri) : Outcome Bool :=
  if neighbortri.1 = 0 then .ok false
  else do
    let eapex ← must (s.mesh.apex neighbortri)
    .ok (decide (dotAt (pos eorg) (pos edest) (pos eapex) < 0))

/-- triangle.c:7094-7190 `checkseg4encroach`; the result has the number it returns and the pool
`badsubsegs`, here a list. -/
def checkEnc (s : Segs) (pos : Nat → Pt K) (testsubseg : Osub) (bad : List Enc) : Outcome (Nat × List Enc) := do
  let eorg ← must (s.sorg testsubseg)
  let edest ← must (s.sdest testsubseg)
  let c1 ← s.encSide pos eorg edest (s.mesh.stri testsubseg)
  let testsym := ssym testsubseg
  let c2 ← s.encSide pos eorg edest (s.mesh.stri testsym)
  let encroached := (if c1 then 1 else 0) + (if c2 then 2 else 0)
  if encroached ≠ 0 then
    if encroached = 1 then .ok (encroached, bad ++ [⟨testsubseg, eorg, edest⟩])
    else .ok (encroached, bad ++ [⟨testsym, edest, eorg⟩])
  else .ok (encroached, bad)

/-- triangle.c:13170-13192 `tallyencs`; `live` are the subsegments in use, in the order of the pool. -/
def tallyencs (s : Segs) (pos : Nat → Pt K) : List Nat → List Enc → Outcome (List Enc)
  | [], bad => .ok bad
  | n :: live, bad => do
    let r ← s.checkEnc pos (n, false) bad
    s.tallyencs pos live r.2

/-- triangle.c:8571-8765 with `segmentflaws`: `legalize`, which looks at the subsegments opposite to the
new vertex (8581-8586).  Whether the result is `ENCROACHINGVERTEX` is left out: `splitencsegs` does
not distinguish it from `SUCCESSFULVERTEX`. -/
def legalizeEnc (s : Segs) (pos : Nat → Pt K) (newvertex first : Nat) :
    Nat → Heap → List Enc → Otri → Nat → Nat → Outcome (Heap × Otri × List Enc)
  | 0, _, _, _, _, _ => .ub
  | fuel + 1, m, bad, horiz, right, left =>
    let next (bad : List Enc) : Outcome (Heap × Otri × List Enc) :=
      let horiz := lnext horiz
      let testtri := m.sym horiz
      if left = first ∨ testtri.1 = 0 then .ok (m, lnext horiz, bad)
      else
        let horiz := lnext testtri
        match m.dest horiz with
        | some l => legalizeEnc s pos newvertex first fuel m bad horiz left l
        | none => .ub
    let checksubseg := m.tspivot horiz
    if checksubseg.1 ≠ 0 then do
      let r ← { s with mesh := m }.checkEnc pos checksubseg bad
      next r.2
    else
      let top := m.sym horiz
      if top.1 = 0 then next bad
      else
        match m.apex top with
        | none => .ub
        | some far =>
          if 0 < incircleDet (pos left) (pos newvertex) (pos right) (pos far) then
            legalizeEnc s pos newvertex first fuel (m.flip true horiz) bad (lprev horiz) right far
          else next bad

/-- triangle.c:8258-8767 `insertvertex` with a subsegment `splitseg` and `segmentflaws`. -/
def insertEnc (pos : Nat → Pt K) (newvertex n1 n2 fuel : Nat) (s : Segs) (horiz : Otri) (splitseg : Osub) (bad : List Enc) :
    Outcome (Segs × List Enc) := do
  let s ← s.splitSubseg n1 n2 newvertex horiz splitseg
  match s.mesh.org (lnext horiz), s.mesh.dest (lnext horiz) with
  | some first, some left =>
    let r ← s.legalizeEnc pos newvertex first fuel s.mesh bad (lnext horiz) first left
    .ok ({ s with mesh := r.1 }, r.2.2)
  | _, _ => .ub

end Segs

/-- triangle.c:13350-13352: the first loop. -/
def doubleUp (segmentlength : K) : Nat → K → Option K
  | 0, _ => none
  | fuel + 1, p => if 3 * p < segmentlength then doubleUp segmentlength fuel (p * 2) else some p

/-- triangle.c:13353-13355: the second loop. -/
def halveDown (segmentlength : K) : Nat → K → Option K
  | 0, _ => none
  | fuel + 1, p => if segmentlength < 3 / 2 * p then halveDown segmentlength fuel (p * (1 / 2)) else some p

/-- triangle.c:13286-13297, 13314-13327: are the origin and the destination of the subsegment shared
with another segment? -/
def acuteEnds (m : Heap) (enctri : Otri) : Bool × Bool :=
  let testtri := lnext enctri
  let acuteorg : Bool := decide ((m.tspivot testtri).1 ≠ 0)
  let testtri := lnext testtri
  let acutedest : Bool := decide ((m.tspivot testtri).1 ≠ 0)
  let testtri := m.sym enctri
  if testtri.1 ≠ 0 then
    let testtri := lnext testtri
    let acutedest2 : Bool := decide ((m.tspivot testtri).1 ≠ 0)
    let testtri := lnext testtri
    let acuteorg2 : Bool := decide ((m.tspivot testtri).1 ≠ 0)
    (acuteorg || acuteorg2, acutedest || acutedest2)
  else (acuteorg, acutedest)

/-- triangle.c:13344-13366: where the subsegment is split; `none` if a loop does not end in `fuel` steps. -/
def splitRatio (sqrt : K → K) (fuel : Nat) (eorg edest : Pt K) (acuteorg acutedest : Bool) : Option K :=
  if acuteorg || acutedest then do
    let segmentlength := sqrt ((edest.x - eorg.x) * (edest.x - eorg.x) + (edest.y - eorg.y) * (edest.y - eorg.y))
    let nearestpoweroftwo ← doubleUp segmentlength fuel 1
    let nearestpoweroftwo ← halveDown segmentlength fuel nearestpoweroftwo
    let split := nearestpoweroftwo / segmentlength
    if acutedest then some (1 - split) else some split
  else some (1 / 2)

/-- triangle.c:13371-13392: the new vertex; the refinement (13375-13392) is done unless `noexact`. -/
def splitPoint (eorg edest : Pt K) (split : K) : Pt K :=
  let p : Pt K := ⟨eorg.x + split * (edest.x - eorg.x), eorg.y + split * (edest.y - eorg.y)⟩
  let multiplier := Carve.ccwDet eorg edest p
  let divisor := (eorg.x - edest.x) * (eorg.x - edest.x) + (eorg.y - edest.y) * (eorg.y - edest.y)
  if multiplier ≠ 0 ∧ divisor ≠ 0 then
    let multiplier := multiplier / divisor
    ⟨p.x + multiplier * (edest.y - eorg.y), p.y + multiplier * (eorg.x - edest.x)⟩
  else p

/-- The mesh, the coordinates, the numbers of vertices and triangles used so far, and the pool of
encroached subsegments.  `poolalloc` returns blocks that are not in use; here new vertices and
triangles get new numbers (at the boundary only one of the two triangles is used). -/
structure Refine (K : Type) where
  segs : Segs
  pos : Nat → Pt K
  nvert : Nat
  ntri : Nat
  bad : List Enc

/-- triangle.c:13263-13426: one encroached subsegment `c`, which is taken from the pool; the others are
`bad`.  No subsegment is freed here, so `deadsubseg` is false.  `none` if a loop of `splitRatio` does
not end in `fuel` steps. -/
def splitOne (sqrt : K → K) (fuel : Nat) (st : Refine K) (c : Enc) (bad : List Enc) : Outcome (Option (Refine K)) :=
  let s := st.segs
  if s.sorg c.ss = some c.org ∧ s.sdest c.ss = some c.dest then
    let enctri := s.mesh.stri c.ss
    let a := acuteEnds s.mesh enctri
    match splitRatio sqrt fuel (st.pos c.org) (st.pos c.dest) a.1 a.2 with
    | none => .ok none
    | some split =>
      let p := splitPoint (st.pos c.org) (st.pos c.dest) split
      let newvertex := st.nvert
      let pos := Function.update st.pos newvertex p
      let s : Segs := { s with vmark := Function.update s.vmark newvertex (s.smark c.ss.1) }
      if p = pos c.org ∨ p = pos c.dest then .exn
      else do
        let r ← Segs.insertEnc pos newvertex (st.ntri + 1) (st.ntri + 2) (2 * st.ntri + 1) s enctri c.ss bad
        let s := r.1
        let k ← s.checkEnc pos c.ss r.2
        let k ← s.checkEnc pos (s.snext c.ss) k.2
        .ok (some ⟨s, pos, newvertex + 1, st.ntri + 2, k.2⟩)
  else .ok (some { st with bad := bad })

/-- triangle.c:13231-13430 `splitencsegs`: as long as the pool is not empty, some encroached
subsegment in it is taken.  In which order the pool is traversed depends on its blocks; here `pick`
decides.  `none` if there are more than `fuel` steps. -/
def splitencsegs (sqrt : K → K) (pick : List Enc → Nat) : Nat → Refine K → Outcome (Option (Refine K))
  | 0, _ => .ok none
  | fuel + 1, st =>
    if h : st.bad.length = 0 then .ok (some st)
    else
      let i : Fin st.bad.length := ⟨pick st.bad % st.bad.length, Nat.mod_lt _ (Nat.pos_of_ne_zero h)⟩
      do
        let r ← splitOne sqrt fuel st (st.bad.get i) (st.bad.eraseIdx i)
        match r with
        | none => .ok none
        | some st => splitencsegs sqrt pick fuel st

/-- triangle.c:13608-13631 `enforcequality`: all subsegments are looked at, then the encroached ones are
split. -/
def enforcequality (sqrt : K → K) (pick : List Enc → Nat) (fuel : Nat) (s : Segs) (pos : Nat → Pt K) (nvert ntri : Nat) (live : List Nat) :
    Outcome (Option (Refine K)) := do
  let bad ← s.tallyencs pos live []
  splitencsegs sqrt pick fuel ⟨s, pos, nvert, ntri, bad⟩

end Delynoi.Tri
