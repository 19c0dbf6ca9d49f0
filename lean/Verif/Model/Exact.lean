import Verif.Model.Double
/-!
# Triangle's adaptive predicates (triangle.c:4747-5280, 5881-5938)

The orientation and in-circle tests that the vendored `triangle.c` uses for every decision it
takes.  Delynoi compiles it with `REAL` = `double` and without `CPU86` or `LINUX`, so that every
operation is one of `fl` (no extended precision).  `Absolute(a)` is `|a|`.  Not modelled: overflow,
negative zero, the counters `counterclockcount` and `incirclecount`, `Two_One_Product`, `orient3d`
and `nonregular`.  `incircleadapt` and what it needs is in `Verif.Model.Incircle`.
-/
namespace Delynoi.Ex

/-- triangle.c:4763-4765 `Fast_Two_Sum_Tail`. -/
def fastTwoSumTail (a b x : ℚ) : ℚ :=
  let bvirt := fl (x - a)
  fl (b - bvirt)

/-- triangle.c:4767-4769 `Fast_Two_Sum`: the pair `(x, y)`. -/
def fastTwoSum (a b : ℚ) : ℚ × ℚ :=
  let x := fl (a + b)
  (x, fastTwoSumTail a b x)

/-- triangle.c:4771-4776 `Two_Sum_Tail`. -/
def twoSumTail (a b x : ℚ) : ℚ :=
  let bvirt := fl (x - a)
  let avirt := fl (x - bvirt)
  let bround := fl (b - bvirt)
  let around := fl (a - avirt)
  fl (around + bround)

/-- triangle.c:4778-4780 `Two_Sum`: the pair `(x, y)`. -/
def twoSum (a b : ℚ) : ℚ × ℚ :=
  let x := fl (a + b)
  (x, twoSumTail a b x)

/-- triangle.c:4782-4787 `Two_Diff_Tail`. -/
def twoDiffTail (a b x : ℚ) : ℚ :=
  let bvirt := fl (a - x)
  let avirt := fl (x + bvirt)
  let bround := fl (bvirt - b)
  let around := fl (a - avirt)
  fl (around + bround)

/-- triangle.c:4789-4791 `Two_Diff`: the pair `(x, y)`. -/
def twoDiff (a b : ℚ) : ℚ × ℚ :=
  let x := fl (a - b)
  (x, twoDiffTail a b x)

/-- The state of the loop of `exactinit` (triangle.c:4908-4912). -/
structure Init where
  everyOther : Bool
  epsilon : ℚ
  splitter : ℚ
  check : ℚ
deriving DecidableEq

/-- triangle.c:4917-4925: the `do … while` loop of `exactinit`; `none` if it has not stopped after
`fuel` rounds. -/
def initLoop : Nat → Init → Option Init
  | 0, _ => none
  | fuel + 1, s =>
    let lastcheck := s.check
    let eps := fl (s.epsilon * (1 / 2))
    let spl := if s.everyOther then fl (s.splitter * 2) else s.splitter
    let chk := fl (1 + eps)
    let s' : Init := ⟨!s.everyOther, eps, spl, chk⟩
    if chk ≠ 1 ∧ chk ≠ lastcheck then initLoop fuel s' else some s'

/-- triangle.c:639-644: the constants which `exactinit` sets (those of `orient3d` left out). -/
structure Consts where
  epsilon : ℚ
  splitter : ℚ
  resulterrbound : ℚ
  ccwerrboundA : ℚ
  ccwerrboundB : ℚ
  ccwerrboundC : ℚ
  iccerrboundA : ℚ
  iccerrboundB : ℚ
  iccerrboundC : ℚ
deriving DecidableEq

/-- triangle.c:4881-4938 `exactinit`. -/
def exactinit (fuel : Nat) : Option Consts :=
  (initLoop fuel ⟨true, 1, 1, 1⟩).map fun s =>
    let e := s.epsilon
    { epsilon := e
      splitter := fl (s.splitter + 1)
      resulterrbound := fl (fl (3 + fl (8 * e)) * e)
      ccwerrboundA := fl (fl (3 + fl (16 * e)) * e)
      ccwerrboundB := fl (fl (2 + fl (12 * e)) * e)
      ccwerrboundC := fl (fl (fl (9 + fl (64 * e)) * e) * e)
      iccerrboundA := fl (fl (10 + fl (96 * e)) * e)
      iccerrboundB := fl (fl (4 + fl (48 * e)) * e)
      iccerrboundC := fl (fl (fl (44 + fl (576 * e)) * e) * e) }

/-- triangle.c:4793-4797 `Split`: the pair `(ahi, alo)`, with the splitter `s`. -/
def split (s a : ℚ) : ℚ × ℚ :=
  let c := fl (s * a)
  let abig := fl (c - a)
  let ahi := fl (c - abig)
  (ahi, fl (a - ahi))

/-- triangle.c:4799-4805 `Two_Product_Tail` and 4814-4820 `Two_Product_Presplit`, after the
splittings. -/
def productTail (ahi alo bhi blo x : ℚ) : ℚ :=
  let err1 := fl (x - fl (ahi * bhi))
  let err2 := fl (err1 - fl (alo * bhi))
  let err3 := fl (err2 - fl (ahi * blo))
  fl (fl (alo * blo) - err3)

/-- triangle.c:4807-4809 `Two_Product`: the pair `(x, y)`. -/
def twoProduct (s a b : ℚ) : ℚ × ℚ :=
  let x := fl (a * b)
  (x, productTail (split s a).1 (split s a).2 (split s b).1 (split s b).2 x)

/-- triangle.c:4841-4843 `Two_One_Diff`: `(x2, x1, x0)`. -/
def twoOneDiff (a1 a0 b : ℚ) : ℚ × ℚ × ℚ :=
  let i := twoDiff a0 b
  let j := twoSum a1 i.1
  (j.1, j.2, i.2)

/-- triangle.c:4849-4851 `Two_Two_Diff`: the array `[x0, x1, x2, x3]`. -/
def twoTwoDiff (a1 a0 b1 b0 : ℚ) : List ℚ :=
  let p := twoOneDiff a1 a0 b0
  let q := twoOneDiff p.1 p.2.1 b1
  [p.2.2, q.2.2, q.2.1, q.1]

/-- `if (hh != 0.0) h[hindex++] = hh;` (triangle.c:4996-4998 and often). -/
def put (h : List ℚ) (hh : ℚ) : List ℚ := if hh ≠ 0 then h ++ [hh] else h

/-- triangle.c:4977, 4986, 5000: is `enow` taken before `fnow`? -/
def takeE (enow fnow : ℚ) : Bool := decide (fnow > enow) == decide (fnow > -enow)

/-- triangle.c:4999-5025: the loops of `fast_expansion_sum_zeroelim` over the components not yet
taken; `h` is the output so far. -/
def sumLoops (Q : ℚ) (h : List ℚ) : List ℚ → List ℚ → ℚ × List ℚ
  | [], [] => (Q, h)
  | e :: es, [] =>
    let t := twoSum Q e
    sumLoops t.1 (put h t.2) es []
  | [], f :: fs =>
    let t := twoSum Q f
    sumLoops t.1 (put h t.2) [] fs
  | e :: es, f :: fs =>
    if takeE e f then
      let t := twoSum Q e
      sumLoops t.1 (put h t.2) es (f :: fs)
    else
      let t := twoSum Q f
      sumLoops t.1 (put h t.2) (e :: es) fs
termination_by es fs => es.length + fs.length

/-- triangle.c:4984-4998: the first addition, by `Fast_Two_Sum` if components of both are left. -/
def sumSecond (Q : ℚ) : List ℚ → List ℚ → ℚ × List ℚ
  | e :: es, f :: fs =>
    if takeE e f then
      let t := fastTwoSum e Q
      sumLoops t.1 (put [] t.2) es (f :: fs)
    else
      let t := fastTwoSum f Q
      sumLoops t.1 (put [] t.2) (e :: es) fs
  | es, fs => sumLoops Q [] es fs

/-- triangle.c:4955-5031 `fast_expansion_sum_zeroelim`, apart from the array accesses: the
components of the sum.  `none` for an empty argument, which is never passed. -/
def fastExpansionSum (e f : List ℚ) : Option (List ℚ) :=
  match e, f with
  | e0 :: es, f0 :: fs =>
    let r := if takeE e0 f0 then sumSecond e0 es (f0 :: fs) else sumSecond f0 (e0 :: es) fs
    some (if r.1 ≠ 0 ∨ r.2 = [] then r.2 ++ [r.1] else r.2)
  | _, _ => none

/-- triangle.c:4955-5031 `fast_expansion_sum_zeroelim` with its array accesses.  After taking the
last component of `e` the code executes `enow = e[++eindex]`, which reads `e[elen]`, and likewise
`f[flen]`.  The value read is not used.  If the array has no such element (`ce`, `cf` are the
numbers of elements of the arrays), the read is undefined behaviour. -/
def fastExpansionSumAt (ce cf : Nat) (e f : List ℚ) : Outcome (List ℚ) :=
  if e.length < ce ∧ f.length < cf then
    match fastExpansionSum e f with
    | some h => .ok h
    | none => .ub
  else .ub

/-- triangle.c:5105-5121 `estimate`.  `none` for an empty argument, which is never passed. -/
def estimate : List ℚ → Option ℚ
  | [] => none
  | e :: es => some (es.foldl (fun q x => fl (q + x)) e)

/-- triangle.c:5181-5185, 5210-5213, …: the array for `a * b - c * d`. -/
def crossExpansion (s a b c d : ℚ) : List ℚ :=
  let p := twoProduct s a b
  let q := twoProduct s c d
  twoTwoDiff p.1 p.2 q.1 q.2

/-- triangle.c:5210-5229, the last stage of `counterclockwiseadapt`, with the sum of expansions
`sum` (its first two arguments are the sizes of the arrays read). -/
def ccwLast (sum : Nat → Nat → List ℚ → List ℚ → Outcome (List ℚ)) (s : ℚ) (B : List ℚ)
    (acx acy bcx bcy acxt acyt bcxt bcyt : ℚ) : Outcome ℚ := do
  let C1 ← sum 4 4 B (crossExpansion s acxt bcy acyt bcx)
  let C2 ← sum 8 4 C1 (crossExpansion s acx bcyt acy bcxt)
  let D ← sum 12 4 C2 (crossExpansion s acxt bcyt acyt bcxt)
  match D.getLast? with
  | some d => .ok d
  | none => .ub

/-- triangle.c:5144-5230 `counterclockwiseadapt`. -/
def ccwAdapt (sum : Nat → Nat → List ℚ → List ℚ → Outcome (List ℚ)) (k : Consts)
    (pa pb pc : Pt ℚ) (detsum : ℚ) : Outcome ℚ :=
  let acx := fl (pa.x - pc.x)
  let bcx := fl (pb.x - pc.x)
  let acy := fl (pa.y - pc.y)
  let bcy := fl (pb.y - pc.y)
  let B := crossExpansion k.splitter acx bcy acy bcx
  match estimate B with
  | none => .ub
  | some det =>
    let errbound := fl (k.ccwerrboundB * detsum)
    if det ≥ errbound ∨ -det ≥ errbound then .ok det
    else
      let acxt := twoDiffTail pa.x pc.x acx
      let bcxt := twoDiffTail pb.x pc.x bcx
      let acyt := twoDiffTail pa.y pc.y acy
      let bcyt := twoDiffTail pb.y pc.y bcy
      if acxt = 0 ∧ acyt = 0 ∧ bcxt = 0 ∧ bcyt = 0 then .ok det
      else
        let errbound := fl (fl (k.ccwerrboundC * detsum) + fl (k.resulterrbound * |det|))
        let det := fl (det + fl (fl (fl (acx * bcyt) + fl (bcy * acxt)) -
          fl (fl (acy * bcxt) + fl (bcx * acyt))))
        if det ≥ errbound ∨ -det ≥ errbound then .ok det
        else ccwLast sum k.splitter B acx acy bcx bcy acxt acyt bcxt bcyt

/-- triangle.c:5233-5280 `counterclockwise`; `noexact` is the switch `-X`. -/
def ccw (sum : Nat → Nat → List ℚ → List ℚ → Outcome (List ℚ)) (k : Consts) (noexact : Bool)
    (pa pb pc : Pt ℚ) : Outcome ℚ :=
  let detleft := fl (fl (pa.x - pc.x) * fl (pb.y - pc.y))
  let detright := fl (fl (pa.y - pc.y) * fl (pb.x - pc.x))
  let det := fl (detleft - detright)
  let rest (detsum : ℚ) : Outcome ℚ :=
    let errbound := fl (k.ccwerrboundA * detsum)
    if det ≥ errbound ∨ -det ≥ errbound then .ok det
    else ccwAdapt sum k pa pb pc detsum
  if noexact then .ok det
  else if detleft > 0 then
    if detright ≤ 0 then .ok det else rest (fl (detleft + detright))
  else if detleft < 0 then
    if detright ≥ 0 then .ok det else rest (fl (-detleft - detright))
  else .ok det

/-- The sum of expansions as the abstract machine of C executes it. -/
def strictSum : Nat → Nat → List ℚ → List ℚ → Outcome (List ℚ) := fastExpansionSumAt

/-- The sum of expansions on a machine where the reads behind the arrays do no harm. -/
def laxSum (_ _ : Nat) (e f : List ℚ) : Outcome (List ℚ) :=
  match fastExpansionSum e f with
  | some h => .ok h
  | none => .ub

/-- triangle.c:5910-5936: what `incircle` computes before it decides: `(det, permanent)`. -/
def incircleParts (pa pb pc pd : Pt ℚ) : ℚ × ℚ :=
  let adx := fl (pa.x - pd.x)
  let bdx := fl (pb.x - pd.x)
  let cdx := fl (pc.x - pd.x)
  let ady := fl (pa.y - pd.y)
  let bdy := fl (pb.y - pd.y)
  let cdy := fl (pc.y - pd.y)
  let bdxcdy := fl (bdx * cdy)
  let cdxbdy := fl (cdx * bdy)
  let alift := fl (fl (adx * adx) + fl (ady * ady))
  let cdxady := fl (cdx * ady)
  let adxcdy := fl (adx * cdy)
  let blift := fl (fl (bdx * bdx) + fl (bdy * bdy))
  let adxbdy := fl (adx * bdy)
  let bdxady := fl (bdx * ady)
  let clift := fl (fl (cdx * cdx) + fl (cdy * cdy))
  (fl (fl (fl (alift * fl (bdxcdy - cdxbdy)) + fl (blift * fl (cdxady - adxcdy))) +
     fl (clift * fl (adxbdy - bdxady))),
   fl (fl (fl (fl (|bdxcdy| + |cdxbdy|) * alift) + fl (fl (|cdxady| + |adxcdy|) * blift)) +
     fl (fl (|adxbdy| + |bdxady|) * clift)))

/-- triangle.c:5881-5938 `incircle`; the exact stages `incircleadapt` are a parameter. -/
def incircle (adapt : Pt ℚ → Pt ℚ → Pt ℚ → Pt ℚ → ℚ → Outcome ℚ) (k : Consts) (noexact : Bool)
    (pa pb pc pd : Pt ℚ) : Outcome ℚ :=
  let p := incircleParts pa pb pc pd
  if noexact then .ok p.1
  else
    let errbound := fl (k.iccerrboundA * p.2)
    if p.1 > errbound ∨ -p.1 > errbound then .ok p.1 else adapt pa pb pc pd p.2

end Delynoi.Ex
