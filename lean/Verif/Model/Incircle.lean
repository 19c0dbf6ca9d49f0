import Verif.Model.Exact
/-!
# The exact stages of Triangle's in-circle test (triangle.c:4814-4866, 5035-5094, 5302-5878)

`incircleadapt` and the routines it needs.  The reads behind the end of an array by
`fast_expansion_sum_zeroelim` are those of `Verif.Model.Exact`: the parameter `sum` gets the sizes of
the arrays read.  Not modelled: overflow and negative zero.
-/
namespace Delynoi.Ex

/-- triangle.c:4814-4820 `Two_Product_Presplit`: the pair `(x, y)`; `bhi`, `blo` are the parts of
`b`. -/
def twoProductPresplit (s a b bhi blo : ℚ) : ℚ × ℚ :=
  let x := fl (a * b)
  (x, productTail (split s a).1 (split s a).2 bhi blo x)

/-- triangle.c:4824-4832 `Square_Tail` and `Square`: the pair `(x, y)`. -/
def square (s a : ℚ) : ℚ × ℚ :=
  let x := fl (a * a)
  let ahi := (split s a).1
  let alo := (split s a).2
  let err1 := fl (x - fl (ahi * ahi))
  let err3 := fl (err1 - fl (fl (ahi + ahi) * alo))
  (x, fl (fl (alo * alo) - err3))

/-- triangle.c:4837-4839 `Two_One_Sum`: `(x2, x1, x0)`. -/
def twoOneSum (a1 a0 b : ℚ) : ℚ × ℚ × ℚ :=
  let i := twoSum a0 b
  let j := twoSum a1 i.1
  (j.1, j.2, i.2)

/-- triangle.c:4845-4847 `Two_Two_Sum`: the array `[x0, x1, x2, x3]`. -/
def twoTwoSum (a1 a0 b1 b0 : ℚ) : List ℚ :=
  let p := twoOneSum a1 a0 b0
  let q := twoOneSum p.1 p.2.1 b1
  [p.2.2, q.2.2, q.2.1, q.1]

/-- triangle.c:5078-5089: the loop of `scale_expansion_zeroelim` over the components not yet taken;
`h` is the output so far. -/
def scaleLoop (s b bhi blo Q : ℚ) (h : List ℚ) : List ℚ → ℚ × List ℚ
  | [] => (Q, h)
  | enow :: es =>
    let p := twoProductPresplit s enow b bhi blo
    let t := twoSum Q p.2
    let u := fastTwoSum p.1 t.1
    scaleLoop s b bhi blo u.1 (put (put h t.2) u.2) es

/-- triangle.c:5049-5094 `scale_expansion_zeroelim`: the components of `b` times `e`.  An empty
argument, for which the code would read `e[0]`, is undefined behaviour. -/
def scaleExpansion (s : ℚ) (e : List ℚ) (b : ℚ) : Outcome (List ℚ) :=
  match e with
  | [] => .ub
  | e0 :: es =>
    let bs := split s b
    let p := twoProductPresplit s e0 b bs.1 bs.2
    let r := scaleLoop s b bs.1 bs.2 p.1 (put [] p.2) es
    .ok (if r.1 ≠ 0 ∨ r.2 = [] then r.2 ++ [r.1] else r.2)

/-- triangle.c:5450-5453, 5457-5460, 5464-5467: the array for `x * x + y * y`. -/
def squareExpansion (s x y : ℚ) : List ℚ :=
  let p := square s x
  let q := square s y
  twoTwoSum p.1 p.2 q.1 q.2

/-- triangle.c:5588-5591, 5592-5597, …: the array for `a * b + c * d`. -/
def plusExpansion (s a b c d : ℚ) : List ℚ :=
  let p := twoProduct s a b
  let q := twoProduct s c d
  twoTwoSum p.1 p.2 q.1 q.2

/-- The type of the routine which adds expansions: sizes of the arrays read, and the expansions. -/
abbrev Summer := Nat → Nat → List ℚ → List ℚ → Outcome (List ℚ)

/-- The sum of expansions with a check of the arrays in place of the over-reads: it is undefined behaviour
if an argument or the result has more components than its array has elements.  In `incircleadapt`
(triangle.c:5318-5362) the array for the result is as long as those of the arguments together, except
for `fin1` and `fin2`, which have 1152 elements. -/
def capSum : Summer := fun ce cf e f =>
  match fastExpansionSum e f with
  | some h => if e.length ≤ ce ∧ f.length ≤ cf ∧ h.length ≤ min (ce + cf) 1152 then .ok h else .ub
  | none => .ub

/-- triangle.c:5385-5389, 5395-5399, 5405-5409: the expansion of `(x * x + y * y) * bc`. -/
def liftExpansion (sum : Summer) (s x y : ℚ) (bc : List ℚ) : Outcome (List ℚ) := do
  let axbc ← scaleExpansion s bc x
  let axxbc ← scaleExpansion s axbc x
  let aybc ← scaleExpansion s bc y
  let ayybc ← scaleExpansion s aybc y
  sum 16 16 axxbc ayybc

/-- triangle.c:5470-5488 (with `t` = `adxtail`, `d` = `adx`, `f` = `cc`, `p` = `bdy`, `g` = `bb`,
`q` = `-cdy`), and the same for 5489-5507, 5508-5526, 5527-5545, 5546-5564, 5565-5583: the sum `fin`
so far, to which `t * (2 * d * bc + p * f + q * g)` is added unless `t` is zero, and the product of
`t` and `bc`, which is used later.  If `t` is zero the code leaves that product alone; here it is
empty. -/
def addFirst (sum : Summer) (s : ℚ) (fin : List ℚ) (t d : ℚ) (bc f : List ℚ) (p : ℚ) (g : List ℚ) (q : ℚ) :
    Outcome (List ℚ × List ℚ) :=
  if t ≠ 0 then do
    let xtbc ← scaleExpansion s bc t
    let temp16a ← scaleExpansion s xtbc (fl (2 * d))
    let xtf ← scaleExpansion s f t
    let temp16b ← scaleExpansion s xtf p
    let xtg ← scaleExpansion s g t
    let temp16c ← scaleExpansion s xtg q
    let temp32a ← sum 16 16 temp16a temp16b
    let temp48 ← sum 16 32 temp16c temp32a
    let fin' ← sum 1152 48 fin temp48
    .ok (fin', xtbc)
  else .ok (fin, [])

/-- triangle.c:5586-5610, 5683-5707, 5780-5804: the expansions `bct` and `bctt` of the parts of
`(bx + bxt) * (cy + cyt) - (cx + cxt) * (by + byt)` with one tail and with two tails. -/
def tailExpansions (sum : Summer) (s bx bxt by' byt cx cxt cy cyt : ℚ) : Outcome (List ℚ × List ℚ) :=
  if bxt ≠ 0 ∨ byt ≠ 0 ∨ cxt ≠ 0 ∨ cyt ≠ 0 then do
    let bct ← sum 4 4 (plusExpansion s bxt cy bx cyt) (plusExpansion s cxt (-by') cx (-byt))
    .ok (bct, crossExpansion s bxt cyt cxt byt)
  else .ok ([0], [0])

/-- triangle.c:5613-5621 (with `t` = `adxtail`, `d` = `adx`), 5655-5663, …: adds
`t * t * bc + 2 * d * t * bct`; the second result is the product of `t` and `bct`. -/
def addSecond (sum : Summer) (s : ℚ) (fin : List ℚ) (t d : ℚ) (xtbc bct : List ℚ) : Outcome (List ℚ × List ℚ) := do
  let temp16a ← scaleExpansion s xtbc t
  let xtbct ← scaleExpansion s bct t
  let temp32a ← scaleExpansion s xtbct (fl (2 * d))
  let temp48 ← sum 16 32 temp16a temp32a
  let fin' ← sum 1152 48 fin temp48
  .ok (fin', xtbct)

/-- triangle.c:5622-5629, 5630-5637, …: adds `t * u * f` unless `u` is zero. -/
def addPair (sum : Summer) (s : ℚ) (fin f : List ℚ) (t u : ℚ) : Outcome (List ℚ) :=
  if u ≠ 0 then do
    let temp8 ← scaleExpansion s f t
    let temp16a ← scaleExpansion s temp8 u
    sum 1152 16 fin temp16a
  else .ok fin

/-- triangle.c:5639-5652, 5666-5679, …: adds `t * t * bct + (2 * d * t + t * t) * bctt`. -/
def addThird (sum : Summer) (s : ℚ) (fin : List ℚ) (t d : ℚ) (xtbct bctt : List ℚ) : Outcome (List ℚ) := do
  let temp32a ← scaleExpansion s xtbct t
  let xtbctt ← scaleExpansion s bctt t
  let temp16a ← scaleExpansion s xtbctt (fl (2 * d))
  let temp16b ← scaleExpansion s xtbctt t
  let temp32b ← sum 16 16 temp16a temp16b
  let temp64 ← sum 32 32 temp32a temp32b
  sum 1152 64 fin temp64

/-- triangle.c:5612-5653, 5709-5750, 5806-5847: the terms with the tail `t` of an x coordinate. -/
def addX (sum : Summer) (s : ℚ) (fin : List ℚ) (t d : ℚ) (xtbc bct bctt cc : List ℚ) (byt : ℚ) (bb : List ℚ) (cyt : ℚ) :
    Outcome (List ℚ) :=
  if t ≠ 0 then do
    let r ← addSecond sum s fin t d xtbc bct
    let fin1 ← addPair sum s r.1 cc t byt
    let fin2 ← addPair sum s fin1 bb (-t) cyt
    addThird sum s fin2 t d r.2 bctt
  else .ok fin

/-- triangle.c:5654-5680, 5751-5777, 5848-5874: the terms with the tail `t` of a y coordinate. -/
def addY (sum : Summer) (s : ℚ) (fin : List ℚ) (t d : ℚ) (ytbc bct bctt : List ℚ) : Outcome (List ℚ) :=
  if t ≠ 0 then do
    let r ← addSecond sum s fin t d ytbc bct
    addThird sum s r.1 t d r.2 bctt
  else .ok fin

/-- triangle.c:5585-5681, 5682-5778, 5779-5875: the terms with the tails of one of the three points,
of second order and higher. -/
def addPoint (sum : Summer) (s : ℚ) (fin : List ℚ) (axt ayt ax ay : ℚ) (axtbc aytbc : List ℚ)
    (bx bxt by' byt cx cxt cy cyt : ℚ) (bb cc : List ℚ) : Outcome (List ℚ) :=
  if axt ≠ 0 ∨ ayt ≠ 0 then do
    let t ← tailExpansions sum s bx bxt by' byt cx cxt cy cyt
    let fin1 ← addX sum s fin axt ax axtbc t.1 t.2 cc byt bb cyt
    addY sum s fin1 ayt ay aytbc t.1 t.2
  else .ok fin

/-- triangle.c:5445-5877, the last stage of `incircleadapt`: to the expansion `fin1` all terms with
tails are added; the sign of the sum is that of its last component.  The code fills `aa`, `bb` and
`cc` only if one of the tails of the other two points is not zero; they are read only then. -/
def incircleLast (sum : Summer) (s : ℚ) (bc ca ab fin : List ℚ)
    (adx ady bdx bdy cdx cdy adxt adyt bdxt bdyt cdxt cdyt : ℚ) : Outcome ℚ := do
  let aa := squareExpansion s adx ady
  let bb := squareExpansion s bdx bdy
  let cc := squareExpansion s cdx cdy
  let a1 ← addFirst sum s fin adxt adx bc cc bdy bb (-cdy)
  let a2 ← addFirst sum s a1.1 adyt ady bc bb cdx cc (-bdx)
  let b1 ← addFirst sum s a2.1 bdxt bdx ca aa cdy cc (-ady)
  let b2 ← addFirst sum s b1.1 bdyt bdy ca cc adx aa (-cdx)
  let c1 ← addFirst sum s b2.1 cdxt cdx ab bb ady aa (-bdy)
  let c2 ← addFirst sum s c1.1 cdyt cdy ab aa bdx bb (-adx)
  let fa ← addPoint sum s c2.1 adxt adyt adx ady a1.2 a2.2 bdx bdxt bdy bdyt cdx cdxt cdy cdyt bb cc
  let fb ← addPoint sum s fa bdxt bdyt bdx bdy b1.2 b2.2 cdx cdxt cdy cdyt adx adxt ady adyt cc aa
  let fc ← addPoint sum s fb cdxt cdyt cdx cdy c1.2 c2.2 adx adxt ady adyt bdx bdxt bdy bdyt aa bb
  match fc.getLast? with
  | some d => .ok d
  | none => .ub

/-- triangle.c:5432-5440: one third of the correction of first order,
`(x * x + y * y) * ((bx * cyt + cy * bxt) - (by * cxt + cx * byt)) + 2 * (x * xt + y * yt) * (bx * cy - by * cx)`. -/
def correction (x y xt yt bx by' bxt byt cx cy cxt cyt : ℚ) : ℚ :=
  fl (fl (fl (fl (x * x) + fl (y * y)) *
        fl (fl (fl (bx * cyt) + fl (cy * bxt)) - fl (fl (by' * cxt) + fl (cx * byt)))) +
      fl (fl (2 * fl (fl (x * xt) + fl (y * yt))) * fl (fl (bx * cy) - fl (by' * cx))))

/-- triangle.c:5302-5878 `incircleadapt`. -/
def incircleAdapt (sum : Summer) (k : Consts) (pa pb pc pd : Pt ℚ) (permanent : ℚ) : Outcome ℚ :=
  let adx := fl (pa.x - pd.x)
  let bdx := fl (pb.x - pd.x)
  let cdx := fl (pc.x - pd.x)
  let ady := fl (pa.y - pd.y)
  let bdy := fl (pb.y - pd.y)
  let cdy := fl (pc.y - pd.y)
  let s := k.splitter
  let bc := crossExpansion s bdx cdy cdx bdy
  let ca := crossExpansion s cdx ady adx cdy
  let ab := crossExpansion s adx bdy bdx ady
  do
  let adet ← liftExpansion sum s adx ady bc
  let bdet ← liftExpansion sum s bdx bdy ca
  let cdet ← liftExpansion sum s cdx cdy ab
  let abdet ← sum 32 32 adet bdet
  let fin1 ← sum 64 32 abdet cdet
  match estimate fin1 with
  | none => .ub
  | some det =>
    let errbound := fl (k.iccerrboundB * permanent)
    if det ≥ errbound ∨ -det ≥ errbound then .ok det
    else
      let adxt := twoDiffTail pa.x pd.x adx
      let adyt := twoDiffTail pa.y pd.y ady
      let bdxt := twoDiffTail pb.x pd.x bdx
      let bdyt := twoDiffTail pb.y pd.y bdy
      let cdxt := twoDiffTail pc.x pd.x cdx
      let cdyt := twoDiffTail pc.y pd.y cdy
      if adxt = 0 ∧ bdxt = 0 ∧ cdxt = 0 ∧ adyt = 0 ∧ bdyt = 0 ∧ cdyt = 0 then .ok det
      else
        let errbound := fl (fl (k.iccerrboundC * permanent) + fl (k.resulterrbound * |det|))
        let det := fl (det + fl (fl (correction adx ady adxt adyt bdx bdy bdxt bdyt cdx cdy cdxt cdyt +
          correction bdx bdy bdxt bdyt cdx cdy cdxt cdyt adx ady adxt adyt) +
          correction cdx cdy cdxt cdyt adx ady adxt adyt bdx bdy bdxt bdyt))
        if det ≥ errbound ∨ -det ≥ errbound then .ok det
        else incircleLast sum s bc ca ab fin1 adx ady bdx bdy cdx cdy adxt adyt bdxt bdyt cdxt cdyt

end Delynoi.Ex
