import Verif.Spec.Text
/-!
# Vocabulary for statements about the files the library writes
-/
namespace Delynoi

/-- The exponent of a number in scientific notation: nothing, or sign and digits. -/
def expPart : Option (Bool × List (Fin 10)) → List Char
  | none => []
  | some e => 'e' :: (if e.1 then '-' else '+') :: e.2.map Dec.digit

/-- What it means. -/
def expVal : Option (Bool × List (Fin 10)) → Int
  | none => 0
  | some e => if e.1 then -(Dec.nat e.2 : Int) else Dec.nat e.2

/-- `t` is a way to write the number `q`: a decimal number, possibly with an exponent. -/
def Numeral (t : List Char) (q : ℚ) : Prop :=
  ∃ (d : Dec) (e : Option (Bool × List (Fin 10))), d.Ok ∧ (∀ x, e = some x → x.2 ≠ []) ∧
    t = d.text ++ expPart e ∧ q = d.val * (10 : ℚ) ^ expVal e

/-- The words of a point. -/
def PointToks (q : ℚ × ℚ) (ts : List (List Char)) : Prop :=
  ∃ a b, ts = [a, b] ∧ Numeral a q.1 ∧ Numeral b q.2

/-- The words of a pair of indices. -/
def PairToks (e : Int × Int) (ts : List (List Char)) : Prop := ts = [intText e.1, intText e.2]

/-- Lines that start with consecutive numbers from `i` on; `W` says what follows the number. -/
inductive NumberedLines {α : Type} (W : α → List (List Char) → Prop) :
    Int → List α → List (List Char) → Prop
  | nil (i : Int) : NumberedLines W i [] []
  | cons (i : Int) (a : α) (as : List α) (l : List Char) (ls ts : List (List Char))
      (hl : IsLine l) (hw : Words l (intText i :: ts)) (hW : W a ts)
      (h : NumberedLines W (i + 1) as ls) : NumberedLines W i (a :: as) (l :: ls)

/-- What a `.poly` file describes: a planar straight line graph with holes
(https://www.cs.cmu.edu/~quake/triangle.poly.html). -/
structure PolyFile where
  vertices : List (ℚ × ℚ)
  segments : List (Int × Int)
  holes : List (ℚ × ℚ)

/-- The text of a `.poly` file without attributes and markers, everything numbered from 0. -/
def PolyFile.Text (f : PolyFile) (s : List Char) : Prop :=
  ∃ (h1 h2 h3 : List Char) (vs ss hs : List (List Char)),
    s = unlines ((h1 :: vs) ++ (h2 :: ss) ++ (h3 :: hs)) ∧
    (IsLine h1 ∧ Words h1 [intText f.vertices.length, ['2'], ['0'], ['0']]) ∧
    NumberedLines PointToks 0 f.vertices vs ∧
    (IsLine h2 ∧ Words h2 [intText f.segments.length, ['0']]) ∧
    NumberedLines PairToks 0 f.segments ss ∧
    (IsLine h3 ∧ Words h3 [intText f.holes.length]) ∧
    NumberedLines PointToks 0 f.holes hs

/-- `q` is the point `(x, y)` rounded to six significant digits. -/
def SixPoint (x y : ℚ) (q : ℚ × ℚ) : Prop := SixDigits x q.1 ∧ SixDigits y q.2

end Delynoi
