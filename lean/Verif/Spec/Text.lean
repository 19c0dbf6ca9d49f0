import Mathlib.Algebra.Order.Field.Rat
import Mathlib.Data.List.Basic
/-!
# Vocabulary for statements about text

Nothing here mentions the parsing or printing functions of the model.
-/
namespace Delynoi

/-- White space. -/
def White (c : Char) : Prop :=
  c = ' ' ∨ c = '\t' ∨ c = '\n' ∨ c = Char.ofNat 11 ∨ c = Char.ofNat 12 ∨ c = '\r'

/-- `ts` are the words of `s`: maximal runs of characters that are not white, in order. -/
inductive Words : List Char → List (List Char) → Prop
  | nil (s : List Char) (h : ∀ c ∈ s, White c) : Words s []
  | cons (pre t rest : List Char) (ts : List (List Char))
      (hpre : ∀ c ∈ pre, White c) (ht : t ≠ []) (hw : ∀ c ∈ t, ¬ White c)
      (hr : ∀ c, rest.head? = some c → White c) (h : Words rest ts) :
      Words (pre ++ t ++ rest) (t :: ts)

/-- Words joined by single spaces. -/
def unwords : List (List Char) → List Char
  | [] => []
  | [t] => t
  | t :: ts => t ++ ' ' :: unwords ts

/-- A line of a file. -/
def IsLine (l : List Char) : Prop := '\n' ∉ l

/-- The text of a file with the given lines. -/
def unlines (ls : List (List Char)) : List Char := ls.flatMap (fun l => l ++ ['\n'])

/-- A decimal number as a person writes it: sign, digits before and after the point. -/
structure Dec where
  neg : Bool
  ip : List (Fin 10)
  fp : List (Fin 10)
  deriving DecidableEq

namespace Dec

/-- The character of a digit. -/
def digit (d : Fin 10) : Char := Char.ofNat (48 + d.val)

/-- The number a list of digits stands for. -/
def nat (ds : List (Fin 10)) : ℕ := ds.foldl (fun n d => 10 * n + d.val) 0

/-- How it is written. -/
def text (d : Dec) : List Char :=
  (if d.neg then ['-'] else []) ++ d.ip.map digit ++
    (if d.fp = [] then [] else '.' :: d.fp.map digit)

/-- What it means. -/
def val (d : Dec) : ℚ :=
  (if d.neg then -1 else 1) * (nat d.ip + nat d.fp / 10 ^ d.fp.length)

/-- It has a digit in front of the point. -/
def Ok (d : Dec) : Prop := d.ip ≠ []

end Dec

/-- An integer as a person writes it. -/
def intText (n : Int) : List Char :=
  if n < 0 then '-' :: (toString n.natAbs).toList else (toString n.natAbs).toList

/-- `y` is `x` rounded to six significant decimal digits. -/
def SixDigits (x y : ℚ) : Prop :=
  (x = 0 ∧ y = 0) ∨ ∃ e : ℤ, (10 : ℚ) ^ e ≤ |x| ∧ |x| < (10 : ℚ) ^ (e + 1) ∧
    (∃ k : ℤ, y = k * (10 : ℚ) ^ (e - 5)) ∧ |y - x| ≤ 1 / 2 * (10 : ℚ) ^ (e - 5)

end Delynoi
