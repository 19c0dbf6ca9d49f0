/-!
# What Triangle's switches mean

Vocabulary for strings of switches; nothing here mentions the code that reads them.
-/
namespace Delynoi.Tri

/-- Characters of which numbers consist. -/
def numeric (c : Char) : Bool := c.isDigit || c == '.'

/-- The character `x` is directly followed by `d` somewhere. -/
def Next (x d : Char) (s : List Char) : Prop := ∃ s1 s2, s = s1 ++ x :: d :: s2

/-- `a` is followed by a number somewhere. -/
def AreaNumber (s : List Char) : Prop := ∃ d, numeric d = true ∧ Next 'a' d s

/-- `a` is not followed by a number somewhere. -/
def BareArea (s : List Char) : Prop :=
  ∃ s1 s2, s = s1 ++ 'a' :: s2 ∧ ∀ d, s2.head? = some d → numeric d = false

/-- The switch for weighted triangulations: the last of `w` and `W` counts. -/
def lastWeight : List Char → Nat → Nat
  | [], x => x
  | c :: s, x => lastWeight s (if c = 'w' then 1 else if c = 'W' then 2 else x)

end Delynoi.Tri
