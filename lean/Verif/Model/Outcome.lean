/-!
# Outcome of a C++ call

`exn` is a thrown C++ exception, `ub` is undefined behaviour (out-of-range vector access,
signed overflow, use of an uninitialised value, dangling reference, or a loop that never
ends).  Nothing else in the model produces `ok` in those cases.
-/
namespace Delynoi

/-- Result of running a piece of C++ code. -/
inductive Outcome (α : Type u) where
  | ok (a : α)
  | exn
  | ub
  deriving DecidableEq, Repr

namespace Outcome

/-- Sequencing: exceptions and undefined behaviour propagate. -/
def bind {α : Type u} {β : Type v} (x : Outcome α) (f : α → Outcome β) : Outcome β :=
  match x with
  | ok a => f a
  | exn => exn
  | ub => ub

instance : Monad Outcome where
  pure := ok
  bind := bind

@[simp] theorem bind_ok {α β : Type u} (a : α) (f : α → Outcome β) : (ok a >>= f) = f a := rfl
@[simp] theorem bind_exn {α β : Type u} (f : α → Outcome β) : (exn >>= f) = exn := rfl
@[simp] theorem bind_ub {α β : Type u} (f : α → Outcome β) : (ub >>= f) = ub := rfl
@[simp] theorem pure_eq {α : Type u} (a : α) : (pure a : Outcome α) = ok a := rfl

end Outcome

/-- `std::vector::operator[]` with an `int` subscript: out of range is undefined behaviour. -/
def vecGet {α : Type u} (v : List α) (i : Int) : Outcome α :=
  if 0 ≤ i then
    match v[i.toNat]? with
    | some a => .ok a
    | none => .ub
  else .ub

end Delynoi
