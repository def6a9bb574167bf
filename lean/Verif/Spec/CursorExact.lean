import Verif.Spec.Cursor
/-
SPECIFICATION of `ByteParser` and `MemoParser` to the letter: the windowed cursor together with the numbers
reported when a window does not fit, the panics of debug builds, and the point at which `usize` arithmetic
gives way.  Nothing here refers to the implementations.
-/
namespace Verif

namespace Cursor

/-- The end of the requested range is not a `usize`. -/
def Overflows (c : Cursor) (op : Op) : Prop := usizeMod ≤ c.pos + op.arg

instance (c : Cursor) (op : Op) : Decidable (c.Overflows op) := inferInstanceAs (Decidable (_ ≤ _))

/-- What a caller is told by one operation on an input of `len` bytes, as long as no sum leaves `usize`. -/
def answer (p : Profile) (len : Nat) (c : Cursor) (op : Op) : Res :=
  if c.Overflows op then .panic
  else
    match op with
    | .setFit n =>
      if n ≤ c.top.length then .ok .unit
      else if len < c.pos + n then
        -- said to be the bytes left in the buffer, but it is the buffer's length less the window's
        if p = .debug ∧ len < n then .panic
        else .err (.window (.openWouldExceedBuffer ((len + usizeMod - n) % usizeMod) n))
      else .err (.window (.openWouldExceedWindow (c.pos + c.top.length) (c.pos + n)))
    | op =>
      match (c.step op).1 with
      | .ok o => .ok o
      | .error e => .err e

/-- The answers to a list of operations.  The list ends early with a panic (debug), or before the first
operation with an overflowing sum (release). -/
def answers (p : Profile) (len : Nat) : List Op → Cursor → List Res
  | [], _ => []
  | op :: ops, c =>
    if p = .release ∧ c.Overflows op then []
    else
      match c.answer p len op with
      | .ok o => .ok o :: answers p len ops (c.step op).2
      | .err e => .err e :: answers p len ops (c.step op).2
      | r => [r]

/-- No operation of the list has an overflowing sum when it is performed. -/
def Fits : List Op → Cursor → Prop
  | [], _ => True
  | op :: ops, c => ¬ c.Overflows op ∧ Fits ops (c.step op).2

end Cursor

end Verif
