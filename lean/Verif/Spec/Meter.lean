import Verif.Parser
/-
A parser that counts the calls made to it.  Code that is generic over parsers runs on it as on any other; the
count after a run is the number of calls the code made.
-/
namespace Verif

/-- A call that is counted, whether it succeeds or fails. -/
def M.metered {σ ε α : Type} (f : M σ ε α) : M (σ × Nat) ε α := fun s =>
  match f s.1 with
  | .ok a s' => .ok a (s', s.2 + 1)
  | .err e s' => .err e (s', s.2 + 1)
  | .panic => .panic
  | .ub => .ub
  | .diverge => .diverge

/-- The parser `P` with a count of the calls of its methods.  (`view_len` and `offset` are not called by decoders.) -/
def ParserOps.metered {σ : Type} (P : ParserOps σ) : ParserOps (σ × Nat) where
  viewLen s := P.viewLen s.1
  offset s := P.offset s.1
  remainder := M.metered P.remainder
  consumeByte := M.metered P.consumeByte
  consume n := M.metered (P.consume n)
  setFit n := M.metered (P.setFit n)
  testTarget := M.metered P.testTarget
  enforceTarget := M.metered P.enforceTarget
  skip n := M.metered (P.skip n)
  skipExactly n := M.metered (P.skipExactly n)

/-- The number of calls made in a run that returns or fails. -/
def Out.calls {σ ε α : Type} : Out (σ × Nat) ε α → Option Nat
  | .ok _ s => some s.2
  | .err _ s => some s.2
  | _ => none

/-- The outcome without the count. -/
def Out.unmetered {σ ε α : Type} : Out (σ × Nat) ε α → Out σ ε α
  | .ok a s => .ok a s.1
  | .err e s => .err e s.1
  | .panic => .panic
  | .ub => .ub
  | .diverge => .diverge

end Verif
