import Verif.Basic
/-
SPECIFICATION of building up output: what was written, and in which runs.
-/
namespace Verif

/-- How a builder comes into being. -/
inductive BuildStart where
  | create | new | empty
  | fromVec (a : Bytes) | promote (a : Bytes) | word (b : Byte) | words (a : Bytes)

/-- What can be done to a builder. -/
inductive BuildOp where
  | pushOne (b : Byte) | pushMany (a : Bytes) | pushAll (a : Bytes) | ioWrite (a : Bytes)
  | resolve | ioFlush
  | anticipate (n : Nat)

/-- The bytes a builder starts with. -/
def BuildStart.bytes : BuildStart → Bytes
  | .create | .new | .empty => []
  | .fromVec a | .promote a | .words a => a
  | .word b => [b]

/-- The run that is open at the start; conversions open one even if there are no bytes. -/
def BuildStart.run : BuildStart → Option Bytes
  | .create | .new => none
  | s => some s.bytes

/-- The bytes an operation adds. -/
def BuildOp.bytes : BuildOp → Bytes
  | .pushOne b => [b]
  | .pushMany a | .pushAll a | .ioWrite a => a
  | .resolve | .ioFlush | .anticipate _ => []

/-- The maximal runs of writes without `resolve`/`flush` in between; `cur` is the run that is open. -/
def BuildOp.runs : Option Bytes → List BuildOp → List Bytes
  | cur, [] => cur.toList
  | cur, .resolve :: ops => cur.toList ++ runs none ops
  | cur, .ioFlush :: ops => cur.toList ++ runs none ops
  | cur, .anticipate _ :: ops => runs cur ops
  | cur, op :: ops => runs (some (cur.getD [] ++ op.bytes)) ops

end Verif
