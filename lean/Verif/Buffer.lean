import Verif.ByteParser
import Verif.SliceParser
/-
The checked accessors of `SliceBuffer` (src/parse/buffer.rs:25-151) as a user calls them.  Those of `VecBuffer`
are in Verif/ByteParser.lean.
-/
namespace Verif.SliceBuffer

/-- src/parse/buffer.rs:69-75 `cut_first`. -/
def cutFirst : Bytes → Option (Byte × Bytes)
  | first :: tail => some (first, tail)
  | [] => none

/-- src/parse/buffer.rs:84-86 `cut_first_unchecked`: the two unchecked reads are UB on an empty slice. -/
def cutFirstUnchecked (buf : Bytes) : ReadRes (Byte × Bytes) :=
  match buf[0]? with
  | some b => if 1 ≤ buf.length then .val (b, buf.drop 1) else .ub
  | none => .ub

/-- src/parse/buffer.rs:94-97 `split`. -/
def split (buf : Bytes) (mid : Nat) : ReadRes (Bytes × Bytes) :=
  if mid ≤ buf.length then
    match SliceParser.splitUnchecked buf mid with
    | some r => .val r
    | none => .ub
  else .panic

/-- src/parse/buffer.rs:124-127 `take`. -/
def take (buf : Bytes) (n : Nat) : ReadRes (Bytes × Bytes) :=
  if n ≤ buf.length then
    match SliceParser.splitUnchecked buf n with
    | some r => .val r
    | none => .ub
  else .panic

end Verif.SliceBuffer
