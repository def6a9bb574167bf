import Verif.Hex
import Verif.Fixed
/-
Builders: src/builder/mod.rs, src/builder/strict.rs, src/builder/memo.rs.
-/
namespace Verif

/-- src/builder/mod.rs:60-109 `trait Builder` on top of `Target`: the associated types and required methods. -/
structure BuilderOps (β seg fin : Type) where
  promote : seg → β
  word : Byte → β
  /-- `words::<N>`; arrays of all lengths -/
  words : Bytes → β
  finalize : β → fin
  /-- `Final: Into<Vec<u8>>` -/
  into : fin → Bytes
  len : β → Nat

namespace BuilderOps

variable {β seg fin : Type} (B : BuilderOps β seg fin)

/-- src/builder/mod.rs:84-86 `into_vec`. -/
def intoVec (b : β) : Bytes := B.into (B.finalize b)

/-- src/builder/mod.rs:89-91 `into_hex`. -/
def intoHex (b : β) : List Char := hexOfBytes (B.intoVec b)

/-- src/builder/mod.rs:94-96 `empty`. -/
def empty : β := B.words []

/-- src/builder/mod.rs:98-100 `into_bin`; the text is that of the bytes (`lossy` agrees with `from_utf8` on
well-formed input), `none` is `Err(FromUtf8Error)`. -/
def intoBin (b : β) : Option (List Char) :=
  let v := B.intoVec b
  if fromUtf8Ok v then some (lossy v) else none

/-- src/builder/mod.rs:106-108 `is_empty`. -/
def isEmpty (b : β) : Bool := B.len b == 0

end BuilderOps

namespace StrictBuilder

/-- src/builder/strict.rs:33-43 `From<Vec<u8>>`, `From<&[u8]>`. -/
def fromVec (buf : Bytes) : StrictBuilder := ⟨buf⟩

/-- src/builder/strict.rs:27-31 `From<StrictBuilder> for Vec<u8>`; also `Borrow<[u8]>` (21-25). -/
def intoVec (b : StrictBuilder) : Bytes := b.vec

/-- src/builder/strict.rs:45-55 `io::Write`; `Vec`'s `write` appends everything and its `flush` does nothing. -/
def write (buf : Bytes) (b : StrictBuilder) : Nat × StrictBuilder := (buf.length, ⟨b.vec ++ buf⟩)
def flush (b : StrictBuilder) : StrictBuilder := b

/-- src/builder/strict.rs:89-123 `Builder`. -/
def ops : BuilderOps StrictBuilder StrictBuilder Bytes where
  promote seg := seg
  word b := fromVec [b]
  words arr := fromVec arr
  finalize b := b.vec
  into v := v
  len b := b.vec.length

end StrictBuilder

/-- src/builder/memo.rs:84-89 `MemoBuffer`. -/
structure MemoBuffer where
  buf : Bytes
  lens : List Nat
  deriving DecidableEq, Repr

namespace MemoBuffer

/-- src/builder/memo.rs:91-96 `From<SplitVec<u8>>`. -/
def fromSplitVec (s : SplitVec Byte) : MemoBuffer := let r := s.intoParts; ⟨r.1, r.2⟩

/-- src/builder/memo.rs:98-102 `From<MemoBuffer> for Vec<u8>`. -/
def intoVec (m : MemoBuffer) : Bytes := m.buf

/-- The loop of `Display` (src/builder/memo.rs:117-123) over the remaining lengths; `none` is an out-of-range slice. -/
def displayGo (buf : Bytes) : List Nat → Nat → Option (List Char)
  | [], _ => some []
  | l :: ls, ix =>
    if ix + l ≤ buf.length then
      (displayGo buf ls (ix + l)).map fun r => ((buf.drop ix).take l).flatMap (fun b => fmt02x b ++ ['|']) ++ r
    else none

/-- src/builder/memo.rs:113-126 `Display`. -/
def display (m : MemoBuffer) : Option (List Char) :=
  (displayGo m.buf m.lens 0).map fun r => ['[', '|'] ++ r ++ [']']

end MemoBuffer

namespace MemoBuilder

/-- src/builder/memo.rs:32-41 `new`; `Default` is the same value. -/
def new : MemoBuilder := ⟨.new⟩

/-- src/builder/memo.rs:63-75 `From<Vec<u8>>`, `From<&[u8]>`. -/
def fromVec (buf : Bytes) : MemoBuilder := ⟨.fromVec buf⟩

/-- src/builder/memo.rs:57-61 `From<MemoBuilder> for Vec<u8>`. -/
def intoVec (b : MemoBuilder) : Bytes := b.segs.intoInner

/-- src/builder/memo.rs:128-150 `io::Write`. -/
def write (buf : Bytes) (b : MemoBuilder) : Nat × MemoBuilder := (buf.length, ⟨b.segs.extendCurrentFromSlice buf⟩)
def flush (b : MemoBuilder) : MemoBuilder := ⟨b.segs.split⟩

/-- The loop of `Display` of `SplitVec<u8>` (src/internal/splitvec.rs:778-792). -/
def displayGo (buf : Bytes) : List Nat → Nat → Option (List Char)
  | [], _ => some []
  | l :: ls, ix =>
    if ix + l ≤ buf.length then
      (displayGo buf ls (ix + l)).map fun r => ((buf.drop ix).take l).flatMap fmt02x ++ ['|'] ++ r
    else none

/-- src/builder/memo.rs:51-55 `Display`; `none` is an out-of-range slice. -/
def display (b : MemoBuilder) : Option (List Char) :=
  (displayGo b.segs.buffer b.segs.spans.iter 0).map fun r => ['[', '|'] ++ r ++ [']']

/-- src/builder/memo.rs:205-249 `Builder`. -/
def ops : BuilderOps MemoBuilder Bytes MemoBuffer where
  promote seg := ⟨.fromVec seg⟩
  word b := fromVec [b]
  words b := fromVec b
  finalize b := .fromSplitVec b.segs
  into := MemoBuffer.intoVec
  len b := b.segs.len

end MemoBuilder

end Verif
