import Verif.Hash
import Verif.Builder
import Verif.Cleanup
/-
`Hash` of builders, segmented buffers and left-over states.
-/
namespace Verif

/-- `<[usize] as Hash>::hash`: the length, and then the memory of the slice at once. -/
def HashOf.usizes (e : Endian) (ns : List Nat) : List HashCall := [.length ns.length, .write (ns.flatMap (e.bytes usizeBytes))]

/-- `<usize as Hash>::hash`: `write_usize`. -/
def HashOf.usize (n : Nat) : List HashCall := [.int usizeBytes n]

/-- src/internal/splitvec.rs:59-64, the derived `Hash` of `SpanBuffer`: all three fields. -/
def SpanBuffer.hash (e : Endian) (s : SpanBuffer) : List HashCall :=
  HashOf.usizes e s.stable ++ (HashOf.option HashOf.usize s.active ++ HashOf.usize s.cache)

/-- src/internal/splitvec.rs:429-433, the derived `Hash` of `SplitVec<u8>`. -/
def SplitVec.hash (e : Endian) (s : SplitVec Byte) : List HashCall := HashOf.bytes s.buffer ++ s.spans.hash e

/-- src/builder/memo.rs:26-30, the derived `Hash` of `MemoBuilder`. -/
def MemoBuilder.hash (e : Endian) (b : MemoBuilder) : List HashCall := b.segs.hash e

/-- src/hexstring.rs:186-190, the derived `Hash` of `HexString`. -/
def HexString.hash (h : HexString) : List HashCall := HashOf.bytes h.bytes

/-- src/parse/mod.rs:479-496, the derived `Hash` of `LeftoverState`. -/
def Leftover.hash (e : Endian) : Leftover → List HashCall
  | .empty => [.discr 0]
  | .windowless buf => .discr 1 :: HashOf.bytes buf
  | .windowed sbuf => .discr 2 :: sbuf.hash e

end Verif
