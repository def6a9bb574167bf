import Verif.Conversions
/-
What conversions are to do with the bytes.
-/
namespace Verif

namespace Step

/-- What a call is to do with the bytes: nothing, unless it is one that changes them. -/
def change : {c d : Holder} → Step c d → Bytes → Bytes
  | _, _, bytesAsMutVec f, b | _, _, hexAsMutVec f, b => f b
  | _, _, bytesAsMutSlice f, b | _, _, hexAsMutSlice f, b | _, _, fixedMut f, b | _, _, seqAsMutSlice f, b => f.1 b
  | _, _, bytesExtend more, b | _, _, hexExtend more, b | _, _, hexWrite more, b | _, _, seqExtend more, b => b ++ more
  | _, _, _, b => b

/-- The calls that may fail: those to a fixed number of bytes. -/
def fails : {c d : Holder} → Step c d → Bytes → Option ConvError
  | _, _, trySlice n, b => if b.length = n then none else some (.width (.wrongWidth n b.length))
  | _, _, sliceTryInto n, b => if b.length = n then none else some .slice
  | _, _, _, _ => none

/-- A call that changes something. -/
def edits : {c d : Holder} → Step c d → Bool
  | _, _, bytesAsMutVec _ | _, _, hexAsMutVec _ | _, _, bytesAsMutSlice _ | _, _, hexAsMutSlice _ | _, _, fixedMut _
  | _, _, seqAsMutSlice _ | _, _, bytesExtend _ | _, _, hexExtend _ | _, _, hexWrite _ | _, _, seqExtend _ => true
  | _, _, _ => false

/-- The number of bytes a call insists on. -/
def width : {c d : Holder} → Step c d → Option Nat
  | _, _, trySlice n | _, _, sliceTryInto n => some n
  | _, _, _ => none

end Step

namespace Path

/-- The changes in order, up to the first failure. -/
def result : {c d : Holder} → Path c d → Bytes → Except ConvError Bytes
  | _, _, nil, b => .ok b
  | _, _, cons s p, b => match s.fails b with
    | none => p.result (s.change b)
    | some e => .error e

/-- Nothing on the way changes anything. -/
def pure : {c d : Holder} → Path c d → Bool
  | _, _, nil => true
  | _, _, cons s p => !s.edits && p.pure

/-- The numbers of bytes that are insisted on, on the way. -/
def widths : {c d : Holder} → Path c d → List Nat
  | _, _, nil => []
  | _, _, cons s p => s.width.toList ++ p.widths

end Path

end Verif
