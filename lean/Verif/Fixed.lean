import Verif.ByteParser
import Verif.Codec.Prim
import Verif.Hex
/-
Fixed-width byte and character strings (src/fixed.rs) beyond their codecs, and the implementations of
`write_to_vec`, `encode` and `to_bytes` that override the defaults (src/conv/mod.rs:370-389,
src/fixed.rs:246-266, src/schema.rs:541-559, src/prim.rs:5-21).
-/
namespace Verif

/-- `core::str::run_utf8_validation`: the width of the well-formed sequence at the front, if there is one. -/
def utf8Step (a : Byte) (bs : Bytes) : Option Nat :=
  match charWidth a, bs with
  | 1, _ => some 1
  | 2, b1 :: _ => if isCont b1 then some 2 else none
  | 3, b1 :: b2 :: _ => if second3 a b1 && isCont b2 then some 3 else none
  | 4, b1 :: b2 :: b3 :: _ => if second4 a b1 && isCont b2 && isCont b3 then some 4 else none
  | _, _ => none

/-- `std::str::from_utf8(bs).is_ok()`. -/
def fromUtf8Ok : Bytes → Bool
  | [] => true
  | a :: bs => match utf8Step a bs with
    | some n => fromUtf8Ok (bs.drop (n - 1))
    | none => false
  termination_by v => v.length
  decreasing_by simp; omega

namespace FixedBytes

/-- src/fixed.rs:112-124 `FixedBytes::try_from_slice`. -/
def tryFromSlice (n : Nat) (bs : Bytes) : Except WidthError (ByteArr n) :=
  if h : bs.length = n then .ok ⟨bs, h⟩ else .error (.wrongWidth n bs.length)

/-- Dereferencing the pointer to the first byte of a slice as a `*const [u8; N]`: undefined if the slice has fewer bytes. -/
def readArray (n : Nat) (bs : Bytes) : ReadRes (ByteArr n) :=
  if h : n ≤ bs.length then .val ⟨bs.take n, by rw [List.length_take]; omega⟩ else .ub

/-- src/fixed.rs:112-124 `FixedBytes::try_from_slice` with the unsafe access in view. -/
def tryFromSliceRaw (n : Nat) (bs : Bytes) : ReadRes (Except WidthError (ByteArr n)) :=
  if bs.length = n then
    match readArray n bs with
    | .val x => .val (.ok x)
    | .panic => .panic
    | .ub => .ub
  else .val (.error (.wrongWidth n bs.length))

/-- src/fixed.rs:234-240 `TryFrom<&[u8]>`; the error `TryFromSliceError` carries nothing. -/
def tryFrom (n : Nat) (bs : Bytes) : Option (ByteArr n) := if h : bs.length = n then some ⟨bs, h⟩ else none

/-- src/fixed.rs:141-143 `len`. -/
def len {n : Nat} (_ : ByteArr n) : Nat := n

/-- src/fixed.rs:163-165 `to_vec`. -/
def toVec {n : Nat} (x : ByteArr n) : Bytes := x.1

/-- src/fixed.rs:168-175 `LowerHex`. -/
def lowerHex {n : Nat} (x : ByteArr n) : List Char := writeHex [] x.1

end FixedBytes

namespace FixedString

/-- src/fixed.rs:406-415 `try_from_bytes`. -/
def tryFromBytes (n : Nat) (bs : Bytes) : Except WidthError (ByteArr n) :=
  if h : bs.length = n then .ok ⟨bs, h⟩ else .error (.wrongWidth n bs.length)

/-- src/fixed.rs:422-447 `FromStr`, `TryFrom<String>`, `TryFrom<&str>`. -/
def fromStr (n : Nat) (s : List Char) : Except WidthError (ByteArr n) := tryFromBytes n (utf8 s)

/-- src/fixed.rs:329-334 `try_from_array`; the `Utf8Error` is not modelled. -/
def tryFromArray {n : Nat} (x : ByteArr n) : Option (ByteArr n) := if fromUtf8Ok x.1 then some x else none

/-- src/fixed.rs:349-351 `is_valid_utf8`. -/
def isValidUtf8 {n : Nat} (x : ByteArr n) : Bool := fromUtf8Ok x.1

/-- src/fixed.rs:386-388 `as_string_lossy`; `Display` (src/fixed.rs:483-487) shows the same text. -/
def asStringLossy {n : Nat} (x : ByteArr n) : List Char := lossy x.1

end FixedString

/-! ### overridden methods of `Encode` -/

namespace Codec.Override

/-- src/conv/mod.rs:375-377 -/
def vecWriteToVec (x buf : Bytes) : Bytes := buf ++ x
/-- src/conv/mod.rs:379-384; `none` is the failing `debug_assert_eq!`. -/
def vecEncode {τ : Type} (p : Profile) (T : TargetOps τ) (x : Bytes) : Option τ :=
  match Codec.vecU8.write T x T.create with
  | some (n, t) => if p = .debug ∧ n ≠ x.length then none else some t
  | none => none
/-- src/conv/mod.rs:386-388 -/
def vecToBytes (x : Bytes) : Bytes := x

/-- src/schema.rs:546-548 -/
def bytesWriteToVec (x buf : Bytes) : Bytes := vecWriteToVec x buf
/-- src/schema.rs:550-554 -/
def bytesEncode {τ : Type} (T : TargetOps τ) (x : Bytes) : Option τ :=
  match Codec.vecU8.write T x T.create with
  | some (_, t) => some t
  | none => none
/-- src/schema.rs:556-558 -/
def bytesToBytes (x : Bytes) : Bytes := x

/-- src/fixed.rs:251-254 -/
def fixedWriteToVec {n : Nat} (x : ByteArr n) (buf : Bytes) : Bytes := buf ++ x.1
/-- src/fixed.rs:256-260 -/
def fixedEncode {n : Nat} {τ : Type} (T : TargetOps τ) (x : ByteArr n) : Option τ :=
  match (Codec.fixedBytes n).write T x T.create with
  | some (_, t) => some t
  | none => none
/-- src/fixed.rs:262-265 -/
def fixedToBytes {n : Nat} (x : ByteArr n) : Bytes := x.1

/-- src/prim.rs:10-11 -/
def unitWriteToVec (_ : Unit) (buf : Bytes) : Bytes := buf
/-- src/prim.rs:13-15 -/
def unitEncode {τ : Type} (T : TargetOps τ) (_ : Unit) : Option τ := some T.create
/-- src/prim.rs:17-20 -/
def unitToBytes (_ : Unit) : Bytes := []

end Codec.Override

end Verif
