import Verif.Errors
/-
Models of the standard-library and `num-bigint` functions the codecs call.  They are transcribed from
the documented behaviour; the Rust sources of these libraries are not part of /repo.
-/
namespace Verif

/-! ### big-endian bytes -/

/-- `to_be_bytes` of a `k`-byte unsigned integer with value `n` (higher bits are dropped). -/
def toBe : Nat → Nat → Bytes
  | 0, _ => []
  | k + 1, n => toBe k (n / 256) ++ [UInt8.ofNat (n % 256)]

/-- `from_be_bytes`. -/
def ofBe (bs : Bytes) : Nat := bs.foldl (fun acc b => acc * 256 + b.toNat) 0

/-! ### machine integers -/

/-- The integer types with a codec (src/int.rs:567-574, src/conv/len.rs:95-98). -/
inductive IntTy where
  | u8 | i8 | u16 | i16 | u32 | i32 | u64 | i64
  deriving DecidableEq, Repr

namespace IntTy

/-- `<t as FixedLength>::LEN` (src/conv/len.rs:95-98). -/
def len : IntTy → Nat
  | u8 | i8 => 1
  | u16 | i16 => 2
  | u32 | i32 => 4
  | u64 | i64 => 8

def signed : IntTy → Bool
  | i8 | i16 | i32 | i64 => true
  | u8 | u16 | u32 | u64 => false

/-- Values are bit patterns. -/
abbrev Val (t : IntTy) : Type := BitVec (8 * t.len)

/-- Numeric value. -/
def toInt (t : IntTy) (x : t.Val) : Int := if t.signed then x.toInt else x.toNat

/-- Representable numbers. -/
def lo (t : IntTy) : Int := if t.signed then -2 ^ (8 * t.len - 1) else 0
def hi (t : IntTy) : Int := if t.signed then 2 ^ (8 * t.len - 1) - 1 else 2 ^ (8 * t.len) - 1

/-- `<t>::try_from(n)`. -/
def tryFrom (t : IntTy) (n : Int) : Option t.Val :=
  if t.lo ≤ n ∧ n ≤ t.hi then some (BitVec.ofInt _ n) else none

/-- `n as t`. -/
def cast (t : IntTy) (n : Int) : t.Val := BitVec.ofInt _ n

end IntTy

/-! ### `num-bigint` radix conversion -/

/-- `BigUint::to_radix_le(128)`: little-endian digits, `[0]` for zero. -/
def toRadix (n : Nat) : List Nat := if n < 128 then [n] else n % 128 :: toRadix (n / 128)
  termination_by n
  decreasing_by omega

/-- `BigUint::from_radix_le(digits, 128)`; `None` if a digit is out of range. -/
def fromRadix (ds : List Nat) : Option Nat :=
  if ds.all (· < 128) then some (ds.foldr (fun d acc => d + 128 * acc) 0) else none

/-- `BigUint::bits`: position of the highest set bit, 0 for zero. -/
def bits (n : Nat) : Nat := if n = 0 then 0 else bits (n / 2) + 1
  termination_by n
  decreasing_by omega

/-- `Integer::div_ceil`. -/
def divCeil (n d : Nat) : Nat := (n + d - 1) / d

/-! ### doubles (bit patterns) -/

namespace F64

/-- `f64::is_nan`. -/
def isNan (x : BitVec 64) : Bool := x.toNat % 2 ^ 63 > 0x7ff0000000000000

/-- An integer that orders the non-NaN doubles. -/
def key (x : BitVec 64) : Int :=
  if x.toNat ≥ 2 ^ 63 then - Int.ofNat (x.toNat % 2 ^ 63) else Int.ofNat (x.toNat % 2 ^ 63)

/-- `x <= y`. -/
def le (x y : BitVec 64) : Bool := !isNan x && !isNan y && decide (key x ≤ key y)

end F64

/-! ### UTF-8 -/

/-- UTF-8 encoding of one scalar value (`char::encode_utf8`). -/
def utf8Char (c : Char) : Bytes :=
  let n := c.toNat
  if n < 0x80 then [UInt8.ofNat n]
  else if n < 0x800 then [UInt8.ofNat (0xc0 + n / 64), UInt8.ofNat (0x80 + n % 64)]
  else if n < 0x10000 then
    [UInt8.ofNat (0xe0 + n / 4096), UInt8.ofNat (0x80 + n / 64 % 64), UInt8.ofNat (0x80 + n % 64)]
  else
    [UInt8.ofNat (0xf0 + n / 262144), UInt8.ofNat (0x80 + n / 4096 % 64), UInt8.ofNat (0x80 + n / 64 % 64),
      UInt8.ofNat (0x80 + n % 64)]

/-- `str::as_bytes` of the string with these characters. -/
def utf8 (cs : List Char) : Bytes := cs.flatMap utf8Char

/-- U+FFFD REPLACEMENT CHARACTER. -/
def replacement : Char := Char.ofNat 0xfffd

/-- `b & 0xc0 == 0x80`. -/
def isCont (b : Byte) : Bool := 0x80 ≤ b.toNat && b.toNat ≤ 0xbf

/-- `core::str::utf8_char_width`. -/
def charWidth (b : Byte) : Nat :=
  let n := b.toNat
  if n < 0x80 then 1
  else if 0xc2 ≤ n ∧ n ≤ 0xdf then 2
  else if 0xe0 ≤ n ∧ n ≤ 0xef then 3
  else if 0xf0 ≤ n ∧ n ≤ 0xf4 then 4
  else 0

/-- Ranges allowed for the second byte of three- and four-byte sequences. -/
def second3 (a b : Byte) : Bool :=
  let x := a.toNat; let y := b.toNat
  (x = 0xe0 && 0xa0 ≤ y && y ≤ 0xbf) || (0xe1 ≤ x && x ≤ 0xec && 0x80 ≤ y && y ≤ 0xbf) ||
    (x = 0xed && 0x80 ≤ y && y ≤ 0x9f) || (0xee ≤ x && x ≤ 0xef && 0x80 ≤ y && y ≤ 0xbf)

def second4 (a b : Byte) : Bool :=
  let x := a.toNat; let y := b.toNat
  (x = 0xf0 && 0x90 ≤ y && y ≤ 0xbf) || (0xf1 ≤ x && x ≤ 0xf3 && 0x80 ≤ y && y ≤ 0xbf) ||
    (x = 0xf4 && 0x80 ≤ y && y ≤ 0x8f)

/-- `safe_get(xs, i)`: 0 past the end. -/
def safeGet (bs : Bytes) (i : Nat) : Byte := bs.getD i 0

/-- One step of `core::str::lossy::Utf8Chunks` on a non-empty input: the character (the replacement
character for an ill-formed piece) and the number of bytes (at least 1) it stands for. -/
def lossyStep (a : Byte) (bs : Bytes) : Char × Nat :=
  let b1 := safeGet bs 0
  let b2 := safeGet bs 1
  let b3 := safeGet bs 2
  match charWidth a with
  | 1 => (Char.ofNat a.toNat, 1)
  | 2 =>
    if !isCont b1 then (replacement, 1)
    else (Char.ofNat ((a.toNat - 0xc0) * 64 + (b1.toNat - 0x80)), 2)
  | 3 =>
    if !second3 a b1 then (replacement, 1)
    else if !isCont b2 then (replacement, 2)
    else (Char.ofNat ((a.toNat - 0xe0) * 4096 + (b1.toNat - 0x80) * 64 + (b2.toNat - 0x80)), 3)
  | 4 =>
    if !second4 a b1 then (replacement, 1)
    else if !isCont b2 then (replacement, 2)
    else if !isCont b3 then (replacement, 3)
    else (Char.ofNat ((a.toNat - 0xf0) * 262144 + (b1.toNat - 0x80) * 4096 + (b2.toNat - 0x80) * 64 +
      (b3.toNat - 0x80)), 4)
  | _ => (replacement, 1)

/-- `String::from_utf8_lossy`. -/
def lossy : Bytes → List Char
  | [] => []
  | a :: bs => (lossyStep a bs).1 :: lossy (bs.drop ((lossyStep a bs).2 - 1))
  termination_by v => v.length
  decreasing_by simp; omega

end Verif
