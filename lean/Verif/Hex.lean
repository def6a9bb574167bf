import Verif.Target
import Verif.Std
/-
Hex strings: src/hexstring.rs.  A `&str`/`String` is the list of its characters; its bytes are `utf8 s`.
-/
namespace Verif

/-- src/error.rs:99-105 `HexConvError`; both variants carry the text. -/
inductive HexConvError where
  | oddParity (s : List Char)
  | nonHex (s : List Char)
  deriving DecidableEq, Repr

/-! ### pieces of the standard library -/

/-- The digit of a number below 16 as `{:x}` prints it. -/
def hexDigit (n : Nat) : Char := if n < 10 then Char.ofNat (48 + n) else Char.ofNat (87 + n)

/-- `format!("{byte:02x}")`. -/
def fmt02x (b : Byte) : List Char := [hexDigit (b.toNat / 16), hexDigit (b.toNat % 16)]

/-- `(b as char).to_digit(16)`. -/
def toDigit16 (b : Byte) : Option Nat :=
  let n := b.toNat
  if 48 ≤ n ∧ n ≤ 57 then some (n - 48)
  else if 97 ≤ n ∧ n ≤ 102 then some (n - 87)
  else if 65 ≤ n ∧ n ≤ 70 then some (n - 55)
  else none

/-- The loop of `u8::from_str_radix(_, 16)`: `checked_mul`, `checked_add`. -/
def radixGo : Nat → Bytes → Option Byte
  | acc, [] => some (UInt8.ofNat acc)
  | acc, b :: bs =>
    match toDigit16 b with
    | none => none
    | some d => if acc * 16 + d < 256 then radixGo (acc * 16 + d) bs else none

/-- `u8::from_str_radix(s, 16).ok()`; a leading `+` is allowed, `-` is not for an unsigned type. -/
def fromStrRadix16 (s : Bytes) : Option Byte :=
  match s with
  | [] => none
  | [b] => if b = 43 ∨ b = 45 then none else radixGo 0 [b]
  | b :: bs => if b = 43 then radixGo 0 bs else radixGo 0 (b :: bs)

/-- `str::is_char_boundary`. -/
def isCharBoundary (s : Bytes) (i : Nat) : Bool :=
  match s[i]? with
  | none => i = s.length
  | some b => i = 0 || !isCont b

/-- `&s[a..b]` on a `str`; `none` is a panic. -/
def strSlice (s : Bytes) (a b : Nat) : Option Bytes :=
  if a ≤ b ∧ isCharBoundary s a = true ∧ isCharBoundary s b = true then some ((s.drop a).take (b - a)) else none

/-! ### src/hexstring.rs, `util` -/

/-- src/hexstring.rs:80-89 `hex_of_bytes`. -/
def hexOfBytes (bytes : Bytes) : List Char := bytes.foldl (fun hex byte => hex ++ fmt02x byte) []

/-- The loop of `bytes_of_hex` (src/hexstring.rs:143-148): `n` rounds remain, the next is number `ix`. -/
def bytesOfHexGo (src : List Char) : Nat → Nat → Bytes → Option (Except HexConvError Bytes)
  | 0, _, dst => some (.ok dst)
  | n + 1, ix, dst =>
    match strSlice (utf8 src) (ix * 2) (ix * 2 + 2) with
    | none => none
    | some pair =>
      match fromStrRadix16 pair with
      | some word => bytesOfHexGo src n (ix + 1) (dst ++ [word])
      | none => some (.error (.nonHex src))

/-- src/hexstring.rs:130-150 `bytes_of_hex`; `none` is a panic. -/
def bytesOfHex (src : List Char) : Option (Except HexConvError Bytes) :=
  let asciiLen := (utf8 src).length
  if asciiLen = 0 then some (.ok [])
  else if asciiLen % 2 ≠ 0 then some (.error (.oddParity src))
  else bytesOfHexGo src (asciiLen / 2) 0 []

/-- The loop of `eq_hex_bytes` (src/hexstring.rs:173-178) over the remaining bytes of `tgt`. -/
def eqHexGo (src : List Char) : Bytes → Nat → Option Bool
  | [], _ => some true
  | t :: tgt, ix =>
    match strSlice (utf8 src) (ix * 2) (ix * 2 + 2) with
    | none => none
    | some pair =>
      match fromStrRadix16 pair with
      | some byte => if byte = t then eqHexGo src tgt (ix + 1) else some false
      | none => some false

/-- src/hexstring.rs:165-180 `eq_hex_bytes`; `none` is a panic. -/
def eqHexBytes (src : List Char) (tgt : Bytes) : Option Bool :=
  if tgt.length * 2 ≠ (utf8 src).length then some false else eqHexGo src tgt 0

namespace HexString

/-- src/hexstring.rs:335-337 `to_hex`; `Display` (src/hexstring.rs:406-410) shows the same text. -/
def toHex (h : HexString) : List Char := hexOfBytes h.bytes

/-- src/hexstring.rs:345-352 `from_hex`; likewise `TryFrom` of the string types (546-565) and `FromStr` (589-595). -/
def fromHex (s : List Char) : Option (Except HexConvError HexString) :=
  match bytesOfHex s with
  | none => none
  | some (.ok bs) => some (.ok ⟨bs⟩)
  | some (.error e) => some (.error e)

/-- src/hexstring.rs:583-587 `hex!`: `from_hex(s).expect(..)`. -/
def hexMacro (s : List Char) : Option HexString :=
  match fromHex s with
  | some (.ok h) => some h
  | _ => none

/-- src/hexstring.rs:360-365 `eq_hex`, and `==` with the string types in both directions (597-620). -/
def eqHex (h : HexString) (s : List Char) : Option Bool := eqHexBytes s h.bytes

/-- src/hexstring.rs:232-319 `from_vec`, `clone_from_bytes`, `from_bytes`; `FromIterator` (412-426), `From` (508-544). -/
def fromVec (bs : Bytes) : HexString := ⟨bs⟩

/-- src/hexstring.rs:239-241 `into_inner` (and `as_bytes`, `as_vec`, `into_iter`, `From<HexString> for Vec<u8>`). -/
def intoInner (h : HexString) : Bytes := h.bytes

/-- src/hexstring.rs:253-255 `len`, 246-248 `is_empty`. -/
def len (h : HexString) : Nat := h.bytes.length
def isEmpty (h : HexString) : Bool := h.bytes.isEmpty

/-- src/hexstring.rs:428-438 `Extend`. -/
def extend (h : HexString) (bs : Bytes) : HexString := ⟨h.bytes ++ bs⟩

/-- src/hexstring.rs:462-470 `io::Write::write`: the number of bytes written (it never fails) and the hex string. -/
def ioWrite (h : HexString) (buf : Bytes) : Nat × HexString := (buf.length, ⟨h.bytes ++ buf⟩)

/-- src/hexstring.rs:400-404 `Debug`: the text of a tuple struct with one string field. -/
def debug (h : HexString) : List Char := "HexString(\"".toList ++ h.toHex ++ "\")".toList

end HexString

/-- src/hexstring.rs:94-105 `write_hex!` on a formatter that has received `fmt` (which does not fail). -/
def writeHex (fmt : List Char) (buf : Bytes) : List Char := buf.foldl (fun fmt byte => fmt ++ fmt02x byte) fmt

end Verif
