import Verif.Debug
import Verif.Fixed
import Verif.RangedNum
/-
Printing for users: `{}` and `{:b}`, `{:o}`, `{:x}`, `{:X}`, with any flags, width and precision.
-/
namespace Verif

/-- `<`, `>` and `^` in a format specification. -/
inductive Align | left | right | center
  deriving DecidableEq, Repr

/-- What `std::fmt::Formatter` knows about the placeholder: `{:fill align + # 0 width .precision}`.  No width is width 0. -/
structure FmtSpec where
  fill : Char := ' '
  align : Option Align := none
  plus : Bool := false
  alternate : Bool := false
  zero : Bool := false
  width : Nat := 0
  precision : Option Nat := none

namespace FmtSpec

/-- `Formatter::padding` of the standard library (core/src/fmt/mod.rs): `n` fill characters around what is written. -/
def padding (f : FmtSpec) (n : Nat) (default : Align) (body : Text) : Text :=
  let pre := match f.align.getD default with
    | .left => 0
    | .right => n
    | .center => n / 2
  List.replicate pre f.fill ++ body ++ List.replicate (n - pre) f.fill

/-- `Formatter::pad_integral` of the standard library. -/
def padIntegral (f : FmtSpec) (nonneg : Bool) (pre digits : Text) : Text :=
  let sign : Text := if nonneg then (if f.plus then ['+'] else []) else ['-']
  let head := sign ++ (if f.alternate then pre else [])
  let w := head.length + digits.length
  if f.width ≤ w then head ++ digits
  else if f.zero then head ++ (List.replicate (f.width - w) '0' ++ digits)
  else f.padding (f.width - w) .right (head ++ digits)

/-- `Formatter::pad` of the standard library, with which `str` is printed. -/
def pad (f : FmtSpec) (s : Text) : Text :=
  let s := match f.precision with
    | some n => s.take n
    | none => s
  if f.width ≤ s.length then s else f.padding (f.width - s.length) .left s

end FmtSpec

/-- The traits that src/int.rs:511 implements for `RangedInt`. -/
inductive NumFmt | binary | octal | lowerHex | upperHex
  deriving DecidableEq, Repr

namespace NumFmt

/-- Base 2, 8 or 16. -/
def radix : NumFmt → Nat
  | .binary => 2
  | .octal => 8
  | .lowerHex => 16
  | .upperHex => 16

/-- What `#` puts in front. -/
def «prefix» : NumFmt → Text
  | .binary => text! "0b"
  | .octal => text! "0o"
  | .lowerHex => text! "0x"
  | .upperHex => text! "0x"

def digit (k : NumFmt) (n : Nat) : Char :=
  if n < 10 then Char.ofNat (48 + n) else if k = .upperHex then Char.ofNat (55 + n) else Char.ofNat (87 + n)

/-- The digits of an unsigned integer, without leading zeros. -/
def digits (k : NumFmt) (n : Nat) : Text :=
  if h : n < k.radix then [k.digit n] else digits k (n / k.radix) ++ [k.digit (n % k.radix)]
termination_by n
decreasing_by cases k <;> simp only [radix] at * <;> omega

end NumFmt

/-- src/int.rs:495-511 `Binary`, `Octal`, `LowerHex`, `UpperHex` for `RangedInt`: those of `i32`, which the standard library
prints as the `u32` with the same bits.  `none` is the panic of `to_i32`. -/
def RangedInt.fmt (p : Profile) (t : IntTy) (min max : Int) (k : NumFmt) (f : FmtSpec) (x : t.Val) : Option Text :=
  (RangedInt.toI32 p t min max x).map fun y => f.padIntegral true k.prefix (k.digits (y % 2 ^ 32).toNat)

/-- src/zarith.rs:61-65 `Display for N`: that of `BigUint`. -/
def displayN (f : FmtSpec) (n : Nat) : Text := f.padIntegral true [] (decimal n)

/-- src/zarith.rs:191-195 `Display for Z`: that of `BigInt`. -/
def displayZ (f : FmtSpec) (z : Int) : Text := f.padIntegral (decide (0 ≤ z)) [] (decimal z.natAbs)

/-- src/fixed.rs:483-487 `Display for FixedString`. -/
def displayFixedString {n : Nat} (f : FmtSpec) (x : ByteArr n) : Text := f.pad (FixedString.asStringLossy x)

/-- src/hexstring.rs:406-410 `Display for HexString`. -/
def HexString.display (f : FmtSpec) (x : HexString) : Text := f.pad (HexString.toHex x)

/-- src/fixed.rs:168-175 `LowerHex for FixedBytes`: `write!` for each byte, so that flags and width are not looked at. -/
def fmtFixedBytes {n : Nat} (_ : FmtSpec) (x : ByteArr n) : Text := FixedBytes.lowerHex x

/-- The types that have `Display`.  (`f64` has it too; what it prints is up to the standard library.) -/
def Schema.displays : Schema → Bool
  | .bool | .int _ | .zarithN | .zarithZ | .string | .fixedString _ => true
  | .dynamic _ s | .autobox s => s.displays
  | .unit | .f64 | .rangedInt _ _ _ | .rangedFloat _ _ | .bytes | .vecU8 | .fixedBytes _ | .option _ | .nullable _ | .vpadded _ _
  | .padded _ _ | .seq _ | .fixSeq _ _ | .limSeq _ _ | .hole _ | .cstyle _ _ | .data _ _ | .record _ => false

/-- `Display::fmt` of the types that have it: `bool`, integers and `String` from the standard library; `N` and `Z`;
`FixedString`; src/dynamic.rs:234-238 `Dynamic`; src/autobox.rs:210-214 `AutoBox`. -/
def Schema.display (f : FmtSpec) : (s : Schema) → s.Val → Option Text
  | .bool => fun (x : Bool) => some (f.pad (if x then text! "true" else text! "false"))
  | .int t => fun (x : t.Val) => some (f.padIntegral (decide (0 ≤ t.toInt x)) [] (decimal (t.toInt x).natAbs))
  | .zarithN => fun (n : Nat) => some (displayN f n)
  | .zarithZ => fun (z : Int) => some (displayZ f z)
  | .string => fun (cs : List Char) => some (f.pad cs)
  | .fixedString _ => fun x => some (displayFixedString f x)
  | .dynamic _ s => fun (x : s.Val) => s.display f x
  | .autobox s => fun (x : s.Val) => s.display f x
  | .unit | .f64 | .rangedInt _ _ _ | .rangedFloat _ _ | .bytes | .vecU8 | .fixedBytes _ | .option _ | .nullable _ | .vpadded _ _
  | .padded _ _ | .seq _ | .fixSeq _ _ | .limSeq _ _ | .hole _ | .cstyle _ _ | .data _ _ | .record _ => fun _ => none

end Verif
