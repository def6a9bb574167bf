import Verif.ErrorDebug
import Verif.Pretty
/-
`{:#?}` of errors, the alternate form of what `unwrap` and `expect` show.
-/
namespace Verif

namespace PrettyOf

/-- A slice of numbers. -/
def numbers (l : List Nat) : Text := entries (l.map decimal)

/-- A variant or struct with two named fields, derived. -/
def two (name a b x y : Text) : Text := struct (.named name fun i => if i = 0 then a else b) [x, y]

/-- A variant or struct with one named field, derived. -/
def one (name a x : Text) : Text := struct (.named name fun _ => a) [x]

end PrettyOf

open PrettyOf

/-- src/parse/error.rs:103-148, the derived `Debug` of `WindowError`. -/
def WindowError.pretty : WindowError → Text
  | .consumeWouldExceedLimit offset requested limit =>
    struct (.named text! "ConsumeWouldExceedLimit" fun i =>
      if i = 0 then text! "offset" else if i = 1 then text! "requested" else text! "limit") [decimal offset, decimal requested, decimal limit]
  | .openWouldExceedBuffer bytesLeft request =>
    two text! "OpenWouldExceedBuffer" text! "bytes_left" text! "request" (decimal bytesLeft) (decimal request)
  | .openWouldExceedWindow limit request =>
    two text! "OpenWouldExceedWindow" text! "limit" text! "request" (decimal limit) (decimal request)
  | .closeWithResidue residual => one text! "CloseWithResidue" text! "residual" (decimal residual)
  | .closeWithoutWindow => text! "CloseWithoutWindow"
  | .offsetOverflow excess => one text! "OffsetOverflow" text! "excess" (decimal excess)

/-- The variants of `TokenError` for the three tag types (src/parse/error.rs:216-227). -/
def TagWidth.variantName : TagWidth → Text
  | .u8 => text! "InvalidTagU8"
  | .u16 => text! "InvalidTagU16"
  | .u30 => text! "InvalidTagU30"

/-- src/parse/error.rs:688-693, the derived `Debug` of `TagError<T>`. -/
def tagPretty (actual : Nat) (forType : Text) (expected : Option (List Nat)) : Text :=
  struct (.named text! "TagError" fun i => if i = 0 then text! "actual" else if i = 1 then text! "for_type" else text! "expected")
    [decimal actual, '"' :: forType ++ ['"'],
      match expected with
      | none => text! "None"
      | some l => tuple text! "Some" (numbers l)]

/-- src/parse/error.rs:216-234, the derived `Debug` of `TokenError`. -/
def TokenError.pretty (W : DebugWording) : TokenError → Text
  | .invalidBoolean b => tuple text! "InvalidBoolean" (decimal b.toNat)
  | .invalidTag w actual expected => tuple w.variantName (tagPretty actual W.forType expected)
  | .nonTerminating buf => tuple text! "NonTerminating" (numbers (buf.map (·.toNat)))
  | .nonNullPaddingByte padding => one text! "NonNullPaddingByte" text! "padding" (numbers (padding.map (·.toNat)))

/-- src/parse/error.rs:292-296, the derived `Debug` of `InternalError`; `TryFromSliceError` is a tuple struct that
holds `()`. -/
def InternalError.pretty : InternalError → Text
  | .sliceCoerceFailure => tuple text! "SliceCoerceFailure" (tuple text! "TryFromSliceError" text! "()")
  | .noValidTags => text! "NoValidTags"

/-- src/error.rs:22-33, the derived `Debug` of `WidthError`. -/
def WidthError.pretty : WidthError → Text
  | .tooWide limit actual => two text! "TooWide" text! "limit" text! "actual" (decimal limit) (decimal actual)
  | .wrongWidth exact actual => two text! "WrongWidth" text! "exact" text! "actual" (decimal exact) (decimal actual)
  | .invalidWidth valid actual => two text! "InvalidWidth" text! "valid" text! "actual" (numbers valid) (decimal actual)

/-- src/error.rs:66-72, the derived `Debug` of `LengthError`. -/
def LengthError.pretty : LengthError → Text
  | .tooLong limit actual => two text! "TooLong" text! "limit" text! "actual" (decimal limit) (decimal actual)
  | .wrongLength exact actual => two text! "WrongLength" text! "exact" text! "actual" (decimal exact) (decimal actual)

/-- src/error.rs:148-155, the derived `Debug` of `BoundsError<Ext>`; `num` is `Debug` of `Ext`; `TryFromIntError` is a
tuple struct that holds `()`. -/
def BoundsError.pretty {ext : Type} (num : ext → Text) : BoundsError ext → Text
  | .underflow min val => two text! "Underflow" text! "min" text! "val" (num min) (num val)
  | .overflow max val => two text! "Overflow" text! "max" text! "val" (num max) (num val)
  | .invalidBounds min max => two text! "InvalidBounds" text! "min" text! "max" (num min) (num max)
  | .illegalNegative min val => two text! "IllegalNegative" text! "min" text! "val" (num min) (num val)
  | .failed => tuple text! "Failed" (tuple text! "TryFromIntError" text! "()")

/-- src/parse/error.rs:349-368, the derived `Debug` of `ExternalError`. -/
def ExternalError.pretty (W : DebugWording) : ExternalError → Text
  | .uncoercableString => tuple text! "UncoercableString" W.utf8
  | .intRangeViolation e => tuple text! "IntRangeViolation" (e.pretty signed)
  | .floatRangeViolation e => tuple text! "FloatRangeViolation" (e.pretty W.float)
  | .widthViolation e => tuple text! "WidthViolation" e.pretty
  | .lengthViolation e => tuple text! "LengthViolation" e.pretty
  | .genericError => tuple text! "GenericError" W.generic

/-- src/parse/error.rs:26-47, the derived `Debug` of `ParseError`. -/
def ParseError.pretty (W : DebugWording) : ParseError → Text
  | .window e => tuple text! "Window" e.pretty
  | .internal e => tuple text! "Internal" e.pretty
  | .external e => tuple text! "External" (e.pretty W)
  | .token e => tuple text! "Token" (e.pretty W)

/-- src/parse/mod.rs:479-496, the derived `Debug` of `LeftoverState`; `Debug for SplitVec<u8>` (src/internal/splitvec.rs:766-776)
writes with `{:?}`, on one line. -/
def Leftover.pretty : Leftover → Option Text
  | .empty => some text! "Empty"
  | .windowless buf => some (tuple text! "Windowless" (numbers (buf.map (·.toNat))))
  | .windowed sbuf => (debugSpans sbuf.buffer sbuf.spans.iter).map fun r => tuple text! "Windowed" (text! "[|" ++ r)

/-- src/conv/error.rs:9-16, the derived `Debug` of `DecodeError`; `none` is a panic while printing.  `HexConvError`
(src/error.rs:107-116) and `InvariantError` (src/parse/mod.rs:625-643) write with `{}` and `{:?}`, which does not hand the flag on;
`W'` is what unmodelled errors print then. -/
def DecodeError.pretty (W W' : DebugWording) : DecodeError → Option Text
  | .conv e => some (tuple text! "Conv" e.debug)
  | .parse e => some (tuple text! "Parse" (e.pretty W))
  | .invariant e => some (tuple text! "Invariant" (e.debug W'))
  | .nonEmpty l => l.pretty.map (tuple text! "NonEmpty")

end Verif
