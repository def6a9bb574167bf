import Verif.ErrorText
/-
`{:?}` of errors: what `unwrap` and `expect` show.  The alternate form `{:#?}` is in `Verif.ErrorPretty`.
-/
namespace Verif

/-- What errors print that is not modelled.  `float`: `{:?}` of an `f64` with these bits; `forType`: the type name
of a `TagError` (names of types need no escapes); `utf8`: `{:?}` of a `FromUtf8Error`; `generic`: of a boxed error. -/
structure DebugWording where
  float : BitVec 64 → Text
  forType : Text
  utf8 : Text
  generic : Text

/-- src/parse/error.rs:103-148, the derived `Debug` of `WindowError`. -/
def WindowError.debug : WindowError → Text
  | .consumeWouldExceedLimit offset requested limit =>
    text! "ConsumeWouldExceedLimit { offset: " ++ decimal offset ++ text! ", requested: " ++ decimal requested ++
      text! ", limit: " ++ decimal limit ++ text! " }"
  | .openWouldExceedBuffer bytesLeft request =>
    text! "OpenWouldExceedBuffer { bytes_left: " ++ decimal bytesLeft ++ text! ", request: " ++ decimal request ++ text! " }"
  | .openWouldExceedWindow limit request =>
    text! "OpenWouldExceedWindow { limit: " ++ decimal limit ++ text! ", request: " ++ decimal request ++ text! " }"
  | .closeWithResidue residual => text! "CloseWithResidue { residual: " ++ decimal residual ++ text! " }"
  | .closeWithoutWindow => text! "CloseWithoutWindow"
  | .offsetOverflow excess => text! "OffsetOverflow { excess: " ++ decimal excess ++ text! " }"

/-- The variants of `TokenError` for the three tag types (src/parse/error.rs:216-227). -/
def TagWidth.variant : TagWidth → Text
  | .u8 => text! "InvalidTagU8("
  | .u16 => text! "InvalidTagU16("
  | .u30 => text! "InvalidTagU30("

/-- src/parse/error.rs:688-693, the derived `Debug` of `TagError<T>`. -/
def tagDebug (actual : Nat) (forType : Text) (expected : Option (List Nat)) : Text :=
  text! "TagError { actual: " ++ decimal actual ++ text! ", for_type: \"" ++ forType ++ text! "\", expected: " ++
    (match expected with
      | none => text! "None"
      | some l => text! "Some(" ++ debugList l ++ text! ")") ++ text! " }"

/-- src/parse/error.rs:216-234, the derived `Debug` of `TokenError`. -/
def TokenError.debug (W : DebugWording) : TokenError → Text
  | .invalidBoolean b => text! "InvalidBoolean(" ++ decimal b.toNat ++ text! ")"
  | .invalidTag w actual expected => w.variant ++ tagDebug actual W.forType expected ++ text! ")"
  | .nonTerminating buf => text! "NonTerminating(" ++ debugList (buf.map (·.toNat)) ++ text! ")"
  | .nonNullPaddingByte padding =>
    text! "NonNullPaddingByte { padding: " ++ debugList (padding.map (·.toNat)) ++ text! " }"

/-- src/parse/error.rs:292-296, the derived `Debug` of `InternalError`; `TryFromSliceError` is a tuple struct that
holds `()`. -/
def InternalError.debug : InternalError → Text
  | .sliceCoerceFailure => text! "SliceCoerceFailure(TryFromSliceError(()))"
  | .noValidTags => text! "NoValidTags"

/-- src/error.rs:22-33, the derived `Debug` of `WidthError`. -/
def WidthError.debug : WidthError → Text
  | .tooWide limit actual =>
    text! "TooWide { limit: " ++ decimal limit ++ text! ", actual: " ++ decimal actual ++ text! " }"
  | .wrongWidth exact actual =>
    text! "WrongWidth { exact: " ++ decimal exact ++ text! ", actual: " ++ decimal actual ++ text! " }"
  | .invalidWidth valid actual =>
    text! "InvalidWidth { valid: " ++ debugList valid ++ text! ", actual: " ++ decimal actual ++ text! " }"

/-- src/error.rs:66-72, the derived `Debug` of `LengthError`. -/
def LengthError.debug : LengthError → Text
  | .tooLong limit actual =>
    text! "TooLong { limit: " ++ decimal limit ++ text! ", actual: " ++ decimal actual ++ text! " }"
  | .wrongLength exact actual =>
    text! "WrongLength { exact: " ++ decimal exact ++ text! ", actual: " ++ decimal actual ++ text! " }"

/-- src/error.rs:148-155, the derived `Debug` of `BoundsError<Ext>`; `num` is `Debug` of `Ext`; `TryFromIntError` is a
tuple struct that holds `()`. -/
def BoundsError.debug {ext : Type} (num : ext → Text) : BoundsError ext → Text
  | .underflow min val => text! "Underflow { min: " ++ num min ++ text! ", val: " ++ num val ++ text! " }"
  | .overflow max val => text! "Overflow { max: " ++ num max ++ text! ", val: " ++ num val ++ text! " }"
  | .invalidBounds min max => text! "InvalidBounds { min: " ++ num min ++ text! ", max: " ++ num max ++ text! " }"
  | .illegalNegative min val => text! "IllegalNegative { min: " ++ num min ++ text! ", val: " ++ num val ++ text! " }"
  | .failed => text! "Failed(TryFromIntError(()))"

/-- src/parse/error.rs:349-368, the derived `Debug` of `ExternalError`. -/
def ExternalError.debug (W : DebugWording) : ExternalError → Text
  | .uncoercableString => text! "UncoercableString(" ++ W.utf8 ++ text! ")"
  | .intRangeViolation e => text! "IntRangeViolation(" ++ e.debug signed ++ text! ")"
  | .floatRangeViolation e => text! "FloatRangeViolation(" ++ e.debug W.float ++ text! ")"
  | .widthViolation e => text! "WidthViolation(" ++ e.debug ++ text! ")"
  | .lengthViolation e => text! "LengthViolation(" ++ e.debug ++ text! ")"
  | .genericError => text! "GenericError(" ++ W.generic ++ text! ")"

/-- src/parse/error.rs:26-47, the derived `Debug` of `ParseError`. -/
def ParseError.debug (W : DebugWording) : ParseError → Text
  | .window e => text! "Window(" ++ e.debug ++ text! ")"
  | .internal e => text! "Internal(" ++ e.debug ++ text! ")"
  | .external e => text! "External(" ++ e.debug W ++ text! ")"
  | .token e => text! "Token(" ++ e.debug W ++ text! ")"

/-- src/parse/mod.rs:625-643 `Debug for InvariantError`. -/
def InvariantError.debug (W : DebugWording) : InvariantError → Text
  | .caseUnexpected e => text! "unexpected WindowError variant encountered: " ++ e.debug
  | .kindUnexpected e => text! "error of unexpected kind (non-WindowError) encountered: " ++ e.debug W
  | .unexpected e => text! "unexpected error encountered: " ++ e.debug W

/-- src/conv/error.rs:9-16, the derived `Debug` of `DecodeError`; `none` is a panic while printing. -/
def DecodeError.debug (W : DebugWording) : DecodeError → Option Text
  | .conv e => some (text! "Conv(" ++ e.debug ++ text! ")")
  | .parse e => some (text! "Parse(" ++ e.debug W ++ text! ")")
  | .invariant e => some (text! "Invariant(" ++ e.debug W ++ text! ")")
  | .nonEmpty l => l.debug.map fun t => text! "NonEmpty(" ++ t ++ text! ")"

end Verif
