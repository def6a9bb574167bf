import Verif.ErrorText
/-
`Error::source` of every error type of the library, and the conversions between them.
-/
namespace Verif

/-- What an `&dyn Error` can refer to here: values of the error types of the library, and errors of others, of which
nothing is known (`TryFromSliceError`, `TryFromIntError`, `FromUtf8Error`, and boxed errors). -/
inductive AnyError where
  | decode (e : DecodeError)
  | hex (e : HexConvError)
  | invariant (e : InvariantError)
  | parse (e : ParseError)
  | window (e : WindowError)
  | token (e : TokenError)
  | internal (e : InternalError)
  | external (e : ExternalError)
  | tag (w : TagWidth) (actual : Nat) (expected : Option (List Nat))
  | intBounds (e : BoundsError Int)
  | floatBounds (e : BoundsError (BitVec 64))
  | width (e : WidthError)
  | length (e : LengthError)
  | tryFromSlice
  | tryFromInt
  | fromUtf8
  | boxed

namespace AnyError

/-- `Error::source`: src/conv/error.rs:65-74 `DecodeError`, src/parse/mod.rs:661-669 `InvariantError`,
src/parse/error.rs:77-86 `ParseError`, 267-278 `TokenError`, 323-330 `InternalError`, 438-450 `ExternalError`,
src/error.rs:302-309 `BoundsError`; the default (none) for src/parse/error.rs:210 `WindowError`, 754-756 `TagError`,
src/error.rs:57 `WidthError`, 93 `LengthError`, 131 `HexConvError` and for the three error types of the standard
library.  The causes of a boxed error are not followed. -/
def source : AnyError → Option AnyError
  | .decode (.conv e) => some (.hex e)
  | .decode (.parse e) => some (.parse e)
  | .decode (.invariant e) => some (.invariant e)
  | .decode (.nonEmpty _) => none
  | .invariant (.caseUnexpected e) => some (.window e)
  | .invariant (.kindUnexpected e) => some (.parse e)
  | .invariant (.unexpected e) => some (.parse e)
  | .parse (.window e) => some (.window e)
  | .parse (.internal e) => some (.internal e)
  | .parse (.external e) => some (.external e)
  | .parse (.token e) => some (.token e)
  | .token (.invalidBoolean _) => none
  | .token (.invalidTag w actual expected) => some (.tag w actual expected)
  | .token (.nonTerminating _) => none
  | .token (.nonNullPaddingByte _) => none
  | .internal .sliceCoerceFailure => some .tryFromSlice
  | .internal .noValidTags => none
  | .external .uncoercableString => some .fromUtf8
  | .external (.intRangeViolation e) => some (.intBounds e)
  | .external (.floatRangeViolation e) => some (.floatBounds e)
  | .external (.widthViolation e) => some (.width e)
  | .external (.lengthViolation e) => some (.length e)
  | .external .genericError => some .boxed
  | .intBounds .failed => some .tryFromInt
  | .intBounds _ => none
  | .floatBounds .failed => some .tryFromInt
  | .floatBounds _ => none
  | .window _ | .hex _ | .tag .. | .width _ | .length _ | .tryFromSlice | .tryFromInt | .fromUtf8 | .boxed => none

/-- `{}` of an error; `none` is a panic.  `slice` is the text of a `TryFromSliceError`. -/
def text (W : Wording) (slice : Text) : AnyError → Option Text
  | .decode e => e.text W
  | .hex e => some e.text
  | .invariant e => some (e.text W)
  | .parse e => some (e.text W)
  | .window e => some e.text
  | .token e => some (e.text W)
  | .internal e => some e.text
  | .external e => some (e.text W)
  | .tag w actual _ => some (tagText w actual W.forType)
  | .intBounds e => some (e.text signed W.failed)
  | .floatBounds e => some (e.text W.float W.failed)
  | .width e => some e.text
  | .length e => some e.text
  | .tryFromSlice => some slice
  | .tryFromInt => some W.failed
  | .fromUtf8 => some W.utf8
  | .boxed => some W.generic

end AnyError

/-- The types of errors, as `downcast_ref` tells them apart. -/
inductive ErrorType where
  | decode | hex | invariant | parse | window | token | internal | external | tag (w : TagWidth) | intBounds | floatBounds
  | width | length | tryFromSlice | tryFromInt | fromUtf8 | boxed
  deriving DecidableEq

/-- The type of an error. -/
def AnyError.type : AnyError → ErrorType
  | .decode _ => .decode
  | .hex _ => .hex
  | .invariant _ => .invariant
  | .parse _ => .parse
  | .window _ => .window
  | .token _ => .token
  | .internal _ => .internal
  | .external _ => .external
  | .tag w _ _ => .tag w
  | .intBounds _ => .intBounds
  | .floatBounds _ => .floatBounds
  | .width _ => .width
  | .length _ => .length
  | .tryFromSlice => .tryFromSlice
  | .tryFromInt => .tryFromInt
  | .fromUtf8 => .fromUtf8
  | .boxed => .boxed

/-! ### conversions -/

/-- `From<E> for ExternalError` (src/parse/error.rs:379-407, 452-456); `None` where there is no impl. -/
def AnyError.toExternal : AnyError → Option ExternalError
  | .fromUtf8 => some .uncoercableString
  | .intBounds e => some (.intRangeViolation e)
  | .floatBounds e => some (.floatRangeViolation e)
  | .length e => some (.lengthViolation e)
  | .width e => some (.widthViolation e)
  | .boxed => some .genericError
  | _ => none

/-- `From<E> for ParseError` (src/parse/error.rs:150-154 `WindowError`, 236-240 `TokenError`, 304-308 `InternalError`,
695-699 and 486-508 `TagError<T>`, 370-377 all that convert to `ExternalError`), and 49-58 `ParseError::reify` for a
boxed error. -/
def AnyError.toParse : AnyError → Option ParseError
  | .window e => some (.window e)
  | .token e => some (.token e)
  | .internal e => some (.internal e)
  | .tag w actual expected => some (.token (.invalidTag w actual expected))
  | e => e.toExternal.map .external

/-- `From<E> for DecodeError` (src/conv/error.rs:24-40). -/
def AnyError.toDecode : AnyError → Option DecodeError
  | .hex e => some (.conv e)
  | .parse e => some (.parse e)
  | .invariant e => some (.invariant e)
  | _ => none

/-- `From<E> for BoundsError<Ext>` (src/error.rs:163-167) for `i64`. -/
def AnyError.toIntBounds : AnyError → Option (BoundsError Int)
  | .tryFromInt => some .failed
  | _ => none

/-- `From<E> for InternalError` (src/parse/error.rs:298-302). -/
def AnyError.toInternal : AnyError → Option InternalError
  | .tryFromSlice => some .sliceCoerceFailure
  | _ => none

end Verif
