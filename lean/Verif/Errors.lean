import Verif.Basic
/-
Error values.  Human-readable payloads (`for_type`) are not part of the values; the texts are in `ErrorText`.
-/
namespace Verif

/-- src/parse/error.rs:103-148 `WindowError`. -/
inductive WindowError where
  | consumeWouldExceedLimit (offset requested limit : Nat)
  | openWouldExceedBuffer (bytesLeft request : Nat)
  | openWouldExceedWindow (limit request : Nat)
  | closeWithResidue (residual : Nat)
  | closeWithoutWindow
  | offsetOverflow (excess : Nat)
  deriving DecidableEq, Repr

/-- The tag types implementing `TagType` (src/parse/error.rs:486-508). -/
inductive TagWidth where
  | u8 | u16 | u30
  deriving DecidableEq, Repr

/-- src/parse/error.rs:216-234 `TokenError`; the three `InvalidTag*` variants are one constructor
indexed by the tag width, and `TagError` (689-693) is inlined without `for_type`. -/
inductive TokenError where
  | invalidBoolean (b : Byte)
  | invalidTag (w : TagWidth) (actual : Nat) (expected : Option (List Nat))
  | nonTerminating (buf : Bytes)
  | nonNullPaddingByte (padding : Bytes)
  deriving DecidableEq, Repr

/-- src/parse/error.rs:292-296 `InternalError`. -/
inductive InternalError where
  | sliceCoerceFailure
  | noValidTags
  deriving DecidableEq, Repr

/-- src/error.rs:23-33 `WidthError`. -/
inductive WidthError where
  | tooWide (limit actual : Nat)
  | wrongWidth (exact actual : Nat)
  | invalidWidth (valid : List Nat) (actual : Nat)
  deriving DecidableEq, Repr

/-- src/error.rs:67-72 `LengthError`. -/
inductive LengthError where
  | tooLong (limit actual : Nat)
  | wrongLength (exact actual : Nat)
  deriving DecidableEq, Repr

/-- src/error.rs:149-155 `BoundsError<Ext>`. -/
inductive BoundsError (ext : Type) where
  | underflow (min val : ext)
  | overflow (max val : ext)
  | invalidBounds (min max : ext)
  | illegalNegative (min val : ext)
  | failed
  deriving DecidableEq, Repr

/-- src/parse/error.rs:350-368 `ExternalError`; `UncoercableString` and `GenericError` carry opaque
payloads and are never produced by the modelled code.  Floats are their bit patterns. -/
inductive ExternalError where
  | uncoercableString
  | intRangeViolation (e : BoundsError Int)
  | floatRangeViolation (e : BoundsError (BitVec 64))
  | widthViolation (e : WidthError)
  | lengthViolation (e : LengthError)
  | genericError
  deriving DecidableEq, Repr

/-- src/parse/error.rs:27-47 `ParseError`. -/
inductive ParseError where
  | window (e : WindowError)
  | internal (e : InternalError)
  | external (e : ExternalError)
  | token (e : TokenError)
  deriving DecidableEq, Repr

/-- Parser code: state `σ`, errors `ParseError`. -/
abbrev PM (σ α : Type) : Type := M σ ParseError α

end Verif
