import Verif.Decode
/-
The texts of errors: `Display` of every error type of the library (and the `Debug` texts those contain).  A text is
the list of its characters.
-/
namespace Verif

abbrev Text := List Char

/-- `text! "ab"` is the list `['a', 'b']`. -/
macro:max "text!" s:str : term => do
  let cs := (s.getString.toList.map Lean.Syntax.mkCharLit).toArray
  `(([$cs,*] : List Char))

/-- `{}` of an unsigned integer: decimal digits without leading zeros. -/
def decimal (n : Nat) : Text :=
  if h : n < 10 then [Char.ofNat (48 + n)] else decimal (n / 10) ++ [Char.ofNat (48 + n % 10)]
termination_by n
decreasing_by omega

/-- `{}` of a signed integer. -/
def signed : Int → Text
  | .ofNat n => decimal n
  | .negSucc n => '-' :: decimal (n + 1)

/-- `{:x}` of an unsigned integer. -/
def lowerHex (n : Nat) : Text :=
  if h : n < 16 then [hexDigit n] else lowerHex (n / 16) ++ [hexDigit (n % 16)]
termination_by n
decreasing_by omega

/-- `{:#0width$x}`: at least `width` characters, of which `0x` takes two. -/
def altHex (width n : Nat) : Text :=
  ['0', 'x'] ++ List.replicate (width - (2 + (lowerHex n).length)) '0' ++ lowerHex n

/-- The items of a list as `{:?}` prints them between the brackets. -/
def debugItems : List Nat → Text
  | [] => []
  | [n] => decimal n
  | n :: ns => decimal n ++ [',', ' '] ++ debugItems ns

/-- `{:?}` of a slice of unsigned integers. -/
def debugList (l : List Nat) : Text := ['['] ++ debugItems l ++ [']']

/-- What an error carries that the model of errors leaves out, and what the standard library prints:
`float`: `{}` of an `f64` with these bits; `forType`: the type name of a `TagError`;
`failed`: the text of a `TryFromIntError`; `utf8`: of a `Utf8Error`/`FromUtf8Error`; `generic`: of a boxed error. -/
structure Wording where
  float : BitVec 64 → Text
  forType : Text
  failed : Text
  utf8 : Text
  generic : Text

/-- src/parse/error.rs:156-205 `Display for WindowError`. -/
def WindowError.text : WindowError → Text
  | .consumeWouldExceedLimit offset requested limit =>
    text! "cannot increment offset by " ++ decimal requested ++ text! " bytes (currently at byte " ++ decimal offset ++
      text! " out of limit " ++ decimal limit ++ text! ")"
  | .openWouldExceedBuffer bytesLeft request =>
    if bytesLeft = 0 then
      text! "cannot open " ++ decimal request ++
        text! "-byte context window: parse-buffer has been fully consumed"
    else
      text! "cannot open " ++ decimal request ++ text! "-byte context window: parse-buffer has only " ++
        decimal bytesLeft ++ text! " bytes remaining"
  | .openWouldExceedWindow limit request =>
    text! "Cannot open " ++ decimal request ++ text! "-byte context window: wider than current window (" ++
      decimal limit ++ text! " bytes)"
  | .closeWithResidue residual =>
    text! "cannot close context window with " ++ decimal residual ++ text! " residual bytes"
  | .closeWithoutWindow => text! "no context window to close"
  | .offsetOverflow excess =>
    text! "BUG: detected an offset that exceeds the current limit by " ++ decimal excess ++ text! " bytes"

/-- `std::mem::size_of::<T>()` of the tag types. -/
def TagWidth.size : TagWidth → Nat
  | .u8 => 1
  | .u16 => 2
  | .u30 => 4

/-- src/parse/error.rs:739-753 `Display for TagError<T>`. -/
def tagText (w : TagWidth) (actual : Nat) (forType : Text) : Text :=
  text! "unexpected discriminant " ++ altHex (w.size * 2) actual ++ text! " for enum-type " ++ forType

/-- src/parse/error.rs:242-265 `Display for TokenError`. -/
def TokenError.text (W : Wording) : TokenError → Text
  | .invalidBoolean b => text! "invalid boolean encoding 0x" ++ fmt02x b
  | .invalidTag w actual _ => text! "invalid tag: " ++ tagText w actual W.forType
  | .nonTerminating buf => writeHex text! "element failed to terminate: " buf
  | .nonNullPaddingByte padding => writeHex text! "non-null byte found in padding: " padding

/-- src/parse/error.rs:310-321 `Display for InternalError`. -/
def InternalError.text : InternalError → Text
  | .sliceCoerceFailure => text! "failed to coerce from byte-slice to fixed-length array"
  | .noValidTags => text! "cannot parse enum with no known-valid discriminants"

/-- src/error.rs:35-54 `Display for WidthError`. -/
def WidthError.text : WidthError → Text
  | .tooWide limit actual =>
    decimal actual ++ text! "-byte value exceeded limit of " ++ decimal limit ++ text! " bytes"
  | .wrongWidth exact actual =>
    decimal actual ++ text! "-byte value violated requirement of " ++ decimal exact ++ text! " bytes"
  | .invalidWidth valid actual =>
    text! "byte-length " ++ decimal actual ++ text! " of value not in set " ++ debugList valid ++
      text! " of valid lengths"

/-- src/error.rs:74-93 `Display for LengthError`. -/
def LengthError.text : LengthError → Text
  | .tooLong limit actual =>
    decimal actual ++ text! "-element value exceeded limit of " ++ decimal limit ++ text! " elements"
  | .wrongLength exact actual =>
    decimal actual ++ text! "-element value violated requirement of " ++ decimal exact ++ text! " elements"

/-- src/error.rs:267-298 `Display for BoundsError<Ext>`; `num` is `Display` of `Ext`. -/
def BoundsError.text {ext : Type} (num : ext → Text) (failed : Text) : BoundsError ext → Text
  | .underflow min val =>
    text! "provided value " ++ num val ++ text! " less than minimum bound " ++ num min
  | .overflow max val =>
    text! "provided value " ++ num val ++ text! " greater than maximum bound " ++ num max
  | .invalidBounds min max =>
    text! "min <= max is not satisfied for the range (" ++ num min ++ text! "," ++ num max ++ text! ")"
  | .failed => text! "could not convert for bounds-checking: " ++ failed
  | .illegalNegative min val =>
    text! "negative value " ++ num val ++
      text! " cannot be interpreted as a positive offset from minimum bound " ++ num min ++ text! " > 0"

/-- src/parse/error.rs:409-437 `Display for ExternalError`. -/
def ExternalError.text (W : Wording) : ExternalError → Text
  | .uncoercableString => text! "parsed byte-array could not be coerced to String: " ++ W.utf8
  | .intRangeViolation e => e.text signed W.failed
  | .floatRangeViolation e => e.text W.float W.failed
  | .widthViolation e => e.text
  | .lengthViolation e => e.text
  | .genericError => W.generic

/-- src/parse/error.rs:60-69 `Display for ParseError`. -/
def ParseError.text (W : Wording) : ParseError → Text
  | .window e => e.text
  | .internal e => e.text
  | .external e => e.text W
  | .token e => e.text W

/-- src/error.rs:118-129 `Display for HexConvError`. -/
def HexConvError.text : HexConvError → Text
  | .oddParity _ => text! "hex-conversion failed on odd-length string"
  | .nonHex _ => text! "hex-conversion failed on non-hex character"

/-- src/error.rs:107-116 `Debug for HexConvError`. -/
def HexConvError.debug : HexConvError → Text
  | .oddParity s => text! "non-even length-parity for string `" ++ s ++ text! "`"
  | .nonHex s => text! "non-hex character found in string `" ++ s ++ text! "`"

/-- src/parse/mod.rs:645-658 `Display for InvariantError`. -/
def InvariantError.text (W : Wording) : InvariantError → Text
  | .caseUnexpected e => text! "unexpected window-error case: " ++ e.text
  | .kindUnexpected e => text! "unexpected non-window error: " ++ e.text W
  | .unexpected e => text! "unexpected error: " ++ e.text W

/-- The loop of src/internal/splitvec.rs:766-776 `Debug for SplitVec<u8>`; `none` is an out-of-range slice. -/
def debugSpans : Bytes → List Nat → Option Text
  | _, [] => some [']']
  | buf, l :: ls =>
    if l ≤ buf.length then
      (debugSpans (buf.drop l) ls).map fun r => debugList ((buf.take l).map (·.toNat)) ++ ['|'] ++ r
    else none

/-- src/parse/mod.rs:479-496, the derived `Debug` of `LeftoverState`. -/
def Leftover.debug : Leftover → Option Text
  | .empty => some text! "Empty"
  | .windowless buf => some (text! "Windowless(" ++ debugList (buf.map (·.toNat)) ++ text! ")")
  | .windowed sbuf =>
    (debugSpans sbuf.buffer sbuf.spans.iter).map fun r => text! "Windowed([|" ++ r ++ text! ")"

/-- src/conv/error.rs:42-66 `Display for DecodeError`; `none` is a panic while printing. -/
def DecodeError.text (W : Wording) : DecodeError → Option Text
  | .conv e => some (text! "hex conversion encountered error: " ++ e.text)
  | .parse e => some (text! "parser encountered error: " ++ e.text W)
  | .invariant e => some (text! "invariant failed during cleanup: " ++ e.text W)
  | .nonEmpty l => l.debug.map (text! "parser object had non-empty left-over state on cleanup: " ++ ·)

end Verif
