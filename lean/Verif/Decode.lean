import Verif.Cleanup
import Verif.Hex
/-
The entry points of decoding: `Decode::try_decode`, `decode`, `decode_memo` (src/conv/mod.rs:293-368) and the
conversions of inputs to parsers (src/parse/buffer.rs, src/parse/mod.rs:1278-1309).
-/
namespace Verif

/-- src/conv/error.rs:9-16 `DecodeError`. -/
inductive DecodeError where
  | conv (e : HexConvError)
  | parse (e : ParseError)
  | invariant (e : InvariantError)
  | nonEmpty (l : Leftover)

/-- What a caller gets: a value, an error, or no return.  (The parser does not outlive the call.) -/
abbrev DecodeOut (α : Type) := Out Unit DecodeError α

/-- The check made under the feature `check_complete_parse` (src/conv/mod.rs:303-308). -/
noncomputable def Backend.finish {α : Type} (cfg : Cfg) (k : Backend) (ret : α) (s : k.State) : DecodeOut α :=
  if cfg.completeParse then
    match k.cleanup cfg.prof s with
    | .ok (.ok res) _ => if !res.isEmpty then .err (.nonEmpty res) () else .ok ret ()
    | .ok (.error e) _ => .err (.invariant e) ()
    | .err e _ => .err (.parse e) ()
    | .panic => .panic
    | .ub => .ub
    | .diverge => .diverge
  else .ok ret ()

/-- src/conv/mod.rs:293-310 `Decode::try_decode` once the input has been turned into a buffer. -/
noncomputable def Codec.tryDecode {α : Type} (c : Codec α) (cfg : Cfg) (k : Backend) (buf : Bytes) : DecodeOut α :=
  match c.parse (k.ops cfg.prof) (k.init buf) with
  | .ok ret s => k.finish cfg ret s
  | .err e _ => .err (.parse e) ()
  | .panic => .panic
  | .ub => .ub
  | .diverge => .diverge

/-- Inputs of `try_decode` for `ByteParser` and `MemoParser`. -/
inductive Input where
  /-- `&[u8]`, `Vec<u8>`, `[u8; N]`, `&[u8; N]` -/
  | bytes (b : Bytes)
  | hex (h : HexString)
  /-- `&str`, `String`, `&String`, `Cow<str>` -/
  | text (s : List Char)

/-- Conversion to `VecBuffer` (src/parse/buffer.rs:230-308); `implicitHex` is the feature `implicit_hexstring`.
`none` is a panic. -/
def Input.toBuffer (implicitHex : Bool) : Input → Option (Except HexConvError Bytes)
  | .bytes b => some (.ok b)
  | .hex h => some (.ok h.intoInner)
  | .text s =>
    if implicitHex then
      match HexString.fromHex s with
      | none => none
      | some (.ok h) => some (.ok h.intoInner)
      | some (.error e) => some (.error e)
    else some (.ok (utf8 s))

/-- src/conv/mod.rs:293-310 `Decode::try_decode`. -/
noncomputable def Codec.tryDecodeFrom {α : Type} (c : Codec α) (cfg : Cfg) (implicitHex : Bool) (k : Backend) (inp : Input) :
    DecodeOut α :=
  match inp.toBuffer implicitHex with
  | none => .panic
  | some (.error e) => .err (.conv e) ()
  | some (.ok buf) => c.tryDecode cfg k buf

/-- `unwrap_or_else(|_| panic!(..))`. -/
def DecodeOut.unwrap {α : Type} : DecodeOut α → DecodeOut α
  | .err _ _ => .panic
  | o => o

/-- src/conv/mod.rs:354-367 `Decode::decode`. -/
noncomputable def Codec.decode {α : Type} (c : Codec α) (cfg : Cfg) (implicitHex : Bool) (inp : Input) : DecodeOut α :=
  DecodeOut.unwrap (c.tryDecodeFrom cfg implicitHex .byte inp)

/-- src/conv/mod.rs:327-339 `Decode::decode_memo`. -/
noncomputable def Codec.decodeMemo {α : Type} (c : Codec α) (cfg : Cfg) (implicitHex : Bool) (inp : Input) : DecodeOut α :=
  DecodeOut.unwrap (c.tryDecodeFrom cfg implicitHex .memo inp)

/-- `try_decode` of `()` is overridden (src/prim.rs:30-81): with the feature `check_complete_parse` it skips
parsing, without it the input is not even converted. -/
noncomputable def tryDecodeUnit (cfg : Cfg) (implicitHex : Bool) (k : Backend) (inp : Input) : DecodeOut Unit :=
  if cfg.completeParse then
    match inp.toBuffer implicitHex with
    | none => .panic
    | some (.error e) => .err (.conv e) ()
    | some (.ok buf) => k.finish cfg () (k.init buf)
  else .ok () ()

/-- `decode` of `()` (src/prim.rs:63-75, 89-93): with the feature `check_complete_parse` it unwraps what `try_decode` returns,
without it the input is not looked at. -/
noncomputable def decodeUnit (cfg : Cfg) (implicitHex : Bool) (inp : Input) : DecodeOut Unit :=
  if cfg.completeParse then DecodeOut.unwrap (tryDecodeUnit cfg implicitHex .byte inp) else .ok () ()

/-- `decode_memo` of `()` (src/prim.rs:50-61, 83-87). -/
noncomputable def decodeMemoUnit (cfg : Cfg) (implicitHex : Bool) (inp : Input) : DecodeOut Unit :=
  if cfg.completeParse then DecodeOut.unwrap (tryDecodeUnit cfg implicitHex .memo inp) else .ok () ()

end Verif
