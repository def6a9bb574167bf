import Verif.ByteParser
import Verif.SliceParser
import Verif.Codec.Basic
/-
The three parsers as one family, so that statements can quantify over them.
-/
namespace Verif

/-- The implementations of `Parser` (src/parse/mod.rs:697, 859, 1053). -/
inductive Backend where
  | byte | memo | slice
  deriving DecidableEq, Repr

namespace Backend

def State : Backend → Type
  | .byte => ByteParser
  | .memo => MemoParser
  | .slice => SliceParser

def ops (p : Profile) : (k : Backend) → ParserOps k.State
  | .byte => ByteParser.ops p
  | .memo => MemoParser.ops p
  | .slice => SliceParser.ops

/-- A parser over an input: `from_buffer` (src/parse/mod.rs:710, 893, 1067). -/
def init : (k : Backend) → Bytes → k.State
  | .byte => ByteParser.fromBuffer
  | .memo => MemoParser.fromBuffer
  | .slice => SliceParser.fromBuffer

end Backend

end Verif
