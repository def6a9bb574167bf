import Verif.Builder
import Verif.Debug
import Verif.SliceParser
/-
`{:?}` of parsers and builders and of what they are made of, and `{}` of lists of segments' lengths.
`none` stands for a panic.  The alternate form `{:#?}` is in `Verif.StatePretty`.
-/
namespace Verif

namespace DebugOf

/-- `<usize as Debug>::fmt`. -/
def usize (n : Nat) : Text := decimal n

/-- src/internal/offset.rs:19-21, the derived `Debug` of `Index`. -/
def index (n : Nat) : Text := tuple text! "Index" (usize n)

/-- src/internal/offset.rs:219-221, the derived `Debug` of `FrameStack`.  The vector has the top of the stack last,
the list of the model has it first. -/
def frames (fs : List Nat) : Text := tuple text! "FrameStack" (debugList fs.reverse)

/-- src/parse/buffer.rs:23-25, the derived `Debug` of `SliceBuffer`. -/
def sliceBuffer (bs : Bytes) : Text := tuple text! "SliceBuffer" (bytes bs)

end DebugOf

/-- src/internal/offset.rs:279-284, the derived `Debug` of `ContextOffset`. -/
def ContextOffset.debug (o : ContextOffset) : Text :=
  text! "ContextOffset { abs: " ++ DebugOf.usize o.abs ++ text! ", frames: " ++ DebugOf.frames o.frames ++
    text! ", cur: " ++ DebugOf.index o.cur ++ text! " }"

/-- src/parse/mod.rs:696-700, the derived `Debug` of `ByteParser`; src/parse/buffer.rs:224-228 `Debug for VecBuffer`. -/
def ByteParser.debug (s : ByteParser) : Text :=
  text! "ByteParser { buffer: " ++ DebugOf.bytes s.buffer ++ text! ", offset: " ++ s.off.debug ++ text! " }"

/-- src/parse/mod.rs:858-863, the derived `Debug` of `MemoParser`. -/
def MemoParser.debug (s : MemoParser) : Text :=
  text! "MemoParser { buffer: " ++ DebugOf.bytes s.buffer ++ text! ", offset: " ++ s.off.debug ++
    text! ", munches: " ++ debugList s.munches ++ text! " }"

/-- src/parse/mod.rs:1052-1055, the derived `Debug` of `SliceParser`; src/internal/view.rs:74-78 `Debug for
ViewStack`.  The vector has the innermost view last, the list of the model has it first. -/
def SliceParser.debug (s : SliceParser) : Text :=
  text! "SliceParser { view_stack: " ++ ['['] ++ DebugOf.commas (s.views.reverse.map DebugOf.sliceBuffer) ++ [']'] ++
    text! " }"

/-- src/internal/splitvec.rs:305-309 `Debug for SpanBuffer`. -/
def SpanBuffer.debug (s : SpanBuffer) : Text :=
  text! "SpanBuffer(" ++ debugList s.stable ++ text! " >| " ++
    (match s.active with
      | none => text! "None"
      | some n => text! "Some(" ++ decimal n ++ text! ")") ++ text! ")"

/-- src/internal/splitvec.rs:311-320 `Display for SpanBuffer`. -/
def SpanBuffer.display (s : SpanBuffer) : Text :=
  debugList s.stable ++
    (match s.active with
      | none => []
      | some n => text! " + ~" ++ decimal n)

/-- src/internal/splitvec.rs:766-776 `Debug for SplitVec<u8>`. -/
def SplitVec.debug (s : SplitVec Byte) : Option Text := (debugSpans s.buffer s.spans.iter).map (text! "[|" ++ ·)

/-- src/builder/memo.rs:43-49 `Debug for MemoBuilder`. -/
def MemoBuilder.debug (b : MemoBuilder) : Option Text :=
  b.segs.debug.map fun t => text! "MemoBuilder { segs: " ++ t ++ text! " }"

/-- src/builder/memo.rs:104-111 `Debug for MemoBuffer`. -/
def MemoBuffer.debug (m : MemoBuffer) : Text :=
  text! "MemoBuffer { buf: " ++ DebugOf.bytes m.buf ++ text! ", lens: " ++ debugList m.lens ++ text! " }"

end Verif
