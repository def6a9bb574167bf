import Verif.StateText
import Verif.ErrorPretty
/-
`{:#?}` of parsers and builders.  `none` stands for a panic.
-/
namespace Verif
open PrettyOf

/-- src/internal/offset.rs:279-284, the derived `Debug` of `ContextOffset`; :219-221 `FrameStack`, :19-21 `Index`.  The vector has the
top of the stack last, the list of the model has it first. -/
def ContextOffset.pretty (o : ContextOffset) : Text :=
  struct (.named text! "ContextOffset" fun i => if i = 0 then text! "abs" else if i = 1 then text! "frames" else text! "cur")
    [decimal o.abs, tuple text! "FrameStack" (numbers o.frames.reverse), tuple text! "Index" (decimal o.cur)]

/-- src/parse/mod.rs:696-700, the derived `Debug` of `ByteParser`; `VecBuffer` (src/parse/buffer.rs:224-228) hands over the formatter. -/
def ByteParser.pretty (s : ByteParser) : Text := two text! "ByteParser" text! "buffer" text! "offset" (bytes s.buffer) s.off.pretty

/-- src/parse/mod.rs:858-863, the derived `Debug` of `MemoParser`. -/
def MemoParser.pretty (s : MemoParser) : Text :=
  struct (.named text! "MemoParser" fun i => if i = 0 then text! "buffer" else if i = 1 then text! "offset" else text! "munches")
    [bytes s.buffer, s.off.pretty, numbers s.munches]

/-- src/parse/mod.rs:1052-1055, the derived `Debug` of `SliceParser`; `ViewStack` (src/internal/view.rs:74-78) writes with `{:?}`, which
does not hand the flag on. -/
def SliceParser.pretty (s : SliceParser) : Text :=
  one text! "SliceParser" text! "view_stack" (['['] ++ DebugOf.commas (s.views.reverse.map DebugOf.sliceBuffer) ++ [']'])

/-- src/builder/memo.rs:43-49 `Debug for MemoBuilder`; `SplitVec` (src/internal/splitvec.rs:766-776) writes with `{:?}`. -/
def MemoBuilder.pretty (b : MemoBuilder) : Option Text := b.segs.debug.map (one text! "MemoBuilder" text! "segs")

/-- src/builder/memo.rs:104-111 `Debug for MemoBuffer`. -/
def MemoBuffer.pretty (m : MemoBuffer) : Text := two text! "MemoBuffer" text! "buf" text! "lens" (bytes m.buf) (numbers m.lens)

end Verif
