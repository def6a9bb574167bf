import Verif.StatePretty
import Verif.Lemmas.ErrorPretty
/-
The alternate form of `Debug` spreads what parsers and builders print over several lines.
-/
namespace Verif
open PrettyOf

local macro "word" : term => `(word_text (by decide) (by decide))

theorem ContextOffset.spreads (o : ContextOffset) : Spreads o.pretty o.debug := by
  simpa [ContextOffset.pretty, ContextOffset.debug, DebugOf.frames, DebugOf.index, DebugOf.usize, DebugOf.tuple] using
    spreads_three (name := text! "ContextOffset") (a := text! "abs") (b := text! "frames") (c := text! "cur") word word word word
      (num o.abs) ((spreads_numbers o.frames.reverse).tuple (name := text! "FrameStack") word)
      ((num o.cur).tuple (name := text! "Index") word)

theorem ByteParser.spreads (s : ByteParser) : Spreads s.pretty s.debug := by
  simpa [ByteParser.pretty, ByteParser.debug] using
    spreads_two (name := text! "ByteParser") (a := text! "buffer") (b := text! "offset") word word word (spreads_bytes s.buffer) s.off.spreads

theorem MemoParser.spreads (s : MemoParser) : Spreads s.pretty s.debug := by
  simpa [MemoParser.pretty, MemoParser.debug] using
    spreads_three (name := text! "MemoParser") (a := text! "buffer") (b := text! "offset") (c := text! "munches") word word word word
      (spreads_bytes s.buffer) s.off.spreads (spreads_numbers s.munches)

theorem commas_clean : ∀ ts : List Text, (∀ t ∈ ts, '\n' ∉ t) → '\n' ∉ DebugOf.commas ts
  | [], _ => by decide
  | [t], h => h t (.head _)
  | t :: u :: ts, h => by
    have h1 := h t (.head _)
    have h2 := commas_clean (u :: ts) fun x hx => h x (.tail _ hx)
    show '\n' ∉ t ++ text! ", " ++ DebugOf.commas (u :: ts)
    simp only [List.mem_append, not_or]
    exact ⟨⟨h1, by decide⟩, h2⟩

theorem SliceParser.spreads (s : SliceParser) : Spreads s.pretty s.debug := by
  have hv : '\n' ∉ DebugOf.commas (s.views.reverse.map DebugOf.sliceBuffer) := by
    refine commas_clean _ fun t ht => ?_
    obtain ⟨bs, _, rfl⟩ := List.mem_map.mp ht
    exact ((spreads_bytes bs).tuple (name := text! "SliceBuffer") word).clean
  have hw : Word (['['] ++ DebugOf.commas (s.views.reverse.map DebugOf.sliceBuffer) ++ [']']) :=
    word_text (c := '[') (by decide) (by
      show '\n' ∉ ['['] ++ DebugOf.commas (s.views.reverse.map DebugOf.sliceBuffer) ++ [']']
      rw [List.mem_append, List.mem_append, not_or, not_or]
      exact ⟨⟨by decide, hv⟩, by decide⟩)
  have h := spreads_one (name := text! "SliceParser") (a := text! "view_stack") word word hw.spreads
  simpa [SliceParser.pretty, SliceParser.debug] using h

theorem MemoBuilder.spreads (b : MemoBuilder) : AlikeOpt Spreads b.pretty b.debug := by
  have h : ∀ t, b.segs.debug = some t → Word t := by
    intro t ht
    unfold SplitVec.debug at ht
    cases hr : debugSpans b.segs.buffer b.segs.spans.iter with
    | none => rw [hr] at ht; cases ht
    | some r =>
      rw [hr] at ht
      cases ht
      exact word_text (by decide) (by have := debugSpans_clean _ _ _ hr; simp [this])
  unfold MemoBuilder.pretty MemoBuilder.debug
  cases ht : b.segs.debug with
  | none => exact .none
  | some t =>
    refine .some ?_
    simpa using spreads_one (name := text! "MemoBuilder") (a := text! "segs") word word (h t ht).spreads

theorem MemoBuffer.spreads (m : MemoBuffer) : Spreads m.pretty m.debug := by
  simpa [MemoBuffer.pretty, MemoBuffer.debug] using
    spreads_two (name := text! "MemoBuffer") (a := text! "buf") (b := text! "lens") word word word (spreads_bytes m.buf) (spreads_numbers m.lens)

end Verif
