import Verif.Lemmas.StatePretty
import Verif.Props.Pretty
import Verif.Props.StateText
/-
C103 for parsers and builders: the alternate form `{:#?}` of `Debug`.
-/
namespace Verif
namespace Props

/-- C103: `{:#?}` of a parser or builder is `{:?}`, on several lines. -/
theorem C103_states :
    (∀ s : ByteParser, Place.mid.join s.pretty = s.debug) ∧ (∀ s : MemoParser, Place.mid.join s.pretty = s.debug) ∧
    (∀ s : SliceParser, Place.mid.join s.pretty = s.debug) ∧ (∀ b : MemoBuilder, b.pretty.map Place.mid.join = b.debug) ∧
    ∀ m : MemoBuffer, Place.mid.join m.pretty = m.debug := by
  refine ⟨fun s => s.spreads.join, fun s => s.spreads.join, fun s => s.spreads.join, fun b => ?_, fun m => m.spreads.join⟩
  have h := b.spreads
  generalize b.pretty = o at h
  generalize b.debug = o' at h
  cases h with
  | none => rfl
  | some h => exact congrArg some h.join

/-- C103: it tells apart what `{:?}` tells apart (C91): the state of a parser is determined. -/
theorem C103_parser_states :
    (∀ a b : ByteParser, a.pretty = b.pretty ↔ a = b) ∧ (∀ a b : MemoParser, a.pretty = b.pretty ↔ a = b) ∧
    (∀ a b : SliceParser, a.pretty = b.pretty ↔ a = b) ∧ ∀ m n : MemoBuffer, m.pretty = n.pretty ↔ m.eqv n = true := by
  obtain ⟨h1, h2, h3, _, h5⟩ := C103_states
  refine ⟨fun a b => ⟨fun h => ?_, fun h => by rw [h]⟩, fun a b => ⟨fun h => ?_, fun h => by rw [h]⟩,
    fun a b => ⟨fun h => ?_, fun h => by rw [h]⟩, fun m n => ⟨fun h => ?_, fun h => ?_⟩⟩
  · have := (C91_same_future ByteParser).1 a b (fun s => .ok s s) (by rw [← h1, ← h1, h])
    injection this
  · have := (C91_same_future MemoParser).2.1 a b (fun s => .ok s s) (by rw [← h2, ← h2, h])
    injection this
  · have := (C91_same_future SliceParser).2.2 a b (fun s => .ok s s) (by rw [← h3, ← h3, h])
    injection this
  · exact (C91_memo_buffer m n).mp (by rw [← h5, ← h5, h])
  · rw [MemoBuffer.eqv, Bool.and_eq_true, beq_iff_eq, beq_iff_eq] at h
    rw [MemoBuffer.pretty, MemoBuffer.pretty, h.1, h.2]

example : (ByteParser.fromBuffer [7, 8]).pretty = text!
"ByteParser {
    buffer: [
        7,
        8,
    ],
    offset: ContextOffset {
        abs: 2,
        frames: FrameStack(
            [],
        ),
        cur: Index(
            0,
        ),
    },
}" := by decide +kernel
/-- Views are printed on one line. -/
example : (SliceParser.fromBuffer [7, 8]).pretty = text!
"SliceParser {
    view_stack: [SliceBuffer([7, 8])],
}" := by decide +kernel

end Props
end Verif
