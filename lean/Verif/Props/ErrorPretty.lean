import Verif.Lemmas.ErrorPretty
import Verif.Props.Pretty
import Verif.Props.ErrorDebug
/-
C103 for errors: the alternate form `{:#?}` of `Debug`.
-/
namespace Verif.Props

/-- C103: `{:#?}` of a parse error is `{:?}`, on several lines. -/
theorem C103_parse_error (V W : DebugWording) (hV : V.Spread W) (e : ParseError) : Place.mid.join (e.pretty V) = e.debug W :=
  (e.spreads hV).join

/-- C103: two parse errors are printed alike by `{:#?}` exactly if they are by `{:?}` (C92). -/
theorem C103_parse_error_iff (V W : DebugWording) (hV : V.Spread W) (hf : FloatWord W.float) (ht : '"' ∉ W.forType) (e e' : ParseError) :
    e.pretty V = e'.pretty V ↔ SameDebug W.float e e' := by
  constructor
  · intro h
    refine (C92_iff W hf ht e e').mp ?_
    rw [← C103_parse_error V W hV, ← C103_parse_error V W hV, h]
  · intro h
    cases h with
    | same => rfl
    | @floats a b h =>
      have : a.pretty W.float = b.pretty W.float := by
        cases a <;> cases b <;> simp only [mapBounds] at h <;> first
          | (cases h; done)
          | rfl
          | (injection h with h₁ h₂; simp only [BoundsError.pretty, h₁, h₂])
      simp only [ParseError.pretty, ExternalError.pretty, hV.float, this]

/-- C103: errors of decoding likewise; the text that was not hexadecimal is shown as it is, and must not hold line breaks itself. -/
theorem C103_decode_error (V W : DebugWording) (hV : V.Spread W) (e : DecodeError) (he : ∀ s, e = .conv (.oddParity s) ∨ e = .conv (.nonHex s) → '\n' ∉ s) :
    (e.pretty V W).map Place.mid.join = e.debug W := by
  have key : AlikeOpt Spreads (e.pretty V W) (e.debug W) := by
    cases e with
    | conv e =>
      refine .some ?_
      have : Word e.debug := by
        cases e with
        | oddParity s => exact word_text (by decide) (by have := he s (.inl rfl); simpa [HexConvError.debug] using this)
        | nonHex s => exact word_text (by decide) (by have := he s (.inr rfl); simpa [HexConvError.debug] using this)
      exact this.spreads.tuple (name := text! "Conv") (word_text (by decide) (by decide))
    | parse e => exact .some ((e.spreads hV).tuple (name := text! "Parse") (word_text (by decide) (by decide)))
    | invariant e => exact .some ((e.word hV).spreads.tuple (name := text! "Invariant") (word_text (by decide) (by decide)))
    | nonEmpty l => exact l.spreads.map fun _ _ h => h.tuple (name := text! "NonEmpty") (word_text (by decide) (by decide))
  generalize e.pretty V W = o at key
  generalize e.debug W = o' at key
  cases key with
  | none => rfl
  | some h => exact congrArg some h.join

/-- C103: with line breaks in it, the text that was not hexadecimal is moved to the right with everything else, so that
the text without line breaks and indentation is not what `{:?}` prints. -/
theorem C103_decode_error_breaks (V W : DebugWording) :
    let s := text! "a" ++ ['\n'] ++ text! "b"
    (DecodeError.conv (.nonHex s)).pretty V W = some (text! "Conv(" ++ '\n' :: entry (text! "non-hex character found in string `" ++ s ++ text! "`") ++ text! ")") ∧
    ((DecodeError.conv (.nonHex s)).pretty V W).map Place.mid.join ≠ (DecodeError.conv (.nonHex s)).debug W := by
  intro s
  refine ⟨?_, ?_⟩
  · show some (PrettyOf.tuple _ _) = _
    rw [PrettyOf.tuple, item_entry]
    simp [HexConvError.debug]
  · show some (Place.mid.join (PrettyOf.tuple text! "Conv" (text! "non-hex character found in string `" ++ s ++ text! "`"))) ≠
      some (text! "Conv(" ++ (text! "non-hex character found in string `" ++ s ++ text! "`") ++ text! ")")
    decide +kernel

/-! ### examples -/

private def plain : DebugWording := ⟨fun _ => text! "1.5", text! "T", text! "E(1, 2)", text! "G"⟩
private def several : DebugWording := ⟨fun _ => text! "1.5", text! "T", PrettyOf.struct (.tuple text! "E") [text! "1", text! "2"], text! "G"⟩

private theorem several_plain : several.Spread plain where
  float := rfl
  floats _ := word_text (by decide) (by decide)
  forType := rfl
  clean := by decide
  utf8 := Each.struct (sh := .tuple text! "E") (.cons (Word.spreads (word_text (by decide) (by decide)))
    (.cons (Word.spreads (word_text (by decide) (by decide))) .nil)) (word_text (by decide) (by decide))
  generic := Word.spreads (word_text (by decide) (by decide))

example : FloatWord plain.float := fun _ => by show ∀ c ∈ text! "1.5", _; decide
example : (ParseError.token (.invalidTag .u8 7 (some [0, 1]))).pretty several = text!
"Token(
    InvalidTagU8(
        TagError {
            actual: 7,
            for_type: \"T\",
            expected: Some(
                [
                    0,
                    1,
                ],
            ),
        },
    ),
)" := by decide +kernel
example : (ParseError.window (.consumeWouldExceedLimit 3 2 4)).pretty several = text!
"Window(
    ConsumeWouldExceedLimit {
        offset: 3,
        requested: 2,
        limit: 4,
    },
)" := by decide +kernel

end Verif.Props
