import Verif.ErrorPretty
import Verif.Lemmas.Lays
/-
The alternate form of `Debug` spreads what errors print over several lines.
-/
namespace Verif
open PrettyOf

/-- What is not modelled is printed alike, but for line breaks. -/
structure DebugWording.Spread (V W : DebugWording) : Prop where
  float : V.float = W.float
  floats : ∀ x, Word (W.float x)
  forType : V.forType = W.forType
  clean : '\n' ∉ W.forType
  utf8 : Spreads V.utf8 W.utf8
  generic : Spreads V.generic W.generic

theorem spreads_numbers (l : List Nat) : Spreads (numbers l) (debugList l) := by
  have h := (each_decimal l).entries
  rw [← debugItems_commas] at h
  exact h

theorem spreads_two {name a b x y x' y' : Text} (hn : Word name) (ha : Word a) (hb : Word b) (hx : Spreads x x') (hy : Spreads y y') :
    Spreads (two name a b x y) (name ++ text! " { " ++ a ++ text! ": " ++ x' ++ text! ", " ++ b ++ text! ": " ++ y' ++ text! " }") := by
  have h := Each.struct (.cons hx (.cons hy .nil)) (sh := .named name fun i => if i = 0 then a else b)
    ⟨hn, fun i => by dsimp only; split <;> assumption⟩
  simpa [two, DebugOf.struct, DebugOf.labels, DebugOf.commas] using h

theorem spreads_one {name a x x' : Text} (hn : Word name) (ha : Word a) (hx : Spreads x x') :
    Spreads (one name a x) (name ++ text! " { " ++ a ++ text! ": " ++ x' ++ text! " }") := by
  have h := Each.struct (.cons hx .nil) (sh := .named name fun _ => a) ⟨hn, fun _ => ha⟩
  simpa [one, DebugOf.struct, DebugOf.labels, DebugOf.commas] using h

theorem spreads_three {name a b c x y z x' y' z' : Text} (hn : Word name) (ha : Word a) (hb : Word b) (hc : Word c)
    (hx : Spreads x x') (hy : Spreads y y') (hz : Spreads z z') :
    Spreads (struct (.named name fun i => if i = 0 then a else if i = 1 then b else c) [x, y, z])
      (name ++ text! " { " ++ a ++ text! ": " ++ x' ++ text! ", " ++ b ++ text! ": " ++ y' ++ text! ", " ++ c ++ text! ": " ++ z' ++ text! " }") := by
  have h := Each.struct (.cons hx (.cons hy (.cons hz .nil))) (sh := .named name fun i => if i = 0 then a else if i = 1 then b else c)
    ⟨hn, fun i => by
      dsimp only
      repeat' split
      all_goals assumption⟩
  simpa [DebugOf.struct, DebugOf.labels, DebugOf.commas] using h

local macro "word" : term => `(word_text (by decide) (by decide))

theorem num (n : Nat) : Spreads (decimal n) (decimal n) := (word_decimal n).spreads

theorem WindowError.spreads : ∀ e : WindowError, Spreads e.pretty e.debug
  | .consumeWouldExceedLimit a b c => by
    simpa [WindowError.pretty, WindowError.debug] using spreads_three (name := text! "ConsumeWouldExceedLimit") (a := text! "offset") (b := text! "requested") (c := text! "limit")
      word word word word (num a) (num b) (num c)
  | .openWouldExceedBuffer a b => by
    simpa [WindowError.pretty, WindowError.debug] using spreads_two (name := text! "OpenWouldExceedBuffer") (a := text! "bytes_left") (b := text! "request") word word word (num a) (num b)
  | .openWouldExceedWindow a b => by
    simpa [WindowError.pretty, WindowError.debug] using spreads_two (name := text! "OpenWouldExceedWindow") (a := text! "limit") (b := text! "request") word word word (num a) (num b)
  | .closeWithResidue a => by
    simpa [WindowError.pretty, WindowError.debug] using spreads_one (name := text! "CloseWithResidue") (a := text! "residual") word word (num a)
  | .closeWithoutWindow => Word.spreads word
  | .offsetOverflow a => by
    simpa [WindowError.pretty, WindowError.debug] using spreads_one (name := text! "OffsetOverflow") (a := text! "excess") word word (num a)

theorem spreads_tag (n : Nat) {t : Text} (ht : '\n' ∉ t) (v : Option (List Nat)) : Spreads (tagPretty n t v) (tagDebug n t v) := by
  have hq : Spreads ('"' :: t ++ ['"']) ('"' :: t ++ ['"']) := Word.spreads (word_text (by decide) (by simp [ht]))
  have h := fun {x y : Text} (hv : Spreads x y) => spreads_three (name := text! "TagError") (a := text! "actual") (b := text! "for_type")
    (c := text! "expected") word word word word (num n) hq hv
  cases v with
  | none => simpa [tagPretty, tagDebug] using h (Word.spreads (t := text! "None") word)
  | some l => simpa [tagPretty, tagDebug, DebugOf.tuple] using h ((spreads_numbers l).tuple (name := text! "Some") word)

theorem TokenError.spreads {V W : DebugWording} (h : V.Spread W) : ∀ e : TokenError, Spreads (e.pretty V) (e.debug W)
  | .invalidBoolean b => (num b.toNat).tuple (name := text! "InvalidBoolean") word
  | .invalidTag w n v => by
    have ht := spreads_tag n h.clean v
    simp only [TokenError.pretty, TokenError.debug, h.forType]
    cases w with
    | u8 => exact ht.tuple (name := text! "InvalidTagU8") word
    | u16 => exact ht.tuple (name := text! "InvalidTagU16") word
    | u30 => exact ht.tuple (name := text! "InvalidTagU30") word
  | .nonTerminating buf => (spreads_numbers (buf.map (·.toNat))).tuple (name := text! "NonTerminating") word
  | .nonNullPaddingByte p => by
    simpa [TokenError.pretty, TokenError.debug] using spreads_one (name := text! "NonNullPaddingByte") (a := text! "padding") word word (spreads_numbers (p.map (·.toNat)))

theorem spreads_unit {name : Text} (h : Word name) : Spreads (tuple name text! "()") (DebugOf.tuple name text! "()") :=
  Spreads.tuple h (Word.spreads word)

theorem InternalError.spreads : ∀ e : InternalError, Spreads e.pretty e.debug
  | .sliceCoerceFailure => (spreads_unit (name := text! "TryFromSliceError") word).tuple (name := text! "SliceCoerceFailure") word
  | .noValidTags => Word.spreads word

theorem WidthError.spreads : ∀ e : WidthError, Spreads e.pretty e.debug
  | .tooWide a b => by simpa [WidthError.pretty, WidthError.debug] using spreads_two (name := text! "TooWide") (a := text! "limit") (b := text! "actual") word word word (num a) (num b)
  | .wrongWidth a b => by simpa [WidthError.pretty, WidthError.debug] using spreads_two (name := text! "WrongWidth") (a := text! "exact") (b := text! "actual") word word word (num a) (num b)
  | .invalidWidth l b => by
    simpa [WidthError.pretty, WidthError.debug] using spreads_two (name := text! "InvalidWidth") (a := text! "valid") (b := text! "actual") word word word (spreads_numbers l) (num b)

theorem LengthError.spreads : ∀ e : LengthError, Spreads e.pretty e.debug
  | .tooLong a b => by simpa [LengthError.pretty, LengthError.debug] using spreads_two (name := text! "TooLong") (a := text! "limit") (b := text! "actual") word word word (num a) (num b)
  | .wrongLength a b => by simpa [LengthError.pretty, LengthError.debug] using spreads_two (name := text! "WrongLength") (a := text! "exact") (b := text! "actual") word word word (num a) (num b)

theorem BoundsError.spreads {ext : Type} {f : ext → Text} (hf : ∀ x, Word (f x)) : ∀ e : BoundsError ext, Spreads (e.pretty f) (e.debug f)
  | .underflow a b => by
    simpa [BoundsError.pretty, BoundsError.debug] using spreads_two (name := text! "Underflow") (a := text! "min") (b := text! "val") word word word (hf a).spreads (hf b).spreads
  | .overflow a b => by
    simpa [BoundsError.pretty, BoundsError.debug] using spreads_two (name := text! "Overflow") (a := text! "max") (b := text! "val") word word word (hf a).spreads (hf b).spreads
  | .invalidBounds a b => by
    simpa [BoundsError.pretty, BoundsError.debug] using spreads_two (name := text! "InvalidBounds") (a := text! "min") (b := text! "max") word word word (hf a).spreads (hf b).spreads
  | .illegalNegative a b => by
    simpa [BoundsError.pretty, BoundsError.debug] using spreads_two (name := text! "IllegalNegative") (a := text! "min") (b := text! "val") word word word (hf a).spreads (hf b).spreads
  | .failed => (spreads_unit (name := text! "TryFromIntError") word).tuple (name := text! "Failed") word

theorem ExternalError.spreads {V W : DebugWording} (h : V.Spread W) : ∀ e : ExternalError, Spreads (e.pretty V) (e.debug W)
  | .uncoercableString => h.utf8.tuple (name := text! "UncoercableString") word
  | .intRangeViolation e => (e.spreads word_signed).tuple (name := text! "IntRangeViolation") word
  | .floatRangeViolation e => by
    have := (e.spreads h.floats).tuple (name := text! "FloatRangeViolation") word
    simp only [ExternalError.pretty, h.float]
    exact this
  | .widthViolation e => e.spreads.tuple (name := text! "WidthViolation") word
  | .lengthViolation e => e.spreads.tuple (name := text! "LengthViolation") word
  | .genericError => h.generic.tuple (name := text! "GenericError") word

theorem ParseError.spreads {V W : DebugWording} (h : V.Spread W) : ∀ e : ParseError, Spreads (e.pretty V) (e.debug W)
  | .window e => e.spreads.tuple (name := text! "Window") word
  | .internal e => e.spreads.tuple (name := text! "Internal") word
  | .external e => (e.spreads h).tuple (name := text! "External") word
  | .token e => (e.spreads h).tuple (name := text! "Token") word

theorem debugSpans_clean : ∀ (ls : List Nat) (b : Bytes) (r : Text), debugSpans b ls = some r → '\n' ∉ r
  | [], _, r, h => by cases h; decide
  | l :: ls, b, r, h => by
    unfold debugSpans at h
    split at h
    · cases hr : debugSpans (b.drop l) ls with
      | none => rw [hr] at h; cases h
      | some r' =>
        rw [hr] at h
        cases h
        have h1 := debugSpans_clean ls _ r' hr
        have h2 := (spreads_numbers ((b.take l).map (·.toNat))).clean
        simp only [List.mem_append, not_or]
        exact ⟨⟨h2, by decide⟩, h1⟩
    · cases h

theorem Leftover.spreads : ∀ l : Leftover, AlikeOpt Spreads l.pretty l.debug
  | .empty => .some (Word.spreads word)
  | .windowless buf => .some ((spreads_numbers (buf.map (·.toNat))).tuple (name := text! "Windowless") word)
  | .windowed sbuf => by
    simp only [Leftover.pretty, Leftover.debug]
    cases h : debugSpans sbuf.buffer sbuf.spans.iter with
    | none => exact .none
    | some r =>
      have hc := debugSpans_clean _ _ _ h
      have hw : Spreads (text! "[|" ++ r) (text! "[|" ++ r) := Word.spreads (word_text (by decide) (by simp [hc]))
      refine .some ?_
      simpa [DebugOf.tuple] using hw.tuple (name := text! "Windowed") word

theorem InvariantError.word {V W : DebugWording} (h : V.Spread W) : ∀ e : InvariantError, Word (e.debug W)
  | .caseUnexpected e => word_text (by decide) (by have := e.spreads.clean; simpa [InvariantError.debug] using this)
  | .kindUnexpected e => word_text (by decide) (by have := (e.spreads h).clean; simpa [InvariantError.debug] using this)
  | .unexpected e => word_text (by decide) (by have := (e.spreads h).clean; simpa [InvariantError.debug] using this)

end Verif
