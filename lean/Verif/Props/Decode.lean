import Verif.Lemmas.Width
import Verif.Decode
import Verif.Props.Cleanup
import Verif.Lemmas.Sound
/-
C09, C43, C46: the entry points of decoding, for all schema types.
-/
namespace Verif.Props

open Codec

/-! ### the outcome of `try_decode` -/

/-- `try_decode` when parsing ends in a known way. -/
theorem tryDecode_cases {α : Type} {win : Prop} {c : Codec α} {cfg : Cfg} {d : D α} (h : c.On win cfg d) (k : Backend)
    {buf : Bytes} (hb : buf.length ≤ isizeMax) :
    match d buf with
    | .ok a rest => ∃ s, k.Holds rest [] s ∧ c.tryDecode cfg k buf = k.finish cfg a s
    | .err e => (∃ e', c.tryDecode cfg k buf = .err (.parse e') () ∧ e'.kind = e) ∨
        (win ∧ k ≠ .slice ∧ cfg.prof = .debug ∧ c.tryDecode cfg k buf = .panic)
    | .panic => c.tryDecode cfg k buf = .panic
    | .diverge => c.tryDecode cfg k buf = .diverge
    | .wild => True := by
  have hm := h k buf [] _ (k.holds_init hb)
  cases hd : d buf with
  | ok a rest =>
    rw [hd] at hm
    obtain ⟨s, e, hs⟩ := hm
    exact ⟨s, hs, by rw [Codec.tryDecode, e]⟩
  | err e =>
    rw [hd] at hm
    rcases hm with ⟨e', s', he, hk⟩ | ⟨⟨hw, hp⟩, he⟩
    · exact .inl ⟨e', by rw [Codec.tryDecode, he], hk⟩
    · refine .inr ⟨hw, ?_, ?_, by rw [Codec.tryDecode, he]⟩
      · rintro rfl; exact hp
      · cases k
        · exact hp
        · exact hp
        · exact hp.elim
  | panic => rw [hd] at hm; show _ = _; rw [Codec.tryDecode, show c.parse _ _ = .panic from hm]
  | diverge => rw [hd] at hm; show _ = _; rw [Codec.tryDecode, show c.parse _ _ = .diverge from hm]
  | wild => trivial

theorem finish_plain {α : Type} {cfg : Cfg} (hc : cfg.completeParse = false) (k : Backend) (a : α) (s : k.State) :
    k.finish cfg a s = .ok a () := by simp [Backend.finish, hc]

theorem finish_complete {α : Type} {cfg : Cfg} (hc : cfg.completeParse = true) {k : Backend} (hk : k ≠ .slice) (a : α)
    {rest : Bytes} {s : k.State} (h : k.Holds rest [] s) :
    k.finish cfg a s = if rest = [] then .ok a () else .err (.nonEmpty (.windowless rest)) () := by
  obtain ⟨l, s', e, _, _, _, _, h1, _, h2⟩ := C41_cleanup cfg.prof k hk rest [] s h
  have hl := h1 rfl
  unfold Backend.finish
  rw [if_pos hc, e]
  by_cases hr : rest = []
  · rw [if_pos hr]
    have := h2.mpr ⟨hr, rfl⟩
    simp [this]
  · rw [if_neg hr]
    have : l.isEmpty = false := by
      cases hi : l.isEmpty with
      | false => rfl
      | true => exact absurd (h2.mp hi).1 hr
    rw [if_neg hr] at hl
    simp only [this, Bool.not_false, if_true]
    rw [hl]

theorem slice_views {v : Bytes} {vs : List Bytes} {s : SliceParser} (h : Backend.Holds .slice v vs s) : s.views = v :: vs := by
  obtain ⟨pos, h, _⟩ := h
  exact h

theorem finish_slice {α : Type} {cfg : Cfg} (hc : cfg.completeParse = true) (a : α) {rest : Bytes} {s : SliceParser}
    (h : Backend.Holds .slice rest [] s) :
    ∃ l, Backend.finish cfg .slice a s = .err (.nonEmpty l) () ∧ leftBytes l = rest := by
  obtain ⟨l, e, h1, _, _, h2⟩ := C41_slice cfg.prof s
  rw [slice_views h] at h1 h2
  refine ⟨l, ?_, by simpa using h1⟩
  have : l.isEmpty = false := by
    cases hi : l.isEmpty with
    | false => rfl
    | true => exact absurd (h2.mp hi) (by simp)
  unfold Backend.finish
  rw [if_pos hc]
  show (match Backend.cleanup cfg.prof .slice s with | _ => _) = _
  rw [e]
  simp [this]

/-! ### C43 -/

/-- What `try_decode` returns has been read from the front of the input. -/
theorem tryDecode_inv {cfg : Cfg} {s : Schema} (hz : s.sized = true) {k : Backend} {buf : Bytes} (hb : buf.length ≤ isizeMax)
    {a : s.Val} (he : (s.codec cfg).tryDecode cfg k buf = .ok a ()) :
    ∃ rest st, s.dec cfg buf = .ok a rest ∧ k.Holds rest [] st ∧ k.finish cfg a st = .ok a () := by
  unfold Codec.tryDecode at he
  split at he
  · rename_i x st hp
    obtain ⟨rest, h1, h2⟩ := s.inv cfg hz (k.holds_init hb) hp
    have hx : x = a := by
      unfold Backend.finish at he
      split at he
      · split at he
        · split at he <;> cases he
          rfl
        all_goals cases he
      · cases he; rfl
    subst hx
    exact ⟨rest, st, h1, h2, he⟩
  all_goals cases he

/-- C43: without the complete-parse check, `try_decode` succeeds with a value exactly if the input starts with
an encoding accepted as that value; what follows is ignored. -/
theorem C43_without (cfg : Cfg) (hc : cfg.completeParse = false) (s : Schema) (hz : s.sized = true) (k : Backend)
    (buf : Bytes) (hb : buf.length ≤ isizeMax) (a : s.Val) :
    (s.codec cfg).tryDecode cfg k buf = .ok a () ↔ ∃ rest, (s.codec cfg).Decodes cfg buf a rest := by
  constructor
  · intro he
    obtain ⟨rest, _, hd, _⟩ := tryDecode_inv hz hb he
    exact ⟨rest, Parses.decodes (s.parses cfg) hd⟩
  · rintro ⟨rest, hd⟩
    obtain ⟨st, e, _⟩ := hd k [] _ (k.holds_init hb)
    rw [Codec.tryDecode, e]
    exact finish_plain hc k a st

/-- C43: with the check, `ByteParser` and `MemoParser` succeed with a value exactly if the input as a whole is
accepted as that value.  (Missing: `SliceParser`, see `C43_slice_fails`.) -/
theorem C43_with_partial (cfg : Cfg) (hc : cfg.completeParse = true) (s : Schema) (hz : s.sized = true) (k : Backend)
    (hk : k ≠ .slice) (buf : Bytes) (hb : buf.length ≤ isizeMax) (a : s.Val) :
    (s.codec cfg).tryDecode cfg k buf = .ok a () ↔ (s.codec cfg).Decodes cfg buf a [] := by
  constructor
  · intro he
    obtain ⟨rest, st, hd, hs, hf⟩ := tryDecode_inv hz hb he
    rw [finish_complete hc hk a hs] at hf
    by_cases hr : rest = []
    · rw [hr] at hd
      exact Parses.decodes (s.parses cfg) hd
    · rw [if_neg hr] at hf; cases hf
  · intro hd
    obtain ⟨st, e, hs⟩ := hd k [] _ (k.holds_init hb)
    rw [Codec.tryDecode, e]
    show k.finish cfg a st = _
    rw [finish_complete hc hk a hs, if_pos rfl]

/-- The code of a type is the same with and without the check. -/
theorem codec_complete (p : Profile) (enc pad b : Bool) (s : Schema) :
    s.codec ⟨p, enc, pad, b⟩ = s.codec ⟨p, enc, pad, false⟩ := s.codec_complete p enc pad b

/-- C43: the check never changes the value: what is returned with it is returned without it, by any parser. -/
theorem C43_same_value (p : Profile) (enc pad : Bool) (s : Schema) (hz : s.sized = true) (k k' : Backend)
    (buf : Bytes) (hb : buf.length ≤ isizeMax) (a : s.Val)
    (he : (s.codec ⟨p, enc, pad, true⟩).tryDecode ⟨p, enc, pad, true⟩ k buf = .ok a ()) :
    (s.codec ⟨p, enc, pad, false⟩).tryDecode ⟨p, enc, pad, false⟩ k' buf = .ok a () := by
  obtain ⟨rest, st, hd, hs, hf⟩ := tryDecode_inv hz hb he
  obtain ⟨st', e, _⟩ := Parses.decodes (s.parses ⟨p, enc, pad, true⟩) hd k' [] _ (k'.holds_init hb)
  rw [codec_complete] at e
  rw [Codec.tryDecode, e]
  exact finish_plain rfl k' a st'

/-- C43: trailing bytes are reported, exactly. For any codec. -/
theorem C43_trailing {α : Type} (c : Codec α) (cfg : Cfg) (hc : cfg.completeParse = true) (k : Backend) (hk : k ≠ .slice)
    (buf : Bytes) (hb : buf.length ≤ isizeMax) (a : α) (rest : Bytes) (hr : rest ≠ []) (hd : c.Decodes cfg buf a rest) :
    c.tryDecode cfg k buf = .err (.nonEmpty (.windowless rest)) () := by
  obtain ⟨st, e, hs⟩ := hd k [] _ (k.holds_init hb)
  rw [Codec.tryDecode, e]
  show k.finish cfg a st = _
  rw [finish_complete hc hk a hs, if_neg hr]

/-- C43: failures of `parse` are passed on unchanged, check or no check, by all parsers. -/
theorem C43_errors {α : Type} (c : Codec α) (cfg : Cfg) (k : Backend) (buf : Bytes) :
    (∀ e st, c.parse (k.ops cfg.prof) (k.init buf) = .err e st → c.tryDecode cfg k buf = .err (.parse e) ()) ∧
    (c.parse (k.ops cfg.prof) (k.init buf) = .panic → c.tryDecode cfg k buf = .panic) := by
  constructor
  · intro e st h; rw [Codec.tryDecode, h]
  · intro h; rw [Codec.tryDecode, h]

/-- C43 fails for `SliceParser`: with the check it never succeeds, because its base view counts as an open
window.  For any codec and any input it accepts. -/
theorem C43_slice_fails {α : Type} (c : Codec α) (cfg : Cfg) (hc : cfg.completeParse = true) (buf : Bytes)
    (hb : buf.length ≤ isizeMax) (a : α) (rest : Bytes) (hd : c.Decodes cfg buf a rest) :
    ∃ l, c.tryDecode cfg .slice buf = .err (.nonEmpty l) () ∧ leftBytes l = rest := by
  obtain ⟨st, e, hs⟩ := hd .slice [] _ (Backend.holds_init .slice hb)
  rw [Codec.tryDecode, e]
  exact finish_slice hc a hs

/-- … in particular it rejects the complete encoding of a byte. -/
theorem C43_fails : ∃ l, (Schema.codec ⟨.release, false, false, true⟩ (.int .u8)).tryDecode ⟨.release, false, false, true⟩ .slice [7] =
    .err (.nonEmpty l) () ∧ (Schema.codec ⟨.release, false, false, true⟩ (.int .u8)).Decodes ⟨.release, false, false, true⟩ [7] 7#8 [] := by
  have hd : (Schema.codec ⟨.release, false, false, true⟩ (.int .u8)).Decodes ⟨.release, false, false, true⟩ [7] 7#8 [] :=
    Parses.decodes (Schema.parses _ _) rfl
  obtain ⟨l, h, _⟩ := C43_slice_fails _ _ rfl [7] (by decide) _ _ hd
  exact ⟨l, h, hd⟩

/-- `try_decode` of `()`: with the check it is the same as for any other type … -/
theorem C43_unit_checked (cfg : Cfg) (hc : cfg.completeParse = true) (ih : Bool) (k : Backend) (inp : Input) :
    tryDecodeUnit cfg ih k inp = (Schema.codec cfg .unit).tryDecodeFrom cfg ih k inp := by
  unfold tryDecodeUnit Codec.tryDecodeFrom
  rw [if_pos hc]
  rfl

/-- … without it the input is not looked at; the only difference is that text that is not hex is accepted. -/
theorem C43_unit_unchecked (cfg : Cfg) (hc : cfg.completeParse = false) (ih : Bool) (k : Backend) (inp : Input) :
    tryDecodeUnit cfg ih k inp = .ok () () ∧
      (∀ buf, inp.toBuffer ih = some (.ok buf) → (Schema.codec cfg .unit).tryDecodeFrom cfg ih k inp = .ok () ()) := by
  refine ⟨by simp [tryDecodeUnit, hc], fun buf hi => ?_⟩
  rw [Codec.tryDecodeFrom, hi]
  exact finish_plain hc k () _

/-- `decode` and `decode_memo` of `()`: with the check they are those of any other type; without it they never panic, whatever
the input, whereas those of any other type that reads nothing panic on text that is not hex if text is taken for hex. -/
theorem C43_unit_decode (cfg : Cfg) (ih : Bool) (inp : Input) :
    (cfg.completeParse = true → decodeUnit cfg ih inp = (Schema.codec cfg .unit).decode cfg ih inp ∧
      decodeMemoUnit cfg ih inp = (Schema.codec cfg .unit).decodeMemo cfg ih inp) ∧
    (cfg.completeParse = false → decodeUnit cfg ih inp = .ok () () ∧ decodeMemoUnit cfg ih inp = .ok () () ∧
      ((∀ buf, inp.toBuffer ih ≠ some (.ok buf)) → (Schema.codec cfg .unit).decode cfg ih inp = .panic ∧
        (Schema.codec cfg .unit).decodeMemo cfg ih inp = .panic)) := by
  refine ⟨fun hc => ?_, fun hc => ⟨by simp [decodeUnit, hc], by simp [decodeMemoUnit, hc], fun h => ?_⟩⟩
  · simp only [decodeUnit, decodeMemoUnit, Codec.decode, Codec.decodeMemo, if_pos hc, C43_unit_checked cfg hc]
    exact ⟨rfl, rfl⟩
  · unfold Codec.decode Codec.decodeMemo Codec.tryDecodeFrom
    cases e : inp.toBuffer ih with
    | none => exact ⟨rfl, rfl⟩
    | some r => cases r with
      | error _ => exact ⟨rfl, rfl⟩
      | ok b => exact absurd e (h b)

/-- Such a text. -/
example : (∀ buf, (Input.text "zz".toList).toBuffer true ≠ some (.ok buf)) := fun _ => nofun

/-- `decode` and `decode_memo` return exactly what `try_decode` of their parser returns, and panic if it fails. -/
theorem C43_decode {α : Type} (c : Codec α) (cfg : Cfg) (ih : Bool) (inp : Input) (a : α) :
    (c.decode cfg ih inp = .ok a () ↔ c.tryDecodeFrom cfg ih .byte inp = .ok a ()) ∧
    (c.decodeMemo cfg ih inp = .ok a () ↔ c.tryDecodeFrom cfg ih .memo inp = .ok a ()) ∧
    (∀ e, c.tryDecodeFrom cfg ih .byte inp = .err e () → c.decode cfg ih inp = .panic) ∧
    (∀ e, c.tryDecodeFrom cfg ih .memo inp = .err e () → c.decodeMemo cfg ih inp = .panic) := by
  unfold Codec.decode Codec.decodeMemo
  refine ⟨?_, ?_, fun e h => by rw [h]; rfl, fun e h => by rw [h]; rfl⟩
  · cases c.tryDecodeFrom cfg ih .byte inp <;> simp [DecodeOut.unwrap]
  · cases c.tryDecodeFrom cfg ih .memo inp <;> simp [DecodeOut.unwrap]

/-- Text input: taken as bytes, or as hex if the feature `implicit_hexstring` is on. -/
theorem C43_text {α : Type} (c : Codec α) (cfg : Cfg) (k : Backend) (s : List Char) :
    c.tryDecodeFrom cfg false k (.text s) = c.tryDecode cfg k (utf8 s) ∧
    (∀ h : HexString, HexString.fromHex s = some (.ok h) → c.tryDecodeFrom cfg true k (.text s) = c.tryDecode cfg k h.bytes) ∧
    (∀ e, HexString.fromHex s = some (.error e) → c.tryDecodeFrom cfg true k (.text s) = .err (.conv e) ()) := by
  refine ⟨rfl, fun h hs => ?_, fun e hs => ?_⟩
  · simp [Codec.tryDecodeFrom, Input.toBuffer, hs, HexString.intoInner]
  · simp [Codec.tryDecodeFrom, Input.toBuffer, hs]

/-! ### C09 -/

/-- Decoding did not yield a value but came back (or panicked). -/
def Fails {α : Type} (o : DecodeOut α) : Prop := (∃ e, o = .err e ()) ∨ o = .panic

/-- C09: for every type, a value returned by one parser is returned by every other.  (`SliceParser` with the
complete-parse check never returns one, see `C43_slice_fails`.) -/
theorem C09_values (cfg : Cfg) (s : Schema) (hz : s.sized = true) (buf : Bytes) (hb : buf.length ≤ isizeMax)
    (k k' : Backend) (hk : cfg.completeParse = true → k' ≠ .slice) (a : s.Val)
    (he : (s.codec cfg).tryDecode cfg k buf = .ok a ()) : (s.codec cfg).tryDecode cfg k' buf = .ok a () := by
  obtain ⟨rest, st, hd, hs, hf⟩ := tryDecode_inv hz hb he
  obtain ⟨st', e, hs'⟩ := Parses.decodes (s.parses cfg) hd k' [] _ (k'.holds_init hb)
  rw [Codec.tryDecode, e]
  show k'.finish cfg a st' = _
  cases hc : cfg.completeParse with
  | false => exact finish_plain hc k' a st'
  | true =>
    rw [finish_complete hc (hk hc) a hs']
    by_cases hks : k = .slice
    · subst hks
      obtain ⟨l, h1, _⟩ := finish_slice hc a hs
      rw [h1] at hf
      cases hf
    · rw [finish_complete hc hks a hs] at hf
      exact hf

/-- C09: any two parsers agree on every input: same value, failure of both, or non-termination of both (which
needs a sequence of zero-width elements), and nothing else.  (Missing: `VPadded` in release builds and
arrays of more than `isize::MAX + 1` bytes, see `C09_fails`; `SliceParser` with the complete-parse check, see `C43_slice_fails`.) -/
theorem C09_partial (cfg : Cfg) (s : Schema) (ht : s.tame cfg.prof = true) (buf : Bytes) (hb : buf.length ≤ isizeMax)
    (k k' : Backend) (hk : cfg.completeParse = true → k ≠ .slice ∧ k' ≠ .slice) :
    let r := (s.codec cfg).tryDecode cfg k buf
    let r' := (s.codec cfg).tryDecode cfg k' buf
    (∃ a, r = .ok a () ∧ r' = .ok a ()) ∨ (Fails r ∧ Fails r') ∨ (r = .diverge ∧ r' = .diverge) := by
  intro r r'
  have h := tryDecode_cases (Parses.on (s.parses cfg) cfg) k hb
  have h' := tryDecode_cases (Parses.on (s.parses cfg) cfg) k' hb
  cases hd : s.dec cfg buf with
  | ok a rest =>
    rw [hd] at h h'
    obtain ⟨st, hs, e⟩ := h
    obtain ⟨st', hs', e'⟩ := h'
    cases hc : cfg.completeParse with
    | false => exact .inl ⟨a, by rw [← finish_plain hc k a st, ← e], by rw [← finish_plain hc k' a st', ← e']⟩
    | true =>
      obtain ⟨h1, h2⟩ := hk hc
      rw [finish_complete hc h1 a hs] at e
      rw [finish_complete hc h2 a hs'] at e'
      by_cases hr : rest = []
      · rw [if_pos hr] at e e'
        exact .inl ⟨a, e, e'⟩
      · rw [if_neg hr] at e e'
        exact .inr (.inl ⟨.inl ⟨_, e⟩, .inl ⟨_, e'⟩⟩)
  | err e =>
    rw [hd] at h h'
    refine .inr (.inl ⟨?_, ?_⟩)
    · rcases h with ⟨e1, h, _⟩ | ⟨_, _, _, h⟩
      · exact .inl ⟨_, h⟩
      · exact .inr h
    · rcases h' with ⟨e1, h', _⟩ | ⟨_, _, _, h'⟩
      · exact .inl ⟨_, h'⟩
      · exact .inr h'
  | panic => rw [hd] at h h'; exact .inr (.inl ⟨.inr h, .inr h'⟩)
  | diverge => rw [hd] at h h'; exact .inr (.inr ⟨h, h'⟩)
  | wild => exact absurd hd (s.tame_dec cfg ht buf)

/-- C09: when two parsers report an error of `parse`, it is of the same class. -/
theorem C09_errors (cfg : Cfg) (s : Schema) (ht : s.tame cfg.prof = true) (buf : Bytes) (hb : buf.length ≤ isizeMax)
    (k k' : Backend) (e e' : ParseError) (h1 : (s.codec cfg).tryDecode cfg k buf = .err (.parse e) ())
    (h2 : (s.codec cfg).tryDecode cfg k' buf = .err (.parse e') ()) : e.kind = e'.kind := by
  have key : ∀ (k : Backend) (e : ParseError), (s.codec cfg).tryDecode cfg k buf = .err (.parse e) () →
      s.dec cfg buf = .err e.kind := by
    intro k e h1
    have h := tryDecode_cases (Parses.on (s.parses cfg) cfg) k hb
    cases hd : s.dec cfg buf with
    | ok a rest =>
      exfalso
      rw [hd] at h
      obtain ⟨st, hs, h3⟩ := h
      rw [h1] at h3
      cases hc : cfg.completeParse with
      | false => rw [finish_plain hc] at h3; cases h3
      | true =>
        cases k with
        | byte =>
          rw [finish_complete (k := .byte) hc nofun a hs] at h3
          split at h3 <;> cases h3
        | memo =>
          rw [finish_complete (k := .memo) hc nofun a hs] at h3
          split at h3 <;> cases h3
        | slice =>
          obtain ⟨l, h4, _⟩ := finish_slice hc a hs
          rw [h4] at h3
          cases h3
    | err e2 =>
      rw [hd] at h
      rcases h with ⟨e3, h, hk⟩ | ⟨_, _, _, h⟩
      · rw [h1] at h; cases h; rw [hk]
      · rw [h1] at h; cases h
    | panic => rw [hd] at h; rw [show (s.codec cfg).tryDecode cfg k buf = .panic from h] at h1; cases h1
    | diverge => rw [hd] at h; rw [show (s.codec cfg).tryDecode cfg k buf = .diverge from h] at h1; cases h1
    | wild => exact absurd hd (s.tame_dec cfg ht buf)
  have := (key k e h1).symm.trans (key k' e' h2)
  exact DecRes.err.inj this

/-- A record of three bytes and a variable part that leaves two. -/
def badSchema : Schema := .record (.cons (.fixedBytes 3) (.cons (.vpadded 2 .bytes) .nil))

private theorem bad_parse (enc pad compl : Bool) : let c := badSchema.codec ⟨.release, enc, pad, compl⟩
    c.parse (Backend.byte.ops .release) (Backend.byte.init [7, 8, 9, 10]) = .ub ∧
    c.parse (Backend.memo.ops .release) (Backend.memo.init [7, 8, 9, 10]) = .ub ∧
    c.parse (Backend.slice.ops .release) (Backend.slice.init [7, 8, 9, 10]) =
      .err (.window (.openWouldExceedWindow 1 (usizeMod - 1))) ⟨[[10]]⟩ := by
  intro c
  have h1 : (Codec.vpadded ⟨.release, enc, pad, compl⟩ 2 Codec.bytes).parse (ByteParser.ops .release)
      ⟨[7, 8, 9, 10], ⟨4, [], 3⟩⟩ = .ub := by
    run_wide [Codec.vpadded, Codec.bytes, ParserOps.takeDynamic]
  have h2 : (Codec.vpadded ⟨.release, enc, pad, compl⟩ 2 Codec.bytes).parse (MemoParser.ops .release)
      ⟨[7, 8, 9, 10], ⟨4, [], 3⟩, [3]⟩ = .ub := by
    run_wide [Codec.vpadded, Codec.bytes, ParserOps.takeDynamic]
  have h3 : (Codec.vpadded ⟨.release, enc, pad, compl⟩ 2 Codec.bytes).parse SliceParser.ops ⟨[[10]]⟩ =
      .err (.window (.openWouldExceedWindow 1 (usizeMod - 1))) ⟨[[10]]⟩ := by
    run_wide [Codec.vpadded, Codec.bytes, ParserOps.takeDynamic]
  let k {σ : Type} (o : Out σ ParseError Bytes) : Out σ ParseError (ByteArr 3 × Bytes × Unit) :=
    (o.bind fun b s => .ok (b, ()) s).bind fun b s => .ok (⟨[7, 8, 9], rfl⟩, b) s
  exact ⟨congrArg k h1, congrArg k h2, congrArg k h3⟩

/-- C09 fails for `VPadded` in release builds: on input that is too short `SliceParser` reports an error while
`ByteParser` and `MemoParser` have undefined behaviour. -/
theorem C09_fails (enc pad compl : Bool) :
    (badSchema.codec ⟨.release, enc, pad, compl⟩).tryDecode ⟨.release, enc, pad, compl⟩ .byte [7, 8, 9, 10] = .ub ∧
    (badSchema.codec ⟨.release, enc, pad, compl⟩).tryDecode ⟨.release, enc, pad, compl⟩ .memo [7, 8, 9, 10] = .ub ∧
    (badSchema.codec ⟨.release, enc, pad, compl⟩).tryDecode ⟨.release, enc, pad, compl⟩ .slice [7, 8, 9, 10] =
      .err (.parse (.window (.openWouldExceedWindow 1 (usizeMod - 1)))) () := by
  have h := bad_parse enc pad compl
  refine ⟨?_, ?_, ?_⟩
  · unfold Codec.tryDecode
    rw [h.1]
  · unfold Codec.tryDecode
    rw [h.2.1]
  · unfold Codec.tryDecode
    rw [h.2.2]

/-- The types of `C09_values` include this one. -/
example : badSchema.sized = true := by decide

example : Schema.tame .release (.record (.cons (.dynamic .u30 (.seq (.option .zarithZ))) (.cons .string .nil))) = true := by decide

/-! ### C46 -/

/-- C46, release builds: decoding any bytes with any parser comes back with a value or an error.  (Missing:
`VPadded`, sequences of elements that may be empty, arrays of more than `isize::MAX + 1` bytes; see `C46_fails`.) -/
theorem C46_release_partial (cfg : Cfg) (hp : cfg.prof = .release) (s : Schema) (hs : s.safe = true) (k : Backend) (buf : Bytes)
    (hb : buf.length ≤ isizeMax) : (∃ a, (s.codec cfg).tryDecode cfg k buf = .ok a ()) ∨
      ∃ e, (s.codec cfg).tryDecode cfg k buf = .err e () := by
  have h := tryDecode_cases (Parses.on (s.parses cfg) cfg) k hb
  have ht := s.total cfg hs buf
  rcases ht with ⟨a, rest, hd⟩ | ⟨e, hd⟩
  · rw [hd] at h
    obtain ⟨st, hst, e⟩ := h
    rw [e]
    cases hc : cfg.completeParse with
    | false => exact .inl ⟨a, finish_plain hc k a st⟩
    | true =>
      match k, st, hst with
      | .byte, st, hst =>
        rw [finish_complete (k := .byte) hc nofun a hst]
        split
        · exact .inl ⟨a, rfl⟩
        · exact .inr ⟨_, rfl⟩
      | .memo, st, hst =>
        rw [finish_complete (k := .memo) hc nofun a hst]
        split
        · exact .inl ⟨a, rfl⟩
        · exact .inr ⟨_, rfl⟩
      | .slice, st, hst =>
        obtain ⟨l, h1, _⟩ := finish_slice hc a hst
        exact .inr ⟨_, h1⟩
  · rw [hd] at h
    rcases h with ⟨e', h, _⟩ | ⟨_, _, h, _⟩
    · exact .inr ⟨_, h⟩
    · rw [hp] at h; cases h

/-- C46, any build: as before, but types that open windows (`Dynamic`) may panic with `ByteParser` and
`MemoParser` in debug builds (they do, see `C46_fails`). -/
theorem C46_partial (cfg : Cfg) (s : Schema) (hs : s.safe = true) (k : Backend) (buf : Bytes) (hb : buf.length ≤ isizeMax) :
    (∃ a, (s.codec cfg).tryDecode cfg k buf = .ok a ()) ∨ (∃ e, (s.codec cfg).tryDecode cfg k buf = .err e ()) ∨
      (s.windowed = true ∧ k ≠ .slice ∧ cfg.prof = .debug ∧ (s.codec cfg).tryDecode cfg k buf = .panic) := by
  have h := tryDecode_cases (Parses.on (s.parses cfg) cfg) k hb
  have ht := s.total cfg hs buf
  rcases ht with ⟨a, rest, hd⟩ | ⟨e, hd⟩
  · rw [hd] at h
    obtain ⟨st, hst, e⟩ := h
    rw [e]
    cases hc : cfg.completeParse with
    | false => exact .inl ⟨a, finish_plain hc k a st⟩
    | true =>
      match k, st, hst with
      | .byte, st, hst =>
        rw [finish_complete (k := .byte) hc nofun a hst]
        split
        · exact .inl ⟨a, rfl⟩
        · exact .inr (.inl ⟨_, rfl⟩)
      | .memo, st, hst =>
        rw [finish_complete (k := .memo) hc nofun a hst]
        split
        · exact .inl ⟨a, rfl⟩
        · exact .inr (.inl ⟨_, rfl⟩)
      | .slice, st, hst =>
        obtain ⟨l, h1, _⟩ := finish_slice hc a hst
        exact .inr (.inl ⟨_, h1⟩)
  · rw [hd] at h
    rcases h with ⟨e', h, _⟩ | h
    · exact .inr (.inl ⟨_, h⟩)
    · exact .inr (.inr h)

/-- C46 fails: a length prefix that promises more than there is makes debug builds panic; `VPadded` on short
input panics in debug builds and has undefined behaviour in release builds; a sequence of empty values never
ends. -/
theorem C46_fails (enc pad compl : Bool) :
    (Schema.codec ⟨.debug, enc, pad, compl⟩ (.dynamic .u8 .bytes)).tryDecode ⟨.debug, enc, pad, compl⟩ .byte [5, 1, 2] = .panic ∧
    (Schema.codec ⟨.debug, enc, pad, compl⟩ (.vpadded 2 .bytes)).tryDecode ⟨.debug, enc, pad, compl⟩ .slice [5] = .panic ∧
    (badSchema.codec ⟨.release, enc, pad, compl⟩).tryDecode ⟨.release, enc, pad, compl⟩ .byte [7, 8, 9, 10] = .ub ∧
    ∀ (p : Profile) (k : Backend), (Schema.codec ⟨p, enc, pad, compl⟩ (.seq .unit)).tryDecode ⟨p, enc, pad, compl⟩ k [1] = .diverge := by
  refine ⟨rfl, rfl, (C09_fails enc pad compl).1, fun p k => ?_⟩
  have h := tryDecode_cases (Parses.on (Schema.parses ⟨p, enc, pad, compl⟩ (.seq .unit)) ⟨p, enc, pad, compl⟩) k (buf := [1]) (by decide)
  have hd : Schema.dec ⟨p, enc, pad, compl⟩ (.seq .unit) [1] = .diverge := by
    show D.many Dec.unit [1] = .diverge
    rw [D.many]
    rfl
  rw [hd] at h
  exact h

example : Schema.safe (.record (.cons (.dynamic .u30 (.seq (.option .zarithZ))) (.cons .string .nil))) = true := by decide

end Verif.Props
