import Verif.Lemmas.Safe
import Verif.Props.Decode
import Verif.Props.Recursive
/-
C57: decoding does not read outside of the input.
-/
namespace Verif.Props

open Codec

/-- C57: `SliceParser` does nothing undefined: whatever the type, the configuration, the build, the input and the
state of the parser (windows may be open, or there may be no view at all). -/
theorem C57_slice (cfg : Cfg) (s : Schema) (st : SliceParser) (buf : Bytes) :
    (s.codec cfg).parse SliceParser.ops st ≠ .ub ∧ (s.codec cfg).tryDecode cfg .slice buf ≠ .ub := by
  have h := slice_callsSafe.closed.schema cfg s
  refine ⟨fun e => ?_, tryDecode_safe trivial h slice_callsSafe.cleanupSlice⟩
  have := h st trivial
  rw [e] at this
  exact this

/-- C57: in debug builds no parser does, whatever the type (`VPadded` and arrays of any size included), the
configuration and the input. -/
theorem C57_debug (cfg : Cfg) (hp : cfg.prof = .debug) (s : Schema) (k : Backend) (buf : Bytes) (hb : buf.length ≤ isizeMax) :
    (s.codec cfg).tryDecode cfg k buf ≠ .ub := by
  obtain ⟨I, h1, h2, h3⟩ := Backend.callsSafe (k := k) (.inl hp) buf (.inr hb)
  exact tryDecode_safe h2 (h1.closed.schema cfg s) h3

/-- C57, together: decoding bytes, hexadecimal or text, with all entry points. -/
theorem C57_entry_points (cfg : Cfg) (implicitHex : Bool) (s : Schema) (inp : Input)
    (hp : cfg.prof = .debug) (hb : ∀ b, inp.toBuffer implicitHex = some (.ok b) → b.length ≤ isizeMax) :
    (∀ k, (s.codec cfg).tryDecodeFrom cfg implicitHex k inp ≠ .ub) ∧ (s.codec cfg).decode cfg implicitHex inp ≠ .ub ∧
      (s.codec cfg).decodeMemo cfg implicitHex inp ≠ .ub := by
  have h : ∀ k, (s.codec cfg).tryDecodeFrom cfg implicitHex k inp ≠ .ub := by
    intro k
    unfold Codec.tryDecodeFrom
    split
    · nofun
    · nofun
    · exact C57_debug cfg hp s k _ (hb _ (by assumption))
  have hu : ∀ {α : Type} {o : DecodeOut α}, o ≠ .ub → DecodeOut.unwrap o ≠ .ub := by
    intro α o ho
    cases o <;> first | exact ho | nofun
  exact ⟨h, hu (h .byte), hu (h .memo)⟩

/-- The check at the end does nothing undefined where the parser is in order. -/
theorem finish_no_ub {α : Type} (cfg : Cfg) (k : Backend) (a : α) {rest : Bytes} {st : k.State} (h : k.Holds rest [] st) :
    k.finish cfg a st ≠ .ub := by
  cases hc : cfg.completeParse with
  | false => rw [finish_plain hc]; nofun
  | true =>
    by_cases hk : k = .slice
    · subst hk
      obtain ⟨l, h1, _⟩ := finish_slice hc a h
      rw [h1]
      nofun
    · rw [finish_complete hc hk a h]
      split <;> nofun

/-- C57: nor in release builds, for types without `VPadded` and arrays of at most `isize::MAX + 1` bytes.  (Missing: those types
on `ByteParser` and `MemoParser`, see `C57_fails`.) -/
theorem C57_release_partial (cfg : Cfg) (s : Schema) (ht : s.tame cfg.prof = true) (k : Backend) (buf : Bytes)
    (hb : buf.length ≤ isizeMax) : (s.codec cfg).tryDecode cfg k buf ≠ .ub := by
  have h := tryDecode_cases (Parses.on (s.parses cfg) cfg) k hb
  cases hd : s.dec cfg buf with
  | ok a rest =>
    rw [hd] at h
    obtain ⟨st, hst, e⟩ := h
    rw [e]
    exact finish_no_ub cfg k a hst
  | err e => rw [hd] at h; rcases h with ⟨_, h, _⟩ | ⟨_, _, _, h⟩ <;> rw [h] <;> nofun
  | panic => rw [hd] at h; rw [show (s.codec cfg).tryDecode cfg k buf = .panic from h]; nofun
  | diverge => rw [hd] at h; rw [show (s.codec cfg).tryDecode cfg k buf = .diverge from h]; nofun
  | wild => exact absurd hd (s.tame_dec cfg ht buf)

/-- C57, what remains: only input that no parser accepts can have undefined behaviour. -/
theorem C57_only_rejected (cfg : Cfg) (s : Schema) (hz : s.sized = true) (buf : Bytes) (hb : buf.length ≤ isizeMax)
    (k : Backend) (hu : (s.codec cfg).tryDecode cfg k buf = .ub) (k' : Backend) (a : s.Val) :
    (s.codec cfg).tryDecode cfg k' buf ≠ .ok a () := by
  intro he
  have hk : k ≠ .slice := by
    rintro rfl
    exact (C57_slice cfg s (SliceParser.fromBuffer buf) buf).2 hu
  have := C09_values cfg s hz buf hb k' k (fun _ => hk) a he
  rw [hu] at this
  cases this

/-- C57 fails in release builds: two bytes are asked for where one is left, and bytes outside of the input are read. -/
theorem C57_fails (enc pad compl : Bool) (k : Backend) (hk : k ≠ .slice) :
    (badSchema.codec ⟨.release, enc, pad, compl⟩).tryDecode ⟨.release, enc, pad, compl⟩ k [7, 8, 9, 10] = .ub := by
  cases k with
  | byte => exact (C09_fails enc pad compl).1
  | memo => exact (C09_fails enc pad compl).2.1
  | slice => exact absurd rfl hk

/-- C57 for recursive types: on `SliceParser` and in debug builds. -/
theorem C57_recursive (cfg : Cfg) (d : Decls) (i : Nat) (k : Backend) (hp : cfg.prof = .debug ∨ k = .slice) (buf : Bytes)
    (hb : buf.length ≤ isizeMax) : (d.codec cfg i).tryDecode cfg k buf ≠ .ub := by
  obtain ⟨I, h1, h2, h3⟩ := Backend.callsSafe (k := k) hp buf (.inr hb)
  exact tryDecode_safe h2 (d.safe cfg i fun n => h1.closed.schema cfg _) h3

/-- C57 for recursive types in release builds.  (Missing as in `C57_release_partial`.) -/
theorem C57_recursive_release_partial (cfg : Cfg) (d : Decls) (ht : ∀ j, (d.body j).tame cfg.prof = true) (i : Nat) (k : Backend)
    (buf : Bytes) (hb : buf.length ≤ isizeMax) : (d.codec cfg i).tryDecode cfg k buf ≠ .ub := by
  by_cases hex : ∃ n, ((d.unfold n i).codec cfg).parse (k.ops cfg.prof) (k.init buf) ≠ .diverge
  · obtain ⟨n, hn⟩ := hex
    have h := Parses.on ((d.unfold n i).parses cfg) cfg k buf [] _ (k.holds_init hb)
    have h2 := (d.unfold n i).tame_dec cfg (d.tame cfg.prof ht n i) buf
    unfold Codec.tryDecode
    rw [d.parse_eq hn, M.map_run]
    cases hd : (d.unfold n i).dec cfg buf with
    | ok a rest =>
      rw [hd] at h
      obtain ⟨st, h, hs⟩ := h
      rw [h]
      exact finish_no_ub cfg k _ hs
    | err e => rw [hd] at h; rcases h with ⟨_, _, h, _⟩ | ⟨_, h⟩ <;> rw [h] <;> nofun
    | panic => rw [hd] at h; rw [show ((d.unfold n i).codec cfg).parse (k.ops cfg.prof) (k.init buf) = .panic from h]; nofun
    | diverge => rw [hd] at h; rw [show ((d.unfold n i).codec cfg).parse (k.ops cfg.prof) (k.init buf) = .diverge from h]; nofun
    | wild => exact absurd hd h2
  · have : (d.codec cfg i).parse (k.ops cfg.prof) (k.init buf) = .diverge := dif_neg hex
    unfold Codec.tryDecode
    rw [this]
    nofun

/-- Types that the release part covers and one that it does not. -/
example : Schema.tame .release (.dynamic .u30 (.seq (.option (.fixedBytes 32)))) = true ∧ badSchema.tame .release = false := by decide
example : ∀ j, (u8Seq.body j).tame .release = true := fun _ => rfl
/-- Where `C57_only_rejected` applies, with the type and input of `C57_fails`. -/
example : badSchema.sized = true ∧ (badSchema.codec ⟨.release, true, true, true⟩).tryDecode ⟨.release, true, true, true⟩ .byte [7, 8, 9, 10] = .ub :=
  ⟨rfl, C57_fails _ _ _ _ nofun⟩

end Verif.Props
