import Verif.Lemmas.Cut
import Verif.Props.Decode
import Verif.Props.Recursive
/-
C76: messages that were cut off.  `b` is the encoding of a value, `v` what has arrived of it and `t` what is missing.
-/
namespace Verif.Props

open Codec

/-- The decoder's answer, as an answer of all parsers. -/
theorem cut_parse {α : Type} {win : Prop} {c : Codec α} {cfg : Cfg} {d : D α} (h : c.On win cfg d) {tl : Tail} {m : Nat} {v : Bytes}
    (hc : CutRes tl m (d v)) (k : Backend) (vs : List Bytes) (st : k.State) (hs : k.Holds v vs st) :
    (∃ e st', c.parse (k.ops cfg.prof) st = .err e st' ∧ e.WantsMore m) ∨
    (win ∧ k ≠ .slice ∧ cfg.prof = .debug ∧ c.parse (k.ops cfg.prof) st = .panic) ∨
    (tl ≠ .any ∧ ∃ a st', c.parse (k.ops cfg.prof) st = .ok a st' ∧ k.Holds [] vs st') := by
  have hm := h k v vs st hs
  rcases hc with ⟨e, hd, he⟩ | ⟨h1, a, hd⟩
  · rw [hd] at hm
    rcases hm with ⟨e', s', h1, hk⟩ | ⟨⟨hw, hp⟩, h1⟩
    · exact .inl ⟨e', s', h1, .of_kind (hk ▸ he)⟩
    · refine .inr (.inl ⟨hw, ?_, ?_, h1⟩)
      · rintro rfl; exact hp
      · cases k with
        | byte => exact hp
        | memo => exact hp
        | slice => exact hp.elim
  · rw [hd] at hm
    obtain ⟨s', h2, h3⟩ := hm
    exact .inr (.inr ⟨h1, a, s', h2, h3⟩)

section
variable (cfg : Cfg) (s : Schema) (ht : s.tagsOk) (x : s.Val) (hv : s.Valid x) (he : cfg.encLenOverride = false ∨ s.PrefixOk x)
  (b v t : Bytes) (hb : (s.codec cfg).toBytes x = some b) (hl : b.length ≤ isizeMax) (hbt : b = v ++ t) (hn : t ≠ [])
include ht hv he hb hl hbt hn

theorem cut_res {tl : Tail} (hr : s.reserves = false) (htl : s.tail = some tl) : CutRes tl t.length (s.dec cfg v) := by
  rw [toBytes_wire (he.imp id fun h => ⟨hv, h⟩)] at hb
  subst hbt
  exact s.cuts cfg ht hr htl x v t hv hb hn (by omega)

/-- C76: of a type whose encodings end by themselves, every parser answers an encoding that was cut off anywhere with an
error that says that input is missing, and the number of bytes it says are missing is at most the number that is; or
it panics, where debug builds do. -/
theorem C76_parse (htl : s.tail = some .any) (k : Backend) (vs : List Bytes) (st : k.State) (hs : k.Holds v vs st) :
    (∃ e st', (s.codec cfg).parse (k.ops cfg.prof) st = .err e st' ∧ e.WantsMore t.length) ∨
    (s.windowed = true ∧ k ≠ .slice ∧ cfg.prof = .debug ∧ (s.codec cfg).parse (k.ops cfg.prof) st = .panic) := by
  rcases cut_parse (Parses.on (s.parses cfg) cfg) (cut_res cfg s ht x hv he b v t hb hl hbt hn (s.reserves_of_any htl) htl)
    k vs st hs with h | h | h
  · exact .inl h
  · exact .inr h
  · exact absurd rfl h.1

/-- C76: so does `try_decode`. -/
theorem C76_try_decode (htl : s.tail = some .any) (k : Backend) :
    (∃ e, (s.codec cfg).tryDecode cfg k v = .err (.parse e) () ∧ e.WantsMore t.length) ∨
    (s.windowed = true ∧ k ≠ .slice ∧ cfg.prof = .debug ∧ (s.codec cfg).tryDecode cfg k v = .panic) := by
  have hlv : v.length ≤ isizeMax := by subst hbt; rw [List.length_append] at hl; omega
  rcases C76_parse cfg s ht x hv he b v t hb hl hbt hn htl k [] _ (k.holds_init hlv) with ⟨e, st', h1, h2⟩ | ⟨h1, h2, h3, h4⟩
  · exact .inl ⟨e, by rw [Codec.tryDecode, h1], h2⟩
  · exact .inr ⟨h1, h2, h3, by rw [Codec.tryDecode, h4]⟩

/-- C76: of a type that takes what it finds (text, byte strings, sequences, at its end) a cut may go unnoticed; then all that
there is has been taken.  (Missing: `VPadded`, see `C76_fails`.) -/
theorem C76_open_partial (hr : s.reserves = false) {tl : Tail} (htl : s.tail = some tl) (k : Backend) (vs : List Bytes)
    (st : k.State) (hs : k.Holds v vs st) :
    (∃ e st', (s.codec cfg).parse (k.ops cfg.prof) st = .err e st' ∧ e.WantsMore t.length) ∨
    (s.windowed = true ∧ k ≠ .slice ∧ cfg.prof = .debug ∧ (s.codec cfg).parse (k.ops cfg.prof) st = .panic) ∨
    (tl ≠ .any ∧ ∃ a st', (s.codec cfg).parse (k.ops cfg.prof) st = .ok a st' ∧ k.Holds [] vs st') :=
  cut_parse (Parses.on (s.parses cfg) cfg) (cut_res cfg s ht x hv he b v t hb hl hbt hn hr htl) k vs st hs

end

/-- C76: reading from a stream.  When `n` bytes of it have arrived, `try_decode` of `ByteParser` and `MemoParser` (and
`SliceParser`) returns the value sent first if and only if all of its encoding has arrived. -/
theorem C76_stream (cfg : Cfg) (hc : cfg.completeParse = false) (s : Schema) (ht : s.tagsOk) (htl : s.tail = some .any)
    (x : s.Val) (hv : s.Valid x) (he : cfg.encLenOverride = false ∨ s.PrefixOk x) (b rest : Bytes)
    (hb : (s.codec cfg).toBytes x = some b) (hl : (b ++ rest).length ≤ isizeMax) (k : Backend) (n : Nat) :
    (b.length ≤ n → (s.codec cfg).tryDecode cfg k ((b ++ rest).take n) = .ok x ()) ∧
    (n < b.length → ∀ a, (s.codec cfg).tryDecode cfg k ((b ++ rest).take n) ≠ .ok a ()) := by
  constructor
  · intro h
    have hw := hb
    rw [toBytes_wire (he.imp id fun h => ⟨hv, h⟩)] at hw
    have hd := s.roundTrips cfg ht htl x b (rest.take (n - b.length)) hv hw trivial
    have ht : (b ++ rest).take n = b ++ rest.take (n - b.length) := by rw [List.take_append, List.take_of_length_le h]
    rw [ht]
    have hlen : (b ++ rest.take (n - b.length)).length ≤ isizeMax :=
      Nat.le_trans (by rw [List.length_append, List.length_append, List.length_take]; omega) hl
    obtain ⟨st, e, _⟩ := Parses.decodes (s.parses cfg) hd k [] _ (k.holds_init hlen)
    rw [Codec.tryDecode, e]
    exact finish_plain hc k x st
  · intro h a ha
    have ht' : (b ++ rest).take n = b.take n := List.take_append_of_le_length (Nat.le_of_lt h)
    rw [ht'] at ha
    have hlb : b.length ≤ isizeMax := by rw [List.length_append] at hl; omega
    rcases C76_try_decode cfg s ht x hv he b (b.take n) (b.drop n) hb hlb (List.take_append_drop n b).symm
      (List.ne_nil_of_length_pos (by rw [List.length_drop]; omega)) htl k with ⟨e, h1, _⟩ | ⟨_, _, _, h1⟩
    · rw [ha] at h1; cases h1
    · rw [ha] at h1; cases h1

/-- C76 for recursive types. -/
theorem C76_recursive (cfg : Cfg) (d : Decls) {i : Nat} (hst : d.Stable) (ht : ∀ j, (d.body j).tagsOk)
    (htl : (d.body i).tail = some .any) (a : d.Val i) (he : (cfg.encLenOverride = false ∧ d.Valid a) ∨ d.PrefixOk a)
    (b v t : Bytes) (hb : (d.codec cfg i).toBytes a = some b) (hl : b.length ≤ isizeMax) (hbt : b = v ++ t) (hn : t ≠ [])
    (k : Backend) (vs : List Bytes) (st : k.State) (hs : k.Holds v vs st) :
    (∃ e st', (d.codec cfg i).parse (k.ops cfg.prof) st = .err e st' ∧ e.WantsMore t.length) ∨
    (d.Windowed ∧ k ≠ .slice ∧ cfg.prof = .debug ∧ (d.codec cfg i).parse (k.ops cfg.prof) st = .panic) := by
  obtain ⟨n, x, rfl, hv, hw, hx⟩ := rec_valid_wire cfg d he hb
  rcases C76_parse cfg (d.unfold n i) (d.tagsOk ht n i) x hv hx b v t hb hl hbt hn (d.tail hst htl x) k vs st hs with
    ⟨e, st', h1, h2⟩ | ⟨hw, h1, h2, h3⟩
  · exact .inl ⟨e, st', by rw [d.parse_eq (by rw [h1]; nofun), M.map_run, h1]; rfl, h2⟩
  · refine .inr ⟨?_, h1, h2, by rw [d.parse_eq (by rw [h3]; nofun), M.map_run, h3]; rfl⟩
    apply Classical.byContradiction
    intro hn
    rw [d.windowed hn] at hw
    cases hw

/-- Bytes that fill the window up to its last byte, and a tag. -/
def bytesThenTag : Schema := .record (.cons (.vpadded 1 .bytes) (.cons (.cstyle .u8 [1]) .nil))

/-- C76 fails for `VPadded`, which finds its end by counting from the end of the window: what remains of a message that has
lost its last byte is taken for something else, and reported as an invalid tag; debug builds panic if all of it is
lost. -/
theorem C76_fails (enc pad compl : Bool) :
    (∀ p, (bytesThenTag.codec ⟨p, enc, pad, compl⟩).toBytes (([255] : Bytes), (⟨1, .head _⟩, ())) = some [255, 1]) ∧
    (∀ p k, ∃ e, (bytesThenTag.codec ⟨p, enc, pad, compl⟩).tryDecode ⟨p, enc, pad, compl⟩ k [255] = .err (.parse e) () ∧
      ∀ m, ¬ e.WantsMore m) ∧
    ∀ k, (bytesThenTag.codec ⟨.debug, enc, pad, compl⟩).tryDecode ⟨.debug, enc, pad, compl⟩ k [] = .panic := by
  refine ⟨fun p => ?_, fun p k => ?_, fun k => by cases k <;> rfl⟩
  · cases p <;> cases enc <;> rfl
  · cases p <;> cases k <;> exact ⟨.token (.invalidTag .u8 255 (some [1])), rfl, fun m h => h⟩

/-! ### examples -/

/-- A length-prefixed text, a number and a flag. -/
def packet : Schema := .record (.cons (.dynamic .u8 .string) (.cons .zarithN (.cons .bool .nil)))

/-- `("hi", 300, true)` -/
def packetVal : packet.Val := ((['h', 'i'] : List Char), ((300 : Nat), (true, ())))

example : packet.tagsOk ∧ packet.tail = some .any ∧ packet.windowed = true := ⟨⟨trivial, trivial, trivial, trivial⟩, rfl, rfl⟩
example (cfg : Cfg) : packet.Valid packetVal ∧ packet.PrefixOk packetVal ∧
    (packet.codec cfg).toBytes packetVal = some [2, 104, 105, 0xac, 2, 255] := by
  have h : packet.Valid packetVal ∧ packet.PrefixOk packetVal := by
    exact ⟨⟨trivial, trivial, trivial, trivial⟩, trivial, trivial, trivial, trivial⟩
  exact ⟨h.1, h.2, (toBytes_wire (.inr h)).trans (by with_unfolding_all rfl)⟩

/-- Text at the end of a message: a cut may go unnoticed. -/
def note : Schema := .record (.cons (.int .u16) (.cons .string .nil))

example : note.tagsOk ∧ note.reserves = false ∧ note.tail = some (.exact 0) := ⟨⟨trivial, trivial, trivial⟩, rfl, rfl⟩

end Verif.Props
