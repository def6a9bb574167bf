import Verif.Lemmas.FallType
import Verif.Lemmas.Ends
import Verif.Lemmas.NoPanic
import Verif.Props.Memory
/-
C09, C46, C57 in release builds when a `VPadded` finds fewer bytes than its padding has.
-/
namespace Verif

/-- How far back a window may end whose size has wrapped around, in an input of `l` bytes: `SliceParser` opens no such windows. -/
def Backend.room : Backend → Nat → Nat
  | .slice, _ => 0
  | .byte, l | .memo, l => l

namespace Props

open Codec

/-- How `try_decode` ends. -/
def Ended {α : Type} (o : DecodeOut α) : Fate → Prop
  | .ok => ∃ a, o = .ok a ()
  | .err => ∃ e, o = .err e ()
  | .panic => o = .panic
  | .ub => o = .ub
  | .diverge => o = .diverge

theorem Ended.unique {α : Type} {o : DecodeOut α} {x y : Fate} (h : Ended o x) (h' : Ended o y) : x = y := by
  cases x <;> cases y <;> first
    | rfl
    | (obtain ⟨_, h⟩ := h; obtain ⟨_, h'⟩ := h'; rw [h] at h'; cases h')
    | (obtain ⟨_, h⟩ := h; have h' : _ = _ := h'; rw [h] at h'; cases h')
    | (obtain ⟨_, h'⟩ := h'; have h : _ = _ := h; rw [h'] at h; cases h)
    | (have h : _ = _ := h; have h' : _ = _ := h'; rw [h] at h'; cases h')

theorem parse_wild (cfg : Cfg) (hp : cfg.prof = .release) (s : Schema) (hs : s.narrow = true) (k : Backend) (buf : Bytes)
    (hb : buf.length ≤ isizeMax) (hw : s.dec cfg buf = .wild) :
    s.fall cfg (k.room buf.length) 0 buf ≠ .ok ∧
      ∀ st, EndsAs st ((s.codec cfg).parse (k.ops cfg.prof) (k.init buf)) (s.fall cfg (k.room buf.length) 0 buf) := by
  match k with
  | .byte =>
    have := s.falls (byteLawful .release buf) (byteSinks buf) cfg hp hs buf [] (ByteParser.fromBuffer buf) (ByteR.start hb) hw
    rw [← hp] at this
    exact this
  | .memo =>
    have := s.falls (memoLawful .release buf) (memoSinks buf) cfg hp hs buf [] (MemoParser.fromBuffer buf) (MemoR.start hb) hw
    rw [← hp] at this
    exact this
  | .slice => exact s.falls sliceLawful sliceSinks cfg hp hs buf [] (SliceParser.fromBuffer buf) (Backend.holds_init .slice hb) hw

theorem ended_of_parse {α : Type} {c : Codec α} {cfg : Cfg} {k : Backend} {buf : Bytes} {x : Fate} (hx : x ≠ .ok) {st : k.State}
    (h : EndsAs st (c.parse (k.ops cfg.prof) (k.init buf)) x) : Ended (c.tryDecode cfg k buf) x := by
  unfold Codec.tryDecode
  cases x with
  | ok => exact absurd rfl hx
  | err =>
    obtain ⟨e, s', h⟩ := h
    rw [h]
    exact ⟨_, rfl⟩
  | panic => rw [show c.parse (k.ops cfg.prof) (k.init buf) = .panic from h]; rfl
  | ub => rw [show c.parse (k.ops cfg.prof) (k.init buf) = .ub from h]; rfl
  | diverge => rw [show c.parse (k.ops cfg.prof) (k.init buf) = .diverge from h]; rfl

theorem finish_ended {α : Type} (cfg : Cfg) (k : Backend) (a : α) {rest : Bytes} {st : k.State} (h : k.Holds rest [] st) :
    Ended (k.finish cfg a st) .ok ∨ Ended (k.finish cfg a st) .err := by
  cases hc : cfg.completeParse with
  | false => exact .inl ⟨a, finish_plain hc k a st⟩
  | true =>
    by_cases hk : k = .slice
    · subst hk
      obtain ⟨l, h1, _⟩ := finish_slice hc a h
      exact .inr ⟨_, h1⟩
    · rw [finish_complete hc hk a h]
      split
      · exact .inl ⟨a, rfl⟩
      · exact .inr ⟨_, rfl⟩

/-- What the pure decoder promises about release builds. -/
theorem ended_cases (cfg : Cfg) (hp : cfg.prof = .release) (s : Schema) (hs : s.narrow = true) (k : Backend) (buf : Bytes)
    (hb : buf.length ≤ isizeMax) : match s.dec cfg buf with
      | .ok _ _ => Ended ((s.codec cfg).tryDecode cfg k buf) .ok ∨ Ended ((s.codec cfg).tryDecode cfg k buf) .err
      | .err _ => Ended ((s.codec cfg).tryDecode cfg k buf) .err
      | .panic => Ended ((s.codec cfg).tryDecode cfg k buf) .panic
      | .diverge => Ended ((s.codec cfg).tryDecode cfg k buf) .diverge
      | .wild => s.fall cfg (k.room buf.length) 0 buf ≠ .ok ∧
          Ended ((s.codec cfg).tryDecode cfg k buf) (s.fall cfg (k.room buf.length) 0 buf) := by
  have h := tryDecode_cases (Parses.on (s.parses cfg) cfg) k hb
  cases hd : s.dec cfg buf with
  | ok a rest =>
    rw [hd] at h
    obtain ⟨st, hst, e⟩ := h
    simp only [e]
    exact finish_ended cfg k a hst
  | err e =>
    rw [hd] at h
    rcases h with ⟨e', h, _⟩ | ⟨_, _, h, _⟩
    · exact ⟨_, h⟩
    · rw [hp] at h; cases h
  | panic => rw [hd] at h; exact h
  | diverge => rw [hd] at h; exact h
  | wild =>
    obtain ⟨h1, h2⟩ := parse_wild cfg hp s hs k buf hb hd
    exact ⟨h1, ended_of_parse h1 (h2 (k.init buf))⟩

/-- C57 to the letter: exactly when decoding has undefined behaviour in release builds (in debug builds it never has, see
`C57_debug`). -/
theorem C57_exact (cfg : Cfg) (hp : cfg.prof = .release) (s : Schema) (hs : s.narrow = true) (k : Backend) (buf : Bytes)
    (hb : buf.length ≤ isizeMax) : (s.codec cfg).tryDecode cfg k buf = .ub ↔
      s.dec cfg buf = .wild ∧ s.fall cfg (k.room buf.length) 0 buf = .ub := by
  have h := ended_cases cfg hp s hs k buf hb
  constructor
  · intro hu
    have hu : Ended ((s.codec cfg).tryDecode cfg k buf) .ub := hu
    cases hd : s.dec cfg buf with
    | ok a rest => rw [hd] at h; rcases h with h | h <;> cases h.unique hu
    | wild => rw [hd] at h; exact ⟨rfl, h.2.unique hu⟩
    | _ => rw [hd] at h; cases Ended.unique h hu
  · rintro ⟨hd, hf⟩
    rw [hd, hf] at h
    exact h.2

/-- C46 to the letter in release builds: exactly when decoding does not come back with a value or an error, and what it does
instead. -/
theorem C46_release_exact (cfg : Cfg) (hp : cfg.prof = .release) (s : Schema) (hs : s.narrow = true) (k : Backend) (buf : Bytes)
    (hb : buf.length ≤ isizeMax) (x : Fate) (hx : x = .panic ∨ x = .ub ∨ x = .diverge) :
    Ended ((s.codec cfg).tryDecode cfg k buf) x ↔
      (x = .diverge ∧ s.dec cfg buf = .diverge) ∨ (s.dec cfg buf = .wild ∧ s.fall cfg (k.room buf.length) 0 buf = x) := by
  have h := ended_cases cfg hp s hs k buf hb
  constructor
  · intro hu
    cases hd : s.dec cfg buf with
    | ok a rest => rw [hd] at h; rcases h with h | h <;> cases h.unique hu <;> simp at hx
    | err e => rw [hd] at h; cases Ended.unique h hu; simp at hx
    | panic => exact absurd hd (s.noPanic cfg hp buf)
    | diverge => rw [hd] at h; cases Ended.unique h hu; exact .inl ⟨rfl, rfl⟩
    | wild => rw [hd] at h; exact .inr ⟨rfl, h.2.unique hu⟩
  · rintro (⟨rfl, hd⟩ | ⟨hd, rfl⟩)
    · rw [hd] at h; exact h
    · rw [hd] at h; exact h.2

/-- C57 in release builds for types with `VPadded` none of which takes all that seems left to it.  (Missing: those that do, see
`C57_exact`; arrays of more than `isize::MAX + 1` bytes.) -/
theorem C57_vpadded_partial (cfg : Cfg) (s : Schema) (hs : s.narrow = true) (ha : s.avoids .ub = true) (k : Backend) (buf : Bytes)
    (hb : buf.length ≤ isizeMax) : (s.codec cfg).tryDecode cfg k buf ≠ .ub := by
  cases hp : cfg.prof with
  | debug => exact C57_debug cfg hp s k buf hb
  | release =>
    rw [Ne, C57_exact cfg hp s hs k buf hb]
    exact fun h => s.fall_ne cfg _ (x := .ub) nofun ha 0 buf h.2

/-- C46 in release builds for types with `VPadded` whose contents begin with something that is read (`Schema.avoids`).  (Missing:
other contents, see `C46_release_exact`; sequences of elements that may read nothing; arrays of more than `isize::MAX + 1`
bytes.) -/
theorem C46_vpadded_release_partial (cfg : Cfg) (hp : cfg.prof = .release) (s : Schema) (hs : s.narrow = true) (he : s.ends = true)
    (ha : s.avoids .ub = true ∧ s.avoids .panic = true ∧ s.avoids .diverge = true) (k : Backend) (buf : Bytes)
    (hb : buf.length ≤ isizeMax) : (∃ a, (s.codec cfg).tryDecode cfg k buf = .ok a ()) ∨
      ∃ e, (s.codec cfg).tryDecode cfg k buf = .err e () := by
  have h := ended_cases cfg hp s hs k buf hb
  cases hd : s.dec cfg buf with
  | ok a rest => rw [hd] at h; exact h
  | err e => rw [hd] at h; exact .inr h
  | panic => exact absurd hd (s.noPanic cfg hp buf)
  | diverge => exact absurd hd (s.ends_dec cfg he buf)
  | wild =>
    rw [hd] at h
    have h1 := s.fall_ne cfg (k.room buf.length) (x := .ub) nofun ha.1 0 buf
    have h2 := s.fall_ne cfg (k.room buf.length) (x := .panic) nofun ha.2.1 0 buf
    have h3 := s.fall_ne cfg (k.room buf.length) (x := .diverge) nofun ha.2.2 0 buf
    cases hf : s.fall cfg (k.room buf.length) 0 buf with
    | ok => exact absurd hf h.1
    | err => rw [hf] at h; exact .inr h.2
    | panic => exact absurd hf h2
    | ub => exact absurd hf h1
    | diverge => exact absurd hf h3

/-- C09 in release builds for types with `VPadded`: any two parsers agree on every input.  (Missing: contents that take all that
seems left, or go on for ever; see `C46_release_exact`; arrays of more than `isize::MAX + 1` bytes; `SliceParser` with the
complete-parse check, see `C43_slice_fails`.) -/
theorem C09_vpadded_partial (cfg : Cfg) (hp : cfg.prof = .release) (s : Schema) (hs : s.narrow = true)
    (ha : s.avoids .ub = true ∧ s.avoids .diverge = true) (buf : Bytes) (hb : buf.length ≤ isizeMax)
    (k k' : Backend) (hk : cfg.completeParse = true → k ≠ .slice ∧ k' ≠ .slice) :
    let r := (s.codec cfg).tryDecode cfg k buf
    let r' := (s.codec cfg).tryDecode cfg k' buf
    (∃ a, r = .ok a () ∧ r' = .ok a ()) ∨ (Fails r ∧ Fails r') ∨ (r = .diverge ∧ r' = .diverge) := by
  intro r r'
  have h := tryDecode_cases (Parses.on (s.parses cfg) cfg) k hb
  have h' := tryDecode_cases (Parses.on (s.parses cfg) cfg) k' hb
  cases hd : s.dec cfg buf with
  | ok a rest =>
    rw [hd] at h h'
    obtain ⟨st, hs, e⟩ := h
    obtain ⟨st', hs', e'⟩ := h'
    cases hc : cfg.completeParse with
    | false => exact .inl ⟨a, by rw [← finish_plain hc k a st, ← e], by rw [← finish_plain hc k' a st', ← e']⟩
    | true =>
      obtain ⟨h1, h2⟩ := hk hc
      rw [finish_complete hc h1 a hs] at e
      rw [finish_complete hc h2 a hs'] at e'
      by_cases hr : rest = []
      · rw [if_pos hr] at e e'
        exact .inl ⟨a, e, e'⟩
      · rw [if_neg hr] at e e'
        exact .inr (.inl ⟨.inl ⟨_, e⟩, .inl ⟨_, e'⟩⟩)
  | err e =>
    rw [hd] at h h'
    refine .inr (.inl ⟨?_, ?_⟩)
    · rcases h with ⟨e1, h, _⟩ | ⟨_, _, _, h⟩
      · exact .inl ⟨_, h⟩
      · exact .inr h
    · rcases h' with ⟨e1, h', _⟩ | ⟨_, _, _, h'⟩
      · exact .inl ⟨_, h'⟩
      · exact .inr h'
  | panic => rw [hd] at h h'; exact .inr (.inl ⟨.inr h, .inr h'⟩)
  | diverge => rw [hd] at h h'; exact .inr (.inr ⟨h, h'⟩)
  | wild =>
    have key : ∀ k : Backend, Fails ((s.codec cfg).tryDecode cfg k buf) := by
      intro k
      have h := ended_cases cfg hp s hs k buf hb
      rw [hd] at h
      have h1 := s.fall_ne cfg (k.room buf.length) (x := .ub) nofun ha.1 0 buf
      have h3 := s.fall_ne cfg (k.room buf.length) (x := .diverge) nofun ha.2 0 buf
      cases hf : s.fall cfg (k.room buf.length) 0 buf with
      | ok => exact absurd hf h.1
      | err => rw [hf] at h; obtain ⟨e, h⟩ := h.2; exact .inl ⟨e, h⟩
      | panic => rw [hf] at h; exact .inr h.2
      | ub => exact absurd hf h1
      | diverge => exact absurd hf h3
    exact .inr (.inl ⟨key k, key k'⟩)

/-- Two parsers agree: the same value, no value, or no end. -/
def Agreed {α : Type} (r r' : DecodeOut α) : Prop :=
  (∃ a, r = .ok a () ∧ r' = .ok a ()) ∨ (Fails r ∧ Fails r') ∨ (r = .diverge ∧ r' = .diverge)

theorem Ended.fails {α : Type} {o : DecodeOut α} {x : Fate} (h : Ended o x) : Fails o ↔ x = .err ∨ x = .panic := by
  constructor
  · rintro (⟨e, h'⟩ | h')
    · exact .inl (h.unique ⟨e, h'⟩)
    · exact .inr (h.unique h')
  · rintro (rfl | rfl)
    · exact .inl h
    · exact .inr h

/-- C09 to the letter in release builds, for types with `VPadded`: exactly when two parsers agree.  (Missing: arrays of more than
`isize::MAX + 1` bytes; `SliceParser` with the complete-parse check, see `C43_slice_fails`.) -/
theorem C09_release_exact (cfg : Cfg) (hp : cfg.prof = .release) (s : Schema) (hs : s.narrow = true) (buf : Bytes)
    (hb : buf.length ≤ isizeMax) (k k' : Backend) (hk : cfg.completeParse = true → k ≠ .slice ∧ k' ≠ .slice) :
    Agreed ((s.codec cfg).tryDecode cfg k buf) ((s.codec cfg).tryDecode cfg k' buf) ↔
      (s.dec cfg buf = .wild →
        let x := s.fall cfg (k.room buf.length) 0 buf
        let x' := s.fall cfg (k'.room buf.length) 0 buf
        ((x = .err ∨ x = .panic) ∧ (x' = .err ∨ x' = .panic)) ∨ (x = .diverge ∧ x' = .diverge)) := by
  have h := tryDecode_cases (Parses.on (s.parses cfg) cfg) k hb
  have h' := tryDecode_cases (Parses.on (s.parses cfg) cfg) k' hb
  have g := ended_cases cfg hp s hs k buf hb
  have g' := ended_cases cfg hp s hs k' buf hb
  cases hd : s.dec cfg buf with
  | ok a rest =>
    rw [hd] at h h'
    refine ⟨fun _ => nofun, fun _ => ?_⟩
    obtain ⟨st, hs, e⟩ := h
    obtain ⟨st', hs', e'⟩ := h'
    cases hc : cfg.completeParse with
    | false => exact .inl ⟨a, by rw [← finish_plain hc k a st, ← e], by rw [← finish_plain hc k' a st', ← e']⟩
    | true =>
      obtain ⟨h1, h2⟩ := hk hc
      rw [finish_complete hc h1 a hs] at e
      rw [finish_complete hc h2 a hs'] at e'
      by_cases hr : rest = []
      · rw [if_pos hr] at e e'
        exact .inl ⟨a, e, e'⟩
      · rw [if_neg hr] at e e'
        exact .inr (.inl ⟨.inl ⟨_, e⟩, .inl ⟨_, e'⟩⟩)
  | err e =>
    rw [hd] at g g'
    exact ⟨fun _ => nofun, fun _ => .inr (.inl ⟨.inl g, .inl g'⟩)⟩
  | panic =>
    rw [hd] at g g'
    exact ⟨fun _ => nofun, fun _ => .inr (.inl ⟨.inr g, .inr g'⟩)⟩
  | diverge =>
    rw [hd] at g g'
    exact ⟨fun _ => nofun, fun _ => .inr (.inr ⟨g, g'⟩)⟩
  | wild =>
    rw [hd] at g g'
    obtain ⟨n, g⟩ := g
    obtain ⟨n', g'⟩ := g'
    simp only [forall_const]
    rw [← g.fails, ← g'.fails]
    constructor
    · rintro (⟨a, h1, _⟩ | h1 | ⟨h1, h2⟩)
      · exact absurd (g.unique (y := .ok) ⟨a, h1⟩) n
      · exact .inl h1
      · exact .inr ⟨g.unique (y := .diverge) h1, g'.unique (y := .diverge) h2⟩
    · rintro (h1 | ⟨h1, h2⟩)
      · exact .inr (.inl h1)
      · rw [h1] at g
        rw [h2] at g'
        exact .inr (.inr ⟨g, g'⟩)

/-- C09: `ByteParser` and `MemoParser` agree in release builds unless both read outside of the input. -/
theorem C09_release_byte_memo (cfg : Cfg) (hp : cfg.prof = .release) (s : Schema) (hs : s.narrow = true) (buf : Bytes)
    (hb : buf.length ≤ isizeMax) :
    let r := (s.codec cfg).tryDecode cfg .byte buf
    let r' := (s.codec cfg).tryDecode cfg .memo buf
    Agreed r r' ∨ (r = .ub ∧ r' = .ub) := by
  intro r r'
  by_cases hu : r = .ub
  · refine .inr ⟨hu, ?_⟩
    exact (C57_exact cfg hp s hs .memo buf hb).2 ((C57_exact cfg hp s hs .byte buf hb).1 hu)
  · refine .inl ((C09_release_exact cfg hp s hs buf hb .byte .memo fun _ => ⟨nofun, nofun⟩).2 fun hw => ?_)
    have g := ended_cases cfg hp s hs .byte buf hb
    rw [hw] at g
    simp only [show Backend.memo.room buf.length = Backend.byte.room buf.length from rfl]
    generalize hx : s.fall cfg (Backend.byte.room buf.length) 0 buf = x at g ⊢
    cases x with
    | ok => exact absurd rfl g.1
    | ub => exact absurd g.2 hu
    | _ => simp

/-- C09: `SliceParser` and another parser agree in release builds exactly if the other one comes back with a value, an error or a
panic where a `VPadded` finds fewer bytes than its padding has. -/
theorem C09_release_slice (cfg : Cfg) (hp : cfg.prof = .release) (hc : cfg.completeParse = false) (s : Schema)
    (hs : s.narrow = true) (buf : Bytes) (hb : buf.length ≤ isizeMax) (k : Backend) :
    Agreed ((s.codec cfg).tryDecode cfg .slice buf) ((s.codec cfg).tryDecode cfg k buf) ↔
      (s.dec cfg buf = .wild → (s.codec cfg).tryDecode cfg k buf ≠ .ub ∧ (s.codec cfg).tryDecode cfg k buf ≠ .diverge) := by
  rw [C09_release_exact cfg hp s hs buf hb .slice k fun h => by rw [hc] at h; cases h]
  refine forall_congr' fun hw => ?_
  have g := ended_cases cfg hp s hs k buf hb
  rw [hw] at g
  simp only [show s.fall cfg (Backend.slice.room buf.length) 0 buf = .err from s.fall_zero 0 buf]
  generalize s.fall cfg (k.room buf.length) 0 buf = x at g ⊢
  obtain ⟨n, g⟩ := g
  cases x with
  | ok => exact absurd rfl n
  | err => obtain ⟨e, g⟩ := g; rw [g]; simp
  | panic => rw [show _ = _ from g]; simp
  | ub => rw [show _ = _ from g]; simp
  | diverge => rw [show _ = _ from g]; simp

/-- C46: `SliceParser` in release builds comes back with a value or an error, whatever the type, unless it goes on for ever in a
sequence of elements that read nothing. -/
theorem C46_release_slice_partial (cfg : Cfg) (hp : cfg.prof = .release) (s : Schema) (hs : s.narrow = true) (buf : Bytes)
    (hb : buf.length ≤ isizeMax) : let r := (s.codec cfg).tryDecode cfg .slice buf
    (s.dec cfg buf ≠ .diverge → (∃ a, r = .ok a ()) ∨ ∃ e, r = .err e ()) ∧ (s.dec cfg buf = .diverge → r = .diverge) ∧
      (s.ends = true → s.dec cfg buf ≠ .diverge) := by
  intro r
  have g := ended_cases cfg hp s hs .slice buf hb
  refine ⟨fun hn => ?_, fun hd => ?_, fun he => s.ends_dec cfg he buf⟩
  · cases hd : s.dec cfg buf with
    | ok a rest => rw [hd] at g; exact g
    | err e => rw [hd] at g; exact .inr g
    | panic => exact absurd hd (s.noPanic cfg hp buf)
    | diverge => exact absurd hd hn
    | wild =>
      rw [hd, show s.fall cfg (Backend.slice.room buf.length) 0 buf = .err from s.fall_zero 0 buf] at g
      exact .inr g.2
  · rw [hd] at g; exact g

/-! ### recursive types -/

theorem ended_unfold (cfg : Cfg) (hp : cfg.prof = .release) (d : Decls) (hs : ∀ j, (d.body j).narrow = true) (i n : Nat) (k : Backend)
    (buf : Bytes) (hb : buf.length ≤ isizeMax) :
    (((d.unfold n i).codec cfg).parse (k.ops cfg.prof) (k.init buf) = .diverge ↔
      (d.unfold n i).dec cfg buf = .diverge ∨
        (d.unfold n i).dec cfg buf = .wild ∧ (d.unfold n i).fall cfg (k.room buf.length) 0 buf = .diverge) ∧
    (((d.unfold n i).codec cfg).parse (k.ops cfg.prof) (k.init buf) ≠ .diverge → ∀ x : Fate, x = .panic ∨ x = .ub →
      (Ended ((d.codec cfg i).tryDecode cfg k buf) x ↔
        (d.unfold n i).dec cfg buf = .wild ∧ (d.unfold n i).fall cfg (k.room buf.length) 0 buf = x)) := by
  have hsn := d.narrow hs n i
  have h := Parses.on ((d.unfold n i).parses cfg) cfg k buf [] _ (k.holds_init hb)
  have hw := parse_wild cfg hp _ hsn k buf hb
  have hnp := (d.unfold n i).noPanic cfg hp buf
  generalize hd : (d.unfold n i).dec cfg buf = r at h hw hnp
  constructor
  · cases r with
    | ok a rest => obtain ⟨st, h, _⟩ := h; rw [h]; simp
    | err e => rcases h with ⟨_, _, h, _⟩ | ⟨_, h⟩ <;> rw [h] <;> simp
    | panic => exact absurd rfl hnp
    | diverge => rw [show _ = _ from h]; simp
    | wild =>
      obtain ⟨h1, h2⟩ := hw rfl
      have h2 := h2 (k.init buf)
      simp only [reduceCtorEq, false_or, true_and]
      cases hf : (d.unfold n i).fall cfg (k.room buf.length) 0 buf with
      | ok => exact absurd hf h1
      | err => rw [hf] at h2; obtain ⟨e, s', h2⟩ := h2; rw [h2]; simp
      | panic => rw [hf] at h2; rw [show _ = _ from h2]; simp
      | ub => rw [hf] at h2; rw [show _ = _ from h2]; simp
      | diverge => rw [hf] at h2; rw [show _ = _ from h2]; simp
  · intro hn x hx
    have hval : ∀ {y : Fate}, y ≠ .ok →
        (∀ st, EndsAs st (((d.unfold n i).codec cfg).parse (k.ops cfg.prof) (k.init buf)) y) →
        Ended ((d.codec cfg i).tryDecode cfg k buf) y := by
      intro y hy he
      refine ended_of_parse (st := k.init buf) hy ?_
      rw [d.parse_eq hn]
      exact EndsAs.halt hy he _
    cases r with
    | ok a rest =>
      obtain ⟨st, h, hst⟩ := h
      have hf := finish_ended cfg k (d.val n a) hst
      have e : (d.codec cfg i).tryDecode cfg k buf = k.finish cfg (d.val n a) st := by
        unfold Codec.tryDecode
        rw [d.parse_eq hn, M.map_run, h]
        rfl
      rw [e]
      refine ⟨fun hu => ?_, fun h => nomatch h.1⟩
      rcases hf with hf | hf <;> cases hf.unique hu <;> simp at hx
    | err e =>
      refine ⟨fun hu => ?_, fun h => nomatch h.1⟩
      rcases h with ⟨e', s', h, _⟩ | ⟨h, _⟩
      · have := hval (y := .err) nofun fun _ => ⟨_, _, h⟩
        cases this.unique hu
        simp at hx
      · have h := h.2
        cases k <;> simp [Backend.panics, hp] at h
    | panic => exact absurd rfl hnp
    | diverge => exact absurd h hn
    | wild =>
      obtain ⟨h1, h2⟩ := hw rfl
      have := hval h1 h2
      constructor
      · intro hu
        exact ⟨rfl, this.unique hu⟩
      · rintro ⟨_, rfl⟩
        exact this

/-- C57 and C46 to the letter for recursive types in release builds: undefined behaviour and panics are those of the types one
gets by replacing references by what they refer to often enough. -/
theorem C57_recursive_exact (cfg : Cfg) (hp : cfg.prof = .release) (d : Decls) (hs : ∀ j, (d.body j).narrow = true) (i : Nat) (k : Backend)
    (buf : Bytes) (hb : buf.length ≤ isizeMax) (x : Fate) (hx : x = .panic ∨ x = .ub) :
    Ended ((d.codec cfg i).tryDecode cfg k buf) x ↔
      ∃ n, (d.unfold n i).dec cfg buf = .wild ∧ (d.unfold n i).fall cfg (k.room buf.length) 0 buf = x := by
  constructor
  · intro hu
    by_cases hex : ∃ n, ((d.unfold n i).codec cfg).parse (k.ops cfg.prof) (k.init buf) ≠ .diverge
    · obtain ⟨n, hn⟩ := hex
      exact ⟨n, ((ended_unfold cfg hp d hs i n k buf hb).2 hn x hx).mp hu⟩
    · have : (d.codec cfg i).parse (k.ops cfg.prof) (k.init buf) = .diverge := dif_neg hex
      have : Ended ((d.codec cfg i).tryDecode cfg k buf) .diverge := ended_of_parse (st := k.init buf) nofun this
      cases this.unique hu
      simp at hx
  · rintro ⟨n, h1, h2⟩
    have h := ended_unfold cfg hp d hs i n k buf hb
    refine (h.2 (fun e => ?_) x hx).mpr ⟨h1, h2⟩
    rcases h.1.mp e with h | ⟨_, h⟩
    · rw [h1] at h; cases h
    · rw [h2] at h; subst h; simp at hx

/-- C46 to the letter: recursive types, non-termination. -/
theorem C46_recursive_diverge_exact (cfg : Cfg) (hp : cfg.prof = .release) (d : Decls) (hs : ∀ j, (d.body j).narrow = true) (i : Nat)
    (k : Backend) (buf : Bytes) (hb : buf.length ≤ isizeMax) :
    (d.codec cfg i).tryDecode cfg k buf = .diverge ↔
      ∀ n, (d.unfold n i).dec cfg buf = .diverge ∨
        (d.unfold n i).dec cfg buf = .wild ∧ (d.unfold n i).fall cfg (k.room buf.length) 0 buf = .diverge := by
  constructor
  · intro hu n
    refine (ended_unfold cfg hp d hs i n k buf hb).1.mp (Classical.byContradiction fun hn => ?_)
    have h := (Parses.on ((d.unfold n i).parses cfg) cfg k buf [] _ (k.holds_init hb))
    unfold Codec.tryDecode at hu
    rw [d.parse_eq hn, M.map_run] at hu
    cases ho : ((d.unfold n i).codec cfg).parse (k.ops cfg.prof) (k.init buf) with
    | ok a st =>
      rw [ho] at hu h
      cases hd : (d.unfold n i).dec cfg buf with
      | ok b rest =>
        rw [hd] at h
        obtain ⟨st', h, hst⟩ := h
        cases h
        have hu : Ended (k.finish cfg (d.val n a) st) .diverge := hu
        rcases finish_ended cfg k (d.val n a) hst with hf | hf <;> cases hf.unique hu
      | err e => rw [hd] at h; rcases h with ⟨_, _, h, _⟩ | ⟨_, h⟩ <;> cases h
      | panic => rw [hd] at h; cases h
      | diverge => rw [hd] at h; cases h
      | wild =>
        obtain ⟨h1, h2⟩ := parse_wild cfg hp _ (d.narrow hs n i) k buf hb hd
        have h2 := h2 (k.init buf)
        rw [ho] at h2
        cases hf : (d.unfold n i).fall cfg (k.room buf.length) 0 buf with
        | ok => exact absurd hf h1
        | err => rw [hf] at h2; obtain ⟨_, _, h2⟩ := h2; cases h2
        | _ => rw [hf] at h2; cases h2
    | err e st => rw [ho] at hu; cases hu
    | panic => rw [ho] at hu; cases hu
    | ub => rw [ho] at hu; cases hu
    | diverge => exact hn ho
  · intro h
    have hex : ¬ ∃ n, ((d.unfold n i).codec cfg).parse (k.ops cfg.prof) (k.init buf) ≠ .diverge := by
      rintro ⟨n, hn⟩
      exact hn ((ended_unfold cfg hp d hs i n k buf hb).1.mpr (h n))
    have : (d.codec cfg i).parse (k.ops cfg.prof) (k.init buf) = .diverge := dif_neg hex
    exact ended_of_parse (c := d.codec cfg i) (x := .diverge) (st := k.init buf) nofun this

/-- C46: `SliceParser` in release builds, recursive types: a value or an error, unless no unfolding comes to an end. -/
theorem C46_recursive_slice_partial (cfg : Cfg) (hp : cfg.prof = .release) (d : Decls) (hs : ∀ j, (d.body j).narrow = true) (i : Nat)
    (buf : Bytes) (hb : buf.length ≤ isizeMax) : let r := (d.codec cfg i).tryDecode cfg .slice buf
    (∃ a, r = .ok a ()) ∨ (∃ e, r = .err e ()) ∨ (r = .diverge ∧ ∀ n, (d.unfold n i).dec cfg buf = .diverge) := by
  intro r
  have hz := fun n => (d.unfold n i).fall_zero (cfg := cfg) 0 buf
  cases hr : r with
  | ok a u => exact .inl ⟨a, rfl⟩
  | err e u => exact .inr (.inl ⟨e, rfl⟩)
  | panic =>
    obtain ⟨n, _, h⟩ := (C57_recursive_exact cfg hp d hs i .slice buf hb .panic (.inl rfl)).mp hr
    rw [show (d.unfold n i).fall cfg (Backend.slice.room buf.length) 0 buf = .err from hz n] at h
    cases h
  | ub =>
    obtain ⟨n, _, h⟩ := (C57_recursive_exact cfg hp d hs i .slice buf hb .ub (.inr rfl)).mp hr
    rw [show (d.unfold n i).fall cfg (Backend.slice.room buf.length) 0 buf = .err from hz n] at h
    cases h
  | diverge =>
    refine .inr (.inr ⟨rfl, fun n => ?_⟩)
    rcases (C46_recursive_diverge_exact cfg hp d hs i .slice buf hb).mp hr n with h | ⟨_, h⟩
    · exact h
    · rw [show (d.unfold n i).fall cfg (Backend.slice.room buf.length) 0 buf = .err from hz n] at h
      cases h

/-- C57 for recursive types with `VPadded`.  (Missing as in `C57_vpadded_partial`.) -/
theorem C57_recursive_vpadded_partial (cfg : Cfg) (d : Decls) (hs : ∀ j, (d.body j).narrow = true)
    (ha : ∀ j, (d.body j).avoids .ub = true ∧ (d.body j).avoids .diverge = true) (i : Nat) (k : Backend) (buf : Bytes)
    (hb : buf.length ≤ isizeMax) : (d.codec cfg i).tryDecode cfg k buf ≠ .ub := by
  cases hp : cfg.prof with
  | debug => exact C57_recursive cfg d i k (.inl hp) buf hb
  | release =>
    intro hu
    obtain ⟨n, _, h⟩ := (C57_recursive_exact cfg hp d hs i k buf hb .ub (.inr rfl)).mp hu
    exact (d.unfold n i).fall_ne cfg _ (x := .ub) nofun (d.avoids (fun j => (ha j).2) (fun j => (ha j).1) n i) 0 buf h

/-! ### examples -/

/-- Where the exact statements speak of undefined behaviour, a panic, an error and non-termination: three bytes, a part that
leaves two, and one byte for it. -/
example (cfg : Cfg) (hp : cfg.prof = .release) (c : Schema) :
    let s : Schema := .record (.cons (.fixedBytes 3) (.cons (.vpadded 2 c) .nil))
    s.dec cfg [7, 8, 9, 10] = .wild ∧ s.fall cfg 4 0 [7, 8, 9, 10] = (c.fate 3 1).closed := by
  intro s
  have h : Dec.vpadded cfg 2 (c.dec cfg) [10] = .wild := by
    unfold Dec.vpadded
    rw [if_neg (by decide), hp]
  constructor
  · show ((Dec.vpadded cfg 2 (c.dec cfg) [10]).bind _).bind _ = _
    rw [h]
    rfl
  · have h3 : (Schema.fixedBytes 3).dec cfg [7, 8, 9, 10] = .ok ⟨[7, 8, 9], rfl⟩ [10] := rfl
    have h4 : (Schema.vpadded 2 c).dec cfg [10] = .wild := h
    simp only [s]
    rw [Schema.fall, Fields.fall, h3]
    dsimp only
    rw [Fields.fall, h4]
    dsimp only
    rw [Schema.fall, if_neg (by decide), if_pos (by decide)]
    rfl
example : Schema.fate 3 1 .bytes = .ub ∧ Schema.fate 3 1 .zarithN = .panic ∧ Schema.fate 3 1 (.int .u8) = .err ∧
    Schema.fate 3 1 (.seq .unit) = .diverge ∧ Schema.fate 3 1 (.vpadded 2 .bytes) = .ub ∧ Schema.fate 3 1 (.vpadded 3 .bytes) = .err := by
  decide
/-- Types with `VPadded` covered, and some that are not. -/
example : let s : Schema := .record (.cons (.fixedBytes 3) (.cons (.vpadded 2 (.option .string)) (.cons (.int .u16) .nil)))
    s.narrow = true ∧ s.ends = true ∧ s.avoids .ub = true ∧ s.avoids .panic = true ∧ s.avoids .diverge = true ∧ s.tame .release = false := by
  refine ⟨?_, ?_⟩
  · have := isizeMax_cases
    simp [Schema.narrow, Fields.narrow]
    omega
  · decide
example : badSchema.avoids .ub = false ∧ (Schema.vpadded 2 .zarithZ).avoids .panic = false ∧
    (Schema.vpadded 2 (.seq (.nullable .unit))).avoids .diverge = false := by decide
/-- `SliceParser` and `ByteParser` do not agree on the input of `C09_fails`. -/
example (enc pad : Bool) : let cfg : Cfg := ⟨.release, enc, pad, false⟩
    badSchema.narrow = true ∧ badSchema.dec cfg [7, 8, 9, 10] = .wild ∧
      ¬ Agreed ((badSchema.codec cfg).tryDecode cfg .slice [7, 8, 9, 10]) ((badSchema.codec cfg).tryDecode cfg .byte [7, 8, 9, 10]) := by
  intro cfg
  have hn : badSchema.narrow = true := by
    have := isizeMax_cases
    simp [badSchema, Schema.narrow, Fields.narrow]
    omega
  have hu := (C09_fails enc pad false).1
  have hw := ((C57_exact cfg rfl badSchema hn .byte [7, 8, 9, 10] (by have := isizeMax_cases; simp; omega)).1 hu).1
  refine ⟨hn, hw, fun h => ?_⟩
  rw [C09_release_slice cfg rfl rfl badSchema hn _ (by have := isizeMax_cases; simp; omega)] at h
  exact (h hw).1 hu
/-- A list, each item of which leaves two bytes for a check sum. -/
example : let d : Decls := ⟨fun _ => .seq (.vpadded 2 (.option (.record (.cons .bool (.cons (.hole 0) .nil))))), fun _ _ => rfl⟩
    ∀ j, (d.body j).avoids .ub = true ∧ (d.body j).avoids .diverge = true := fun _ => ⟨rfl, rfl⟩

end Props
end Verif
