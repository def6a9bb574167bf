import Verif.Backend
import Verif.Refine.Codec
import Verif.Refine.Exact
/-
States of the three parsers by what is readable in them, and what codecs do in such states.
-/
namespace Verif

theorem Lawful.exists_ {σ ι : Type} {P : ParserOps σ} {pan : Prop} {R : ι → Bytes → List Bytes → σ → Prop}
    (h : ∀ i, Lawful P pan (R i)) : Lawful P pan (fun v vs s => ∃ i, R i v vs s) where
  small := fun ⟨i, r⟩ => (h i).small r
  remainder := fun ⟨i, r⟩ => (h i).remainder r |>.imp fun _ ⟨a, b⟩ => ⟨a, i, b⟩
  consumeByte_ok := fun ⟨i, r⟩ => (h i).consumeByte_ok r |>.imp fun _ ⟨a, b⟩ => ⟨a, i, b⟩
  consumeByte_err := fun ⟨i, r⟩ =>
    let ⟨e, s', h1, h2, h3⟩ := (h i).consumeByte_err r
    ⟨e, s', h1, h2, i, h3⟩
  consume_ok := fun n ⟨i, r⟩ hn => (h i).consume_ok n r hn |>.imp fun _ ⟨a, b⟩ => ⟨a, i, b⟩
  consume_err := fun n ⟨i, r⟩ hn hs =>
    let ⟨e, s', h1, h2, h3⟩ := (h i).consume_err n r hn hs
    ⟨e, s', h1, h2, i, h3⟩
  setFit_ok := fun n ⟨i, r⟩ hn => (h i).setFit_ok n r hn |>.imp fun _ ⟨a, b⟩ => ⟨a, i, b⟩
  setFit_err := fun n ⟨i, r⟩ hn hs =>
    (h i).setFit_err n r hn hs |>.imp (fun ⟨e, s', h1, h2, h3⟩ => ⟨e, s', h1, h2, i, h3⟩) id
  testTarget := fun ⟨i, r⟩ => (h i).testTarget r |>.imp fun _ ⟨a, b⟩ => ⟨a, i, b⟩
  enforce_ok := fun ⟨i, r⟩ => (h i).enforce_ok r |>.imp fun _ ⟨a, b⟩ => ⟨a, i, b⟩
  enforce_err := fun ⟨i, r⟩ hn => (h i).enforce_err r hn
  skip := fun n ⟨i, r⟩ => (h i).skip n r |>.imp fun _ ⟨a, b⟩ => ⟨a, i, b⟩
  skipExactly_ok := fun n ⟨i, r⟩ hn => (h i).skipExactly_ok n r hn |>.imp fun _ ⟨a, b⟩ => ⟨a, i, b⟩
  skipExactly_err := fun n ⟨i, r⟩ hn hs =>
    let ⟨e, s', h1, h2, h3⟩ := (h i).skipExactly_err n r hn hs
    ⟨e, s', h1, h2, i, h3⟩

namespace Backend

/-- In state `s` the readable bytes are `v` (the unread part of the innermost window, or of the input if
no window is open) and the enclosing scopes still hold `vs` (innermost first).  `holds_reads` says what this
means for a caller, `holds_init` and `holds_reached` say which states satisfy it. -/
def Holds : (k : Backend) → Bytes → List Bytes → k.State → Prop
  | .byte => fun v vs s => ∃ buf, ByteR buf v vs s
  | .memo => fun v vs s => ∃ buf, MemoR buf v vs s
  | .slice => SliceR

/-- May this parser panic when asked for a window larger than the input? -/
def panics (p : Profile) : Backend → Prop
  | .byte => p = .debug
  | .memo => p = .debug
  | .slice => False

theorem lawful (p : Profile) : (k : Backend) → Lawful (k.ops p) (k.panics p) k.Holds
  | .byte => Lawful.exists_ fun buf => byteLawful p buf
  | .memo => Lawful.exists_ fun buf => memoLawful p buf
  | .slice => sliceLawful

theorem holds_init (k : Backend) {v : Bytes} (h : v.length ≤ isizeMax) : k.Holds v [] (k.init v) :=
  match k with
  | .byte => ⟨v, ByteR.start h⟩
  | .memo => ⟨v, MemoR.start h⟩
  | .slice => SliceR.start h

theorem _root_.Verif.Cursor.unread_exec : ∀ (os : List Op) (c : Cursor),
    (Cursor.exec os c).unread.length ≤ c.unread.length
  | [], _ => Nat.le_refl _
  | op :: os, c => Nat.le_trans (Cursor.unread_exec os _) (c.unread_step op)

/-- Every state reached by a well-bracketed use of the parser holds what the abstract cursor says. -/
theorem holds_reached (k : Backend) {p : Profile} {buf : Bytes} (hb : buf.length ≤ isizeMax) {os : List Op}
    (hw : (Cursor.start buf).WBs os) (ha : p = .debug ∨ Cursor.Fits os (Cursor.start buf)) {s : k.State}
    (he : (k.ops p).exec os (k.init buf) = some s) :
    k.Holds (Cursor.exec os (Cursor.start buf)).top (Cursor.exec os (Cursor.start buf)).outer s :=
  match k, s, he with
  | .byte, _, he => ⟨buf, _, byte_exec hb ha he⟩
  | .memo, _, he => ⟨buf, _, memo_exec hb ha he⟩
  | .slice, _, he => ⟨_, slice_exec hw he, by
      have := Cursor.unread_exec os (Cursor.start buf)
      simp only [Cursor.unread, Cursor.start, List.flatten_nil, List.append_nil] at this ⊢
      omega⟩

/-- What it means for a caller that `v` is readable: `remainder` is its length and it is what can be consumed. -/
theorem holds_reads (k : Backend) (p : Profile) {v : Bytes} {vs : List Bytes} {s : k.State} (h : k.Holds v vs s) :
    (∃ s', (k.ops p).remainder s = .ok v.length s' ∧ k.Holds v vs s') ∧
    (∃ s', (k.ops p).consume v.length s = .ok v s' ∧ k.Holds [] vs s') := by
  refine ⟨(k.lawful p).remainder h, ?_⟩
  obtain ⟨s', h1, h2⟩ := (k.lawful p).consume_ok v.length h (Nat.le_refl _)
  rw [List.take_length] at h1
  rw [List.drop_length] at h2
  exact ⟨s', h1, h2⟩

/-- The readable bytes are determined by the state. -/
theorem holds_unique (k : Backend) {v v' : Bytes} {vs vs' : List Bytes} {s : k.State} (h : k.Holds v vs s)
    (h' : k.Holds v' vs' s) : v = v' := by
  obtain ⟨⟨s1, a1, _⟩, s2, a2, _⟩ := k.holds_reads .release h
  obtain ⟨⟨t1, b1, _⟩, t2, b2, _⟩ := k.holds_reads .release h'
  rw [a1] at b1
  have hl : v.length = v'.length := (Out.ok.inj b1).1
  rw [hl] at a2
  rw [a2] at b2
  exact (Out.ok.inj b2).1

end Backend

/-! ### codecs on parser states -/

namespace Codec

variable {α : Type}

/-- Wherever the readable bytes are `v`, whatever the parser and the enclosing windows, decoding yields `a`
and exactly `rest` stays readable. -/
def Decodes (c : Codec α) (cfg : Cfg) (v : Bytes) (a : α) (rest : Bytes) : Prop :=
  ∀ (k : Backend) (vs : List Bytes) (s : k.State), k.Holds v vs s →
    ∃ s', c.parse (k.ops cfg.prof) s = .ok a s' ∧ k.Holds rest vs s'

/-- Wherever the readable bytes are `v`, decoding fails with an error of class `e`. -/
def Rejects (c : Codec α) (cfg : Cfg) (v : Bytes) (e : ParseError) : Prop :=
  ∀ (k : Backend) (vs : List Bytes) (s : k.State), k.Holds v vs s →
    ∃ e' s', c.parse (k.ops cfg.prof) s = .err e' s' ∧ e'.kind = e

/-- As `Rejects`, but ByteParser and MemoParser may panic in debug builds. -/
def RejectsOrPanics (c : Codec α) (cfg : Cfg) (v : Bytes) (e : ParseError) : Prop :=
  ∀ (k : Backend) (vs : List Bytes) (s : k.State), k.Holds v vs s →
    (∃ e' s', c.parse (k.ops cfg.prof) s = .err e' s' ∧ e'.kind = e) ∨
      (k ≠ .slice ∧ cfg.prof = .debug ∧ c.parse (k.ops cfg.prof) s = .panic)

/-- Wherever the readable bytes are `v`, decoding panics. -/
def Panics (c : Codec α) (cfg : Cfg) (v : Bytes) : Prop :=
  ∀ (k : Backend) (vs : List Bytes) (s : k.State), k.Holds v vs s → c.parse (k.ops cfg.prof) s = .panic

/-- Wherever the readable bytes are `v`, decoding never ends. -/
def Diverges (c : Codec α) (cfg : Cfg) (v : Bytes) : Prop :=
  ∀ (k : Backend) (vs : List Bytes) (s : k.State), k.Holds v vs s → c.parse (k.ops cfg.prof) s = .diverge

variable {win : Prop} {c : Codec α} {d : D α} {e : Enc α}

/-- On the three parsers `parse` refines the pure decoder. -/
def On (win : Prop) (c : Codec α) (cfg : Cfg) (d : D α) : Prop :=
  ∀ k : Backend, Refines (win ∧ k.panics cfg.prof) k.Holds (c.parse (k.ops cfg.prof)) d

theorem Parses.on (h : c.Parses win d) (cfg : Cfg) : c.On win cfg d := fun k => h (k.lawful cfg.prof)

theorem On.decodes {cfg : Cfg} (h : c.On win cfg d) {v rest : Bytes} {a : α} (hd : d v = .ok a rest) :
    c.Decodes cfg v a rest := fun k vs s hs => by
  have := h k v vs s hs
  rwa [hd] at this

theorem On.rejectsOrPanics {cfg : Cfg} (h : c.On win cfg d) {v : Bytes} {e : ParseError} (hd : d v = .err e) :
    c.RejectsOrPanics cfg v e := fun k vs s hs => by
  have := h k v vs s hs
  rw [hd] at this
  rcases this with h | ⟨⟨_, hp⟩, h⟩
  · exact .inl h
  · cases k with
    | byte => exact .inr ⟨nofun, hp, h⟩
    | memo => exact .inr ⟨nofun, hp, h⟩
    | slice => exact hp.elim

theorem On.rejects {cfg : Cfg} (h : c.On win cfg d) {v : Bytes} {e : ParseError}
    (hw : ¬ win ∨ cfg.prof = .release) (hd : d v = .err e) : c.Rejects cfg v e := fun k vs s hs => by
  have h1 := h k v vs s hs
  rw [hd] at h1
  rcases h1 with h1 | ⟨⟨h1, hp⟩, _⟩
  · exact h1
  · rcases hw with hw | hw
    · exact (hw h1).elim
    · cases k <;> simp [Backend.panics, hw] at hp

theorem On.panics {cfg : Cfg} (h : c.On win cfg d) {v : Bytes} (hd : d v = .panic) : c.Panics cfg v :=
  fun k vs s hs => by
  have := h k v vs s hs
  rwa [hd] at this

theorem On.diverges {cfg : Cfg} (h : c.On win cfg d) {v : Bytes} (hd : d v = .diverge) : c.Diverges cfg v :=
  fun k vs s hs => by
  have := h k v vs s hs
  rwa [hd] at this

theorem Parses.decodes (h : c.Parses win d) {cfg : Cfg} {v rest : Bytes} {a : α} (hd : d v = .ok a rest) :
    c.Decodes cfg v a rest := On.decodes (Parses.on h cfg) hd

theorem Parses.rejectsOrPanics (h : c.Parses win d) {cfg : Cfg} {v : Bytes} {e : ParseError} (hd : d v = .err e) :
    c.RejectsOrPanics cfg v e := On.rejectsOrPanics (Parses.on h cfg) hd

theorem Parses.rejects (h : c.Parses win d) {cfg : Cfg} {v : Bytes} {e : ParseError}
    (hw : ¬ win ∨ cfg.prof = .release) (hd : d v = .err e) : c.Rejects cfg v e := On.rejects (Parses.on h cfg) hw hd

/-- The decoder that promises `r` on `v` and nothing on other inputs. -/
def spot (v : Bytes) (r : DecRes α) : D α := fun w => if w = v then r else .wild

@[simp] theorem spot_self (v : Bytes) (r : DecRes α) : spot v r v = r := by simp [spot]

theorem On.spot_ {cfg : Cfg} {v : Bytes} {r : DecRes α}
    (h : ∀ (k : Backend) (vs : List Bytes) (s : k.State), k.Holds v vs s →
      Meets (win ∧ k.panics cfg.prof) k.Holds vs (c.parse (k.ops cfg.prof) s) r) : c.On win cfg (spot v r) := by
  intro k w vs s hs
  unfold spot
  split
  · rename_i he; subst he; exact h k vs s hs
  · trivial

theorem Decodes.on {cfg : Cfg} {v rest : Bytes} {a : α} (h : c.Decodes cfg v a rest) :
    c.On win cfg (spot v (.ok a rest)) := On.spot_ fun k vs s hs => h k vs s hs

theorem Rejects.on {cfg : Cfg} {v : Bytes} {e : ParseError} (h : c.Rejects cfg v e) :
    c.On win cfg (spot v (.err e)) := On.spot_ fun k vs s hs => .inl (h k vs s hs)

theorem RejectsOrPanics.on {cfg : Cfg} {v : Bytes} {e : ParseError} (h : c.RejectsOrPanics cfg v e) :
    c.On True cfg (spot v (.err e)) := On.spot_ fun k vs s hs => by
  rcases h k vs s hs with h | ⟨hk, hp, h⟩
  · exact .inl h
  · refine .inr ⟨⟨trivial, ?_⟩, h⟩
    cases k with
    | byte => exact hp
    | memo => exact hp
    | slice => exact (hk rfl).elim

/-- Nothing is known of `parse`. -/
theorem On.any (c : Codec α) (cfg : Cfg) : c.On win cfg (fun _ => .wild) := fun _ _ _ _ _ => trivial

/-- A successful run is a successful run of the pure decoder. -/
theorem On.inv {cfg : Cfg} (h : c.On win cfg d) {k : Backend} {v : Bytes} {vs : List Bytes} {s s' : k.State}
    {a : α} (hs : k.Holds v vs s) (he : c.parse (k.ops cfg.prof) s = .ok a s') (hw : d v ≠ .wild) :
    ∃ rest, d v = .ok a rest ∧ k.Holds rest vs s' := by
  have h1 := h k v vs s hs
  rw [he] at h1
  cases hd : d v with
  | ok a' rest =>
    rw [hd] at h1
    obtain ⟨s2, h1, h2⟩ := h1
    cases h1
    exact ⟨rest, rfl, h2⟩
  | err e => rw [hd] at h1; rcases h1 with ⟨_, _, h1, _⟩ | ⟨_, h1⟩ <;> cases h1
  | panic => rw [hd] at h1; cases h1
  | diverge => rw [hd] at h1; cases h1
  | wild => exact (hw hd).elim

theorem Parses.inv (h : c.Parses win d) {cfg : Cfg} {k : Backend} {v : Bytes} {vs : List Bytes} {s s' : k.State}
    {a : α} (hs : k.Holds v vs s) (he : c.parse (k.ops cfg.prof) s = .ok a s') (hw : d v ≠ .wild) :
    ∃ rest, d v = .ok a rest ∧ k.Holds rest vs s' := On.inv (Parses.on h cfg) hs he hw

theorem Writes.writeToVec (h : c.Writes e) (x : α) (buf : Bytes) :
    c.writeToVec x buf = (e x).map (buf ++ ·) := by
  have := h vecLawful x buf buf rfl
  unfold Codec.writeToVec
  cases he : e x with
  | none => rw [he] at this; simp only at this; simp [this]
  | some b =>
    rw [he] at this
    obtain ⟨t', h1, rfl⟩ := this
    simp [h1]

theorem Writes.toBytes (h : c.Writes e) (x : α) : c.toBytes x = e x := by
  rw [Codec.toBytes, h.writeToVec]
  simp

/-- On every kind of target `write_to` appends the bytes `to_bytes` gives and returns their number, or panics
if `to_bytes` does. -/
def Appending (c : Codec α) : Prop := c.Writes c.toBytes

theorem Writes.appending (h : c.Writes e) : c.Appending := by
  have he : c.toBytes = e := funext fun x => Writes.toBytes h x
  unfold Appending
  rwa [he]

end Codec

end Verif
