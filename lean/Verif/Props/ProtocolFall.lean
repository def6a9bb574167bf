import Verif.Props.Protocol
import Verif.Props.Fall
/-
C100 in release builds when a `VPadded` of one of the messages finds fewer bytes than its padding has.
-/
namespace Verif

/-- SPECIFICATION: what becomes of reading a run in release builds when one of the messages comes to a `VPadded` that finds fewer
bytes than its padding has (`Schema.fall`). -/
noncomputable def Protocol.fall (cfg : Cfg) (l : Nat) : Protocol → Bytes → Fate
  | .done, _ => .err
  | .msg s k, v => match s.dec cfg v with
    | .ok x rest => (k x).fall cfg l rest
    | _ => s.fall cfg l 0 v

namespace Protocol

theorem falls {σ : Type} {P : ParserOps σ} {pan : Prop} {R : Bytes → List Bytes → σ → Prop} {l : Nat} {Z : Nat → Nat → σ → Prop}
    (L : Lawful P pan R) (S : Sinks P R l Z) (cfg : Cfg) (hp : cfg.prof = .release) :
    ∀ p : Protocol, (p.All fun s => s.narrow = true) → ∀ v s, R v [] s → p.dec cfg v = .wild →
      p.fall cfg l v ≠ .ok ∧ ∀ s', EndsAs s' (p.read cfg P s) (p.fall cfg l v)
  | done, _, _, _, _, hw => nomatch hw
  | msg t k, hn, v, s, h, hw => by
    have h1 := t.parses cfg L v [] s h
    have h2 := t.falls L S cfg hp hn.1 v [] s h
    change DecRes.bind (t.dec cfg v) _ = .wild at hw
    show (Protocol.fall cfg l (.msg t k) v) ≠ .ok ∧ ∀ s', EndsAs s' (((t.codec cfg).parse P >>= _) s) _
    rw [Protocol.fall]
    cases hd : t.dec cfg v with
    | ok x rest =>
      rw [hd] at h1 hw
      obtain ⟨s1, e1, r1⟩ := h1
      change DecRes.bind ((k x).dec cfg rest) _ = .wild at hw
      have hw : (k x).dec cfg rest = .wild := by
        cases hx : (k x).dec cfg rest with
        | wild => rfl
        | _ => rw [hx] at hw; cases hw
      obtain ⟨n, h3⟩ := falls L S cfg hp (k x) (hn.2 x) rest s1 r1 hw
      refine ⟨n, fun s' => ?_⟩
      rw [M.bind_run, e1]
      exact EndsAs.halt n h3 s'
    | wild => exact ⟨(h2 hd).1, EndsAs.halt (h2 hd).1 (h2 hd).2⟩
    | _ => rw [hd] at hw; cases hw

theorem readsPrefix (cfg : Cfg) : ∀ p : Protocol, ReadsPrefix (p.dec cfg)
  | done => .pure _
  | msg s k => .bind (s.readsPrefix cfg) fun x => .bind ((k x).readsPrefix cfg) fun _ => .pure _

theorem noPanic (cfg : Cfg) (hp : cfg.prof = .release) : ∀ p : Protocol, NoPanic (p.dec cfg)
  | done => .pure _
  | msg s k => .bind (s.noPanic cfg hp) fun x => .bind ((k x).noPanic cfg hp) fun _ => .pure _

theorem fall_zero (cfg : Cfg) : ∀ (p : Protocol) (v : Bytes), p.fall cfg 0 v = .err
  | done, _ => rfl
  | msg s k, v => by
    rw [Protocol.fall]
    split
    · exact fall_zero cfg _ _
    · exact s.fall_zero 0 v

theorem fall_ne (cfg : Cfg) (l : Nat) {x : Fate} (hx : x ≠ .err) : ∀ p : Protocol, (p.All fun s => s.avoids x = true) →
    ∀ v, p.fall cfg l v ≠ x
  | done, _, _ => hx.symm
  | msg s k, h, v => by
    rw [Protocol.fall]
    split
    · exact fall_ne cfg l hx _ (h.2 _) _
    · exact s.fall_ne (cfg := cfg) (l := l) hx h.1 0 v

end Protocol

namespace Props

open Codec

/-- How parser code ends. -/
def Halts {σ α : Type} (o : Out σ ParseError α) : Fate → Prop
  | .ok => ∃ a s, o = .ok a s
  | .err => ∃ e s, o = .err e s
  | .panic => o = .panic
  | .ub => o = .ub
  | .diverge => o = .diverge

theorem Halts.unique {σ α : Type} {o : Out σ ParseError α} {x y : Fate} (h : Halts o x) (h' : Halts o y) : x = y := by
  cases x <;> cases y <;> first
    | rfl
    | (obtain ⟨_, _, h⟩ := h; obtain ⟨_, _, h'⟩ := h'; rw [h] at h'; cases h')
    | (obtain ⟨_, _, h⟩ := h; have h' : _ = _ := h'; rw [h] at h'; cases h')
    | (obtain ⟨_, _, h'⟩ := h'; have h : _ = _ := h; rw [h'] at h; cases h)
    | (have h : _ = _ := h; have h' : _ = _ := h'; rw [h] at h'; cases h')

/-- C100 to the letter in release builds: what one gets from reading a run on any bytes whatsoever with any of the parsers.
(Missing: arrays of more than `isize::MAX + 1` bytes.) -/
theorem C100_release_exact (cfg : Cfg) (hp : cfg.prof = .release) (p : Protocol) (hn : p.All fun s => s.narrow = true) (buf : Bytes)
    (hb : buf.length ≤ isizeMax) (k : Backend) :
    match p.dec cfg buf with
    | .ok r rest => ∃ st, p.read cfg (k.ops cfg.prof) (k.init buf) = .ok r st ∧ k.Holds rest [] st
    | .err _ => Halts (p.read cfg (k.ops cfg.prof) (k.init buf)) .err
    | .panic => False
    | .diverge => Halts (p.read cfg (k.ops cfg.prof) (k.init buf)) .diverge
    | .wild => p.fall cfg (k.room buf.length) buf ≠ .ok ∧
        Halts (p.read cfg (k.ops cfg.prof) (k.init buf)) (p.fall cfg (k.room buf.length) buf) := by
  have h := Parses.on (p.parses (cfg := cfg)) cfg k buf [] _ (k.holds_init hb)
  rw [show (p.codec cfg).parse (k.ops cfg.prof) = p.read cfg (k.ops cfg.prof) from rfl] at h
  cases hd : p.dec cfg buf with
  | ok r rest => rw [hd] at h; exact h
  | err e =>
    rw [hd] at h
    rcases h with ⟨e', s', h, _⟩ | ⟨h, _⟩
    · exact ⟨e', s', h⟩
    · have h := h.2
      rw [hp] at h
      cases k <;> cases h
  | panic => exact absurd hd (p.noPanic cfg hp buf)
  | diverge => rw [hd] at h; exact h
  | wild =>
    have key : p.fall cfg (k.room buf.length) buf ≠ .ok ∧
        ∀ s', EndsAs s' (p.read cfg (k.ops cfg.prof) (k.init buf)) (p.fall cfg (k.room buf.length) buf) := by
      rw [hp]
      match k with
      | .byte => exact p.falls (byteLawful .release buf) (byteSinks buf) cfg hp hn buf _ (ByteR.start hb) hd
      | .memo => exact p.falls (memoLawful .release buf) (memoSinks buf) cfg hp hn buf _ (MemoR.start hb) hd
      | .slice => exact p.falls sliceLawful sliceSinks cfg hp hn buf _ (Backend.holds_init .slice hb) hd
    refine ⟨key.1, ?_⟩
    have := key.2 (k.init buf)
    generalize p.fall cfg (k.room buf.length) buf = x at this key
    cases x with
    | ok => exact absurd rfl key.1
    | _ => exact this

/-- C100: in release builds, too, every parser that gets the messages of a run gets the same ones, and leaves the same bytes. -/
theorem C100_release_values (cfg : Cfg) (hp : cfg.prof = .release) (p : Protocol) (hn : p.All fun s => s.narrow = true) (buf : Bytes)
    (hb : buf.length ≤ isizeMax) (k k' : Backend) (r : p.Run) (st : k.State)
    (h : p.read cfg (k.ops cfg.prof) (k.init buf) = .ok r st) :
    ∃ n st', p.read cfg (k'.ops cfg.prof) (k'.init buf) = .ok r st' ∧ k.Holds (buf.drop n) [] st ∧ k'.Holds (buf.drop n) [] st' := by
  have h1 := C100_release_exact cfg hp p hn buf hb k
  have h2 := C100_release_exact cfg hp p hn buf hb k'
  have ho : Halts (p.read cfg (k.ops cfg.prof) (k.init buf)) .ok := ⟨r, st, h⟩
  cases hd : p.dec cfg buf with
  | ok r' rest =>
    rw [hd] at h1 h2
    obtain ⟨s1, e1, g1⟩ := h1
    obtain ⟨s2, e2, g2⟩ := h2
    rw [h] at e1
    cases e1
    obtain ⟨q, rfl⟩ := p.readsPrefix cfg buf r rest hd
    exact ⟨q.length, s2, e2, by rwa [List.drop_left], by rwa [List.drop_left]⟩
  | err e => rw [hd] at h1; cases Halts.unique h1 ho
  | panic => rw [hd] at h1; exact h1.elim
  | diverge => rw [hd] at h1; cases Halts.unique h1 ho
  | wild => rw [hd] at h1; exact absurd (h1.2.unique ho) h1.1

/-- C100: exactly when reading a run has undefined behaviour in release builds. -/
theorem C100_release_ub (cfg : Cfg) (hp : cfg.prof = .release) (p : Protocol) (hn : p.All fun s => s.narrow = true) (buf : Bytes)
    (hb : buf.length ≤ isizeMax) (k : Backend) :
    p.read cfg (k.ops cfg.prof) (k.init buf) = .ub ↔ p.dec cfg buf = .wild ∧ p.fall cfg (k.room buf.length) buf = .ub := by
  have h1 := C100_release_exact cfg hp p hn buf hb k
  constructor
  · intro h
    have ho : Halts (p.read cfg (k.ops cfg.prof) (k.init buf)) .ub := h
    cases hd : p.dec cfg buf with
    | ok r rest => rw [hd] at h1; obtain ⟨_, e, _⟩ := h1; rw [h] at e; cases e
    | err e => rw [hd] at h1; cases Halts.unique h1 ho
    | panic => rw [hd] at h1; exact h1.elim
    | diverge => rw [hd] at h1; cases Halts.unique h1 ho
    | wild => rw [hd] at h1; exact ⟨rfl, h1.2.unique ho⟩
  · rintro ⟨hd, hf⟩
    rw [hd, hf] at h1
    exact h1.2

/-- C100: `SliceParser` never reads outside the buffer, and the others do not if no `VPadded` of the messages takes all that seems
left to it.  (Missing: arrays of more than `isize::MAX + 1` bytes.) -/
theorem C100_release_safe_partial (cfg : Cfg) (hp : cfg.prof = .release) (p : Protocol) (hn : p.All fun s => s.narrow = true)
    (buf : Bytes) (hb : buf.length ≤ isizeMax) (k : Backend) (hk : k = .slice ∨ p.All fun s => s.avoids .ub = true) :
    p.read cfg (k.ops cfg.prof) (k.init buf) ≠ .ub := by
  rw [Ne, C100_release_ub cfg hp p hn buf hb k]
  rintro ⟨_, hf⟩
  rcases hk with rfl | ha
  · rw [show Backend.slice.room buf.length = 0 from rfl, p.fall_zero] at hf
    cases hf
  · exact p.fall_ne cfg _ (x := .ub) nofun ha buf hf

/-- C100: `ByteParser` and `MemoParser` end alike on all bytes. -/
theorem C100_release_byte_memo (cfg : Cfg) (hp : cfg.prof = .release) (p : Protocol) (hn : p.All fun s => s.narrow = true)
    (buf : Bytes) (hb : buf.length ≤ isizeMax) : ∃ x, Halts (p.read cfg (Backend.byte.ops cfg.prof) (Backend.byte.init buf)) x ∧
      Halts (p.read cfg (Backend.memo.ops cfg.prof) (Backend.memo.init buf)) x := by
  have h1 := C100_release_exact cfg hp p hn buf hb .byte
  have h2 := C100_release_exact cfg hp p hn buf hb .memo
  cases hd : p.dec cfg buf with
  | ok r rest =>
    rw [hd] at h1 h2
    obtain ⟨s1, e1, _⟩ := h1
    obtain ⟨s2, e2, _⟩ := h2
    exact ⟨.ok, ⟨r, s1, e1⟩, ⟨r, s2, e2⟩⟩
  | err e => rw [hd] at h1 h2; exact ⟨_, h1, h2⟩
  | panic => rw [hd] at h1; exact h1.elim
  | diverge => rw [hd] at h1 h2; exact ⟨_, h1, h2⟩
  | wild => rw [hd] at h1 h2; exact ⟨_, h1.2, h2.2⟩

/-! ### examples -/

/-- A number of bytes of padding to come, and bytes with two bytes of padding. -/
def paddedAfter : Protocol := .msg (.int .u8) fun _ => .msg (.vpadded 2 .bytes) fun _ => .done

/-- The padding is there: all parsers get the message.  It is not: `ByteParser` reads outside the buffer, `SliceParser` reports an
error. -/
example (cfg : Cfg) (hp : cfg.prof = .release) : paddedAfter.All (fun s => s.narrow = true) ∧
    (∃ r rest, paddedAfter.dec cfg [7, 1, 0, 0] = .ok r rest) ∧
    paddedAfter.read cfg (Backend.byte.ops cfg.prof) (Backend.byte.init [7, 1]) = .ub ∧
    paddedAfter.read cfg (Backend.slice.ops cfg.prof) (Backend.slice.init [7, 1]) ≠ .ub := by
  have hn : paddedAfter.All (fun s => s.narrow = true) := ⟨rfl, fun _ => ⟨rfl, fun _ => trivial⟩⟩
  have hb : [(7 : Byte), 1].length ≤ isizeMax := by decide
  refine ⟨hn, ⟨_, _, rfl⟩, (C100_release_ub cfg hp _ hn _ hb .byte).2 ⟨?_, ?_⟩, C100_release_safe_partial cfg hp _ hn _ hb .slice (.inl rfl)⟩
  · obtain ⟨_, _, _, _⟩ := cfg; cases hp; rfl
  · obtain ⟨_, _, _, _⟩ := cfg; cases hp; rfl

end Props
end Verif
