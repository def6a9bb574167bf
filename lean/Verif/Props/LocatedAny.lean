import Verif.Props.Located
import Verif.Props.Parsers
/-
C95 wherever a decoding begins: after any calls, in any open windows.
-/
namespace Verif

/-- A parser after any calls none of which has wrapped. -/
theorem Backend.rep_exec {p : Profile} {buf : Bytes} (hb : buf.length ≤ isizeMax) {ops : List Op}
    (ha : p = .debug ∨ Cursor.Fits ops (Cursor.start buf)) : {k : Backend} → k ≠ .slice → {s : k.State} →
    (k.ops p).exec ops (k.init buf) = some s → k.Rep buf s (Cursor.exec ops (Cursor.start buf))
  | .byte, _, _, h => byte_exec hb ha h
  | .memo, _, _, h => memo_exec hb ha h
  | .slice, h, _, _ => absurd rfl h

namespace Props

variable {α : Type}

/-- C95 wherever a decoding begins: the numbers in an error of the parser are those of the parser when decoding stopped, which is
where it began or later; `SliceParser`, at the same place with the same windows, reports the same error counted from where decoding
stopped; and the number of bytes said to be left in the buffer is the length of the whole input less the size of the window. -/
theorem C95_any_partial {c : Codec α} (h : c.Covered) (p : Profile) (k : Backend) (hk : k ≠ .slice) (buf : Bytes)
    (hb : buf.length ≤ isizeMax) (ops : List Op) (ha : p = .debug ∨ Cursor.Fits ops (Cursor.start buf)) (s : k.State)
    (hs : (k.ops p).exec ops (k.init buf) = some s) (e : ParseError) (st : k.State) (he : c.parse (k.ops p) s = .err e st) :
    let off := (k.ops p).offset st
    let lim := (k.ops p).viewLen st
    ((k.ops p).offset s ≤ off ∧ off ≤ lim ∧ lim ≤ buf.length ∧ Points buf.length off lim e) ∧
    (∃ t, c.parse SliceParser.ops ⟨(Cursor.exec ops (Cursor.start buf)).top :: (Cursor.exec ops (Cursor.start buf)).outer⟩ =
      .err (fromHere off lim e) t) ∧
    ∀ b n, e = .window (.openWouldExceedBuffer b n) →
      b = (buf.length + usizeMod - n) % usizeMod ∧ (p = .debug → n ≤ buf.length ∧ b = buf.length - n) := by
  intro off lim
  have hr := Backend.rep_exec hb ha hk hs
  have X := Backend.exactly p hb hk
  generalize hc : Cursor.exec ops (Cursor.start buf) = c0 at hr
  have hl := (covered_steady h).locks X c0 s ⟨c0.top :: c0.outer⟩ hr rfl
  simp only [he] at hl
  have ho := hr.offset p hk
  generalize hy : c.parse SliceParser.ops ⟨c0.top :: c0.outer⟩ = y at hl
  cases hl with
  | own _ _ t' c' hw ha hp =>
    have h1 : off = c'.pos := ha.offset p hk
    have h2 : lim = c'.pos + c'.top.length := ha.viewLen p hk
    rw [h1, h2, ho]
    have hw := hw.elim id id
    refine ⟨⟨hp, Nat.le_add_right _ _, X.bound ha, Points.own hw⟩, ⟨t', ?_⟩, ?_⟩
    · rw [fromHere_own hw]
    · rintro b n rfl
      cases hw
  | told _ e' _ t' c' ha hp ht =>
    have h1 : off = c'.pos := ha.offset p hk
    have h2 : lim = c'.pos + c'.top.length := ha.viewLen p hk
    rw [h1, h2, ho]
    refine ⟨⟨hp, Nat.le_add_right _ _, X.bound ha, ht.points (X.bound ha)⟩, ⟨t', ?_⟩, ?_⟩
    · rw [← ht.fromHere]
    · rintro b n rfl
      cases ht with
      | buffer _ h1 h2 =>
        refine ⟨rfl, fun hd => ⟨h2 hd, ?_⟩⟩
        have := h2 hd
        have := usizeMod_eq
        rw [show buf.length + usizeMod - n = buf.length - n + usizeMod by omega, Nat.add_mod_right, Nat.mod_eq_of_lt (by omega)]

/-- Two parsers at the same place of inputs of the same length, with the same windows open. -/
structure SamePlace (c c' : Cursor) : Prop where
  pos : c'.pos = c.pos
  window : c'.top.length = c.top.length
  windows : c'.outer.map List.length = c.outer.map List.length

/-- C95: how a decoding ends is settled by where it begins, by the windows that are open, by the length of the input, and by the
bytes between where it begins and where it ends: bytes before and behind do not matter, nor how one has come there, nor which of the
parsers that know their position it is. -/
theorem C95_between {c : Codec α} (h : c.Covered) (p : Profile) (k k' : Backend) (hk : k ≠ .slice) (hk' : k' ≠ .slice)
    (buf buf' : Bytes) (hb : buf.length ≤ isizeMax) (hl : buf'.length = buf.length) (ops ops' : List Op)
    (ha : p = .debug ∨ Cursor.Fits ops (Cursor.start buf)) (ha' : p = .debug ∨ Cursor.Fits ops' (Cursor.start buf'))
    (s : k.State) (s' : k'.State) (hs : (k.ops p).exec ops (k.init buf) = some s) (hs' : (k'.ops p).exec ops' (k'.init buf') = some s')
    (hw : SamePlace (Cursor.exec ops (Cursor.start buf)) (Cursor.exec ops' (Cursor.start buf'))) :
    (∀ a st, c.parse (k.ops p) s = .ok a st →
      (buf'.drop ((k.ops p).offset s)).take ((k.ops p).offset st - (k.ops p).offset s) =
        (buf.drop ((k.ops p).offset s)).take ((k.ops p).offset st - (k.ops p).offset s) →
      ∃ st', c.parse (k'.ops p) s' = .ok a st' ∧ (k'.ops p).offset st' = (k.ops p).offset st ∧
        (k'.ops p).viewLen st' = (k.ops p).viewLen st) ∧
    (∀ e st, c.parse (k.ops p) s = .err e st →
      (buf'.drop ((k.ops p).offset s)).take ((k.ops p).offset st - (k.ops p).offset s) =
        (buf.drop ((k.ops p).offset s)).take ((k.ops p).offset st - (k.ops p).offset s) →
      ∃ st', c.parse (k'.ops p) s' = .err e st' ∧ (k'.ops p).offset st' = (k.ops p).offset st ∧
        (k'.ops p).viewLen st' = (k.ops p).viewLen st) := by
  have hb' : buf'.length ≤ isizeMax := hl ▸ hb
  have hr := Backend.rep_exec hb ha hk hs
  have hr' := Backend.rep_exec hb' ha' hk' hs'
  have hat := (C01_cursor_reads_input_in_order buf ops).2
  have hat' := (C01_cursor_reads_input_in_order buf' ops').2
  generalize Cursor.exec ops (Cursor.start buf) = c0 at hr hw hat
  generalize Cursor.exec ops' (Cursor.start buf') = c0' at hr' hw hat'
  have X' : Exactly (k'.ops p) p buf.length (k'.Rep buf') := hl ▸ Backend.exactly p hb' hk'
  have ht : Twin _ _ _ _ (c.parse (k'.ops p)) (c.parse (k.ops p) s) :=
    (covered_steady h).twins (Backend.exactly p hb hk) X' _ _ hr
  have hal : Alike c0 c0' := ⟨hw.pos.symm, hw.window.symm, hw.windows.symm⟩
  have ho := hr.offset p hk
  constructor
  · intro a st he hbytes
    rw [he] at ht
    obtain ⟨_, c1, h1, h2, h3⟩ := ht
    have ho1 := h1.offset p hk
    rw [ho, ho1] at hbytes
    obtain ⟨st', c1', e', h4, h5, _⟩ := h3 c0' s' hr' hal (by rw [Agree, hat, hat', hw.pos, hbytes])
    exact ⟨st', e', by rw [h4.offset p hk', ho1, h5.pos], by rw [h4.viewLen p hk', h1.viewLen p hk, h5.pos, h5.top]⟩
  · intro e st he hbytes
    rw [he] at ht
    obtain ⟨c1, h1, h2, h3⟩ := ht
    have ho1 := h1.offset p hk
    rw [ho, ho1] at hbytes
    obtain ⟨st', c1', e', h4, h5⟩ := h3 c0' s' hr' hal (by rw [Agree, hat, hat', hw.pos, hbytes])
    exact ⟨st', e', by rw [h4.offset p hk', ho1, h5.pos], by rw [h4.viewLen p hk', h1.viewLen p hk, h5.pos, h5.top]⟩

/-! ### examples -/

/-- One byte read or skipped, a window of two open. -/
example : SamePlace (Cursor.exec [.consumeByte, .setFit 2] (Cursor.start [9, 1, 2, 3, 4, 5]))
    (Cursor.exec [.skip 1, .setFit 2] (Cursor.start [8, 1, 2, 7, 7, 7])) := by
  constructor <;> decide


/-- After one byte, in a window of two, a `u32` is one too much. -/
example (cfg : Cfg) : let buf : Bytes := [9, 1, 2, 3, 4, 5]
    let ops : List Op := [.consumeByte, .setFit 2]
    ((Schema.int .u32).codec cfg).Covered ∧ Cursor.Fits ops (Cursor.start buf) ∧
    ∃ s st, (Backend.byte.ops cfg.prof).exec ops (Backend.byte.init buf) = some s ∧
      ((Schema.int .u32).codec cfg).parse (Backend.byte.ops cfg.prof) s = .err (.window (.consumeWouldExceedLimit 1 4 3)) st := by
  refine ⟨.library cfg _ rfl, ?_, ?_⟩
  · have := usizeMod_ge
    simp [Cursor.Fits, Cursor.Overflows, Cursor.start, Cursor.step, Cursor.adv, Op.arg]
    omega
  · obtain ⟨p, _, _, _⟩ := cfg
    cases p <;> exact ⟨_, _, rfl, rfl⟩

end Props
end Verif
