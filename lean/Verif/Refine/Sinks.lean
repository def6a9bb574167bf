import Verif.Refine.Backend
import Verif.Spec.Fall
/-
`ByteParser` and `MemoParser` in a window that ends before the cursor, in release builds.
-/
namespace Verif

/-- What calls do in windows that end before the cursor: `Z o d s` if the cursor is at offset `o` and the innermost window ends `d`
bytes before it. -/
structure Sinks {σ : Type} (P : ParserOps σ) (R : Bytes → List Bytes → σ → Prop) (l : Nat) (Z : Nat → Nat → σ → Prop) : Prop where
  bound : ∀ {o d s}, Z o d s → 0 < d ∧ d ≤ o ∧ o ≤ isizeMax
  sink : ∀ {v vs s} {n : Nat}, R v vs s → v.length < n → n ≤ isizeMax + 1 →
    if n - v.length ≤ l - (v.length + vs.flatten.length) then
      ∃ s', P.setFit (v.length + usizeMod - n) s = .ok () s' ∧ Z (l - (v.length + vs.flatten.length)) (n - v.length) s'
    else ∃ e s', P.setFit (v.length + usizeMod - n) s = .err e s'
  remainder : ∀ {o d s}, Z o d s → P.remainder s = .ok (usizeMod - d) s
  consumeByte : ∀ {o d s}, Z o d s → ∃ e s', P.consumeByte s = .err e s'
  consume : ∀ {o d s} {n : Nat}, Z o d s → n ≤ isizeMax + 1 → ∃ e s', P.consume n s = .err e s'
  take : ∀ {o d s}, Z o d s → P.consume (usizeMod - d) s = .ub
  setFit : ∀ {o d s} {n : Nat}, Z o d s → n ≤ isizeMax + 1 →
    if d + n ≤ o then ∃ s', P.setFit (usizeMod - d - n) s = .ok () s' ∧ Z o (d + n) s'
    else ∃ e s', P.setFit (usizeMod - d - n) s = .err e s'
  enforce : ∀ {o d s}, Z o d s → ∃ e s', P.enforceTarget s = .err e s'

/-- The cursor is at `o`, the innermost window ends `d` bytes before. -/
structure Sunk (o d : Nat) (c : ContextOffset) : Prop where
  cur : c.cur = o
  le : o ≤ c.abs
  abs : c.abs ≤ isizeMax
  pos : 0 < d
  deep : d ≤ o
  frames : ∃ fs, c.frames = (o - d) :: fs

theorem uadd_past {a b t : Nat} (h : a + b = t + usizeMod) (ht : t < usizeMod) : uadd .release a b = some t := by
  unfold uadd
  rw [if_neg (by omega)]
  simp only [Option.some.injEq]
  rw [h, Nat.add_mod_right, Nat.mod_eq_of_lt ht]

namespace Sunk

variable {o d n : Nat} {c : ContextOffset}

theorem limit (h : Sunk o d c) : c.limit = o - d := by
  obtain ⟨fs, hf⟩ := h.frames
  simp [ContextOffset.limit, hf]

theorem advance (h : Sunk o d c) (hn : n ≤ isizeMax + 1) : c.advance .release n = some ((c.cur, false), c) := by
  have h1 := h.limit
  have h2 := h.cur
  have h3 := h.le
  have h4 := h.abs
  have h5 := h.pos
  have h6 := h.deep
  have hm := usizeMod_eq
  unfold ContextOffset.advance
  rw [uadd_of_lt (by omega)]
  simp only
  rw [if_neg (by omega)]

theorem advance_all (h : Sunk o d c) : c.advance .release (usizeMod - d) = some ((o, true), { c with cur := o - d }) := by
  have h1 := h.limit
  have h2 := h.cur
  have h3 := h.le
  have h4 := h.abs
  have h5 := h.pos
  have h6 := h.deep
  have hm := usizeMod_eq
  unfold ContextOffset.advance
  rw [uadd_past (t := o - d) (by omega) (by omega)]
  simp only
  rw [if_pos (by omega), h2]

theorem remainder (h : Sunk o d c) : usub .release c.limit c.index = some (usizeMod - d) := by
  have h1 := h.limit
  have h2 := h.cur
  have h3 := h.le
  have h4 := h.abs
  have h5 := h.pos
  have h6 := h.deep
  have hm := usizeMod_eq
  rw [h1, ContextOffset.index, h2]
  unfold usub
  rw [if_neg (by omega)]
  simp only [Option.some.injEq]
  rw [Nat.mod_eq_of_lt (by omega)]
  omega

theorem enforce (h : Sunk o d c) : ∃ e c', c.enforceTarget = .err e c' := by
  have h2 := h.cur
  have h5 := h.pos
  have h6 := h.deep
  obtain ⟨fs, hf⟩ := h.frames
  have h1 : ¬ o - d = c.index := by rw [ContextOffset.index]; omega
  have h3 : ¬ o - d > c.index := by rw [ContextOffset.index]; omega
  unfold ContextOffset.enforceTarget
  rw [hf]
  simp only [if_neg h1, if_neg h3]
  exact ⟨_, _, rfl⟩

theorem setFit (h : Sunk o d c) (hn : n ≤ isizeMax + 1) :
    if d + n ≤ o then ∃ c', c.setFit .release (usizeMod - d - n) = .ok () c' ∧ Sunk o (d + n) c'
    else ∃ e, c.setFit .release (usizeMod - d - n) = .err e c := by
  have h2 := h.cur
  have h3 := h.le
  have h4 := h.abs
  have h5 := h.pos
  have h6 := h.deep
  have hm := usizeMod_eq
  obtain ⟨fs, hf⟩ := h.frames
  split
  · rename_i hd
    have e : c.setFit .release (usizeMod - d - n) = .ok () { c with frames := (o - (d + n)) :: c.frames } := by
      unfold ContextOffset.setFit
      rw [ContextOffset.index, uadd_past (t := o - (d + n)) (by omega) (by omega)]
      simp only
      rw [if_neg (by omega)]
      unfold ContextOffset.pushFrame
      rw [hf]
      simp only [List.head?_cons, ContextOffset.detectError]
      rw [if_neg (by omega)]
    exact ⟨_, e, h2, h3, h4, by omega, hd, _, rfl⟩
  · rename_i hd
    unfold ContextOffset.setFit
    rw [ContextOffset.index, uadd_of_lt (by omega)]
    simp only
    rw [if_pos (by omega)]
    cases hu : usub .release c.abs (usizeMod - d - n) with
    | none =>
      unfold usub at hu
      split at hu <;> cases hu
    | some m => exact ⟨_, rfl⟩

end Sunk

theorem Chain.unread {buf : Bytes} : ∀ {cur : Nat} {fs : List Nat}, Chain buf.length cur fs →
    (segTop buf cur fs).length + (segOuter buf fs).flatten.length = buf.length - cur
  | cur, [], _ => by simp [segTop, segOuter]
  | cur, f :: fs, h => by
    have ih := Chain.unread h.2
    have h1 := h.1
    have h2 := h.2.le_head
    have h3 := h.2.head_le_abs
    simp only [segOuter, List.flatten_cons, List.length_append]
    rw [ih]
    simp only [segTop, List.head?_cons, Option.getD_some, List.length_take, List.length_drop]
    omega

theorem OffInv.unread {buf : Bytes} {c : ContextOffset} (h : OffInv buf c) :
    (absCursor buf c).top.length + (absCursor buf c).outer.flatten.length = buf.length - c.cur :=
  Chain.unread (h.abs_eq ▸ h.chain)

/-- A window of a size that wrapped around. -/
theorem ContextOffset.sinks {buf : Bytes} {c : ContextOffset} (hi : OffInv buf c) {n : Nat} {v : Bytes} {vs : List Bytes}
    {pos : Nat} (ha : absCursor buf c = { pos, top := v, outer := vs }) (hv : v.length < n) (hn : n ≤ isizeMax + 1) :
    if n - v.length ≤ buf.length - (v.length + vs.flatten.length) then
      ∃ c', c.setFit .release (v.length + usizeMod - n) = .ok () c' ∧
        Sunk (buf.length - (v.length + vs.flatten.length)) (n - v.length) c'
    else ∃ e, c.setFit .release (v.length + usizeMod - n) = .err e c := by
  have hlen : v.length + vs.flatten.length = buf.length - c.cur := by
    have := hi.unread
    rw [ha] at this
    exact this
  have h1 := hi.cur_le_limit
  have h2 := hi.limit_le
  have h3 := hi.small
  have h4 := hi.abs_eq
  have h5 := hi.length_top
  rw [ha] at h5
  have h5 : v.length = c.limit - c.cur := h5
  have hm := usizeMod_eq
  have ho : buf.length - (v.length + vs.flatten.length) = c.cur := by omega
  rw [ho]
  split
  · rename_i hd
    have e : c.setFit .release (v.length + usizeMod - n) = .ok () { c with frames := (c.cur - (n - v.length)) :: c.frames } := by
      unfold ContextOffset.setFit
      rw [ContextOffset.index, uadd_past (t := c.cur - (n - v.length)) (by omega) (by omega)]
      simp only
      rw [if_neg (by omega)]
      unfold ContextOffset.pushFrame
      cases hf : c.frames with
      | nil => simp [ContextOffset.detectError]
      | cons t fs =>
        have hl : c.limit = t := by simp [ContextOffset.limit, hf]
        simp only [List.head?_cons, ContextOffset.detectError]
        rw [if_neg (by omega)]
    exact ⟨_, e, rfl, by show c.cur ≤ c.abs; omega, by show c.abs ≤ _; omega, by omega, hd, _, rfl⟩
  · rename_i hd
    unfold ContextOffset.setFit
    rw [ContextOffset.index, uadd_of_lt (by omega)]
    simp only
    rw [if_pos (by omega)]
    cases hu : usub .release c.abs (v.length + usizeMod - n) with
    | none =>
      unfold usub at hu
      split at hu <;> cases hu
    | some m => exact ⟨_, rfl⟩

theorem getSlice_inverted {buf : Bytes} {o d : Nat} (hd : 0 < d) (hdo : d ≤ o) (ho : o ≤ isizeMax) :
    VecBuffer.getSliceUnchecked .release buf o (usizeMod - d) = .ub := by
  have hm := usizeMod_eq
  unfold VecBuffer.getSliceUnchecked
  rw [uadd_past (t := o - d) (by omega) (by omega)]
  simp only
  rw [if_neg (by omega)]

theorem byteSinks (buf : Bytes) : Sinks (ByteParser.ops .release) (ByteR buf) buf.length (fun o d s => Sunk o d s.off) where
  bound h := ⟨h.pos, h.deep, Nat.le_trans h.le h.abs⟩
  sink := by
    rintro v vs s n ⟨pos, rfl, hi, ha⟩ hv hn
    have := ContextOffset.sinks hi ha hv hn
    revert this
    split
    · rintro ⟨c', h1, h2⟩
      exact ⟨_, by simp only [ByteParser.ops, ByteParser.liftOff, h1]; rfl, h2⟩
    · rintro ⟨e, h1⟩
      exact ⟨e, _, by simp only [ByteParser.ops, ByteParser.liftOff, h1]; rfl⟩
  remainder h := by
    simp only [ByteParser.ops, ByteParser.remainder, ByteParser.viewLen, ByteParser.offset, h.remainder]
  consumeByte h := by
    simp only [ByteParser.ops, ByteParser.consumeByte, h.advance (Nat.le_add_left 1 _)]
    exact ⟨_, _, rfl⟩
  consume h hn := by
    simp only [ByteParser.ops, ByteParser.consume, h.advance hn]
    exact ⟨_, _, rfl⟩
  take h := by
    simp only [ByteParser.ops, ByteParser.consume, h.advance_all, if_true,
      getSlice_inverted h.pos h.deep (Nat.le_trans h.le h.abs)]
  setFit := by
    intro o d s n h hn
    have := h.setFit hn
    revert this
    split
    · rintro ⟨c', h1, h2⟩
      exact ⟨_, by simp only [ByteParser.ops, ByteParser.liftOff, h1]; rfl, h2⟩
    · rintro ⟨e, h1⟩
      exact ⟨e, _, by simp only [ByteParser.ops, ByteParser.liftOff, h1]; rfl⟩
  enforce h := by
    obtain ⟨e, c', h1⟩ := h.enforce
    exact ⟨e, _, by simp only [ByteParser.ops, ByteParser.liftOff, h1]; rfl⟩

/-- Printing the log succeeds. -/
def Logged (s : MemoParser) : Prop := s.buffer.length ≤ isizeMax ∧ s.munches.sum ≤ s.buffer.length

theorem Logged.fail {α : Type} {s : MemoParser} (h : Logged s) (e : ParseError) :
    (MemoParser.failDump .release e s : Out MemoParser ParseError α) = .err e s := by
  obtain ⟨segs, hs⟩ := dumpGo_val .release h.1 s.munches 0 (by have := h.2; omega)
  simp [MemoParser.failDump, MemoParser.dump, hs]

theorem memoSinks (buf : Bytes) :
    Sinks (MemoParser.ops .release) (MemoR buf) buf.length (fun o d s => Sunk o d s.off ∧ Logged s) where
  bound h := ⟨h.1.pos, h.1.deep, Nat.le_trans h.1.le h.1.abs⟩
  sink := by
    rintro v vs s n ⟨pos, hm, ha⟩ hv hn
    obtain rfl := hm.buf_eq
    have hl : Logged s := ⟨hm.off.small, by
      have := hm.log
      have := hm.off.cur_le_limit
      have := hm.off.limit_le
      omega⟩
    have := ContextOffset.sinks hm.off ha hv hn
    revert this
    split
    · rintro ⟨c', h1, h2⟩
      exact ⟨{ s with off := c' }, by simp only [MemoParser.ops, MemoParser.liftOff, h1], h2, hl⟩
    · rintro ⟨e, h1⟩
      exact ⟨e, _, by simp only [MemoParser.ops, MemoParser.liftOff, h1]; rfl⟩
  remainder h := by
    simp only [MemoParser.ops, MemoParser.remainder, MemoParser.viewLen, MemoParser.offset, h.1.remainder]
  consumeByte h := by
    simp only [MemoParser.ops, MemoParser.consumeByte, h.1.advance (Nat.le_add_left 1 _)]
    exact ⟨_, _, h.2.fail _⟩
  consume h hn := by
    simp only [MemoParser.ops, MemoParser.consume, h.1.advance hn]
    exact ⟨_, _, h.2.fail _⟩
  take h := by
    simp only [MemoParser.ops, MemoParser.consume, h.1.advance_all, if_true,
      getSlice_inverted h.1.pos h.1.deep (Nat.le_trans h.1.le h.1.abs)]
  setFit := by
    intro o d s n h hn
    have := h.1.setFit hn
    revert this
    split
    · rintro ⟨c', h1, h2⟩
      exact ⟨{ s with off := c' }, by simp only [MemoParser.ops, MemoParser.liftOff, h1], h2, h.2⟩
    · rintro ⟨e, h1⟩
      exact ⟨e, _, by simp only [MemoParser.ops, MemoParser.liftOff, h1]; rfl⟩
  enforce h := by
    obtain ⟨e, c', h1⟩ := h.1.enforce
    exact ⟨e, _, by simp only [MemoParser.ops, MemoParser.liftOff, h1]; rfl⟩

/-- `SliceParser` opens no windows larger than the view. -/
theorem sliceSinks : Sinks SliceParser.ops SliceR 0 (fun _ _ _ => False) where
  bound := False.elim
  sink := by
    rintro v vs s n ⟨pos, hr, hb⟩ hv hn
    rw [if_neg (by omega)]
    obtain ⟨views⟩ := s
    simp only [SliceRep] at hr
    subst hr
    have hm := usizeMod_eq
    simp only [List.length_append] at hb
    simp only [SliceParser.ops, SliceParser.setFit]
    rw [if_neg (by omega)]
    exact ⟨_, _, rfl⟩
  remainder := False.elim
  consumeByte := False.elim
  consume h := h.elim
  take := False.elim
  setFit h := h.elim
  enforce := False.elim

end Verif
