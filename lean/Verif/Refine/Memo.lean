import Verif.Refine.Byte
/-
`MemoParser` behaves as `ByteParser`.
-/
namespace Verif

/-- Translate the state carried by an outcome. -/
def Out.mapS {σ τ ε α : Type} (f : σ → τ) : Out σ ε α → Out τ ε α
  | .ok a s => .ok a (f s)
  | .err e s => .err e (f s)
  | .panic => .panic
  | .ub => .ub
  | .diverge => .diverge

/-- The state an outcome leaves behind satisfies `Q` (if there is one). -/
def Out.AllS {σ ε α : Type} (Q : σ → Prop) : Out σ ε α → Prop
  | .ok _ s => Q s
  | .err _ s => Q s
  | _ => True

/-- Forget the munch log. -/
def MemoParser.toByte (m : MemoParser) : ByteParser := { buffer := m.buffer, off := m.off }

/-- The munch log never accounts for more than what was consumed. -/
structure MemoInv (buf : Bytes) (m : MemoParser) : Prop where
  buf_eq : m.buffer = buf
  off : OffInv buf m.off
  log : m.munches.sum ≤ m.off.cur

theorem dumpGo_val (p : Profile) {buf : Bytes} (hb : buf.length ≤ isizeMax) :
    ∀ (ls : List Nat) (ix : Nat), ix + ls.sum ≤ buf.length → ∃ segs, MemoParser.dumpGo p buf ix ls = .val segs
  | [], _, _ => ⟨[], rfl⟩
  | len :: ls, ix, h => by
    simp only [List.sum_cons] at h
    have hu : uadd p ix len = some (ix + len) :=
      uadd_of_lt (by simp only [usizeMod_eq] at *; omega)
    obtain ⟨segs, hs⟩ := dumpGo_val p hb ls (ix + len) (by omega)
    have h1 : ix + len ≤ buf.length := by omega
    exact ⟨(buf.drop ix).take len :: segs, by simp [MemoParser.dumpGo, VecBuffer.getSlice, VecBuffer.getSliceUnchecked, hu, h1, hs]⟩

theorem dump_val (p : Profile) {buf : Bytes} {m : MemoParser} (h : MemoInv buf m) : ∃ segs, m.dump p = .val segs := by
  have h1 := h.off.cur_le_limit
  have h2 := h.off.limit_le
  have h3 := h.log
  exact dumpGo_val p (buf := m.buffer) (by rw [h.buf_eq]; exact h.off.small) m.munches 0 (by rw [h.buf_eq]; omega)

theorem failDump_eq (p : Profile) {buf : Bytes} {m : MemoParser} (h : MemoInv buf m) (e : ParseError)
    {α : Type} : (MemoParser.failDump p e m : Out MemoParser ParseError α) = .err e m := by
  have h1 := h.off.cur_le_limit
  have h2 := h.off.limit_le
  have h3 := h.log
  obtain ⟨segs, hs⟩ := dumpGo_val p (buf := m.buffer) (by rw [h.buf_eq]; exact h.off.small) m.munches 0
    (by rw [h.buf_eq]; omega)
  simp [MemoParser.failDump, MemoParser.dump, hs]

theorem MemoInv.start {buf : Bytes} (hb : buf.length ≤ isizeMax) : MemoInv buf (MemoParser.fromBuffer buf) :=
  ⟨rfl, OffInv.withLimit hb, Nat.le_refl _⟩

theorem advance_cases {p : Profile} {n : Nat} {c : ContextOffset} {ix : Nat} {adv : Bool}
    {o : ContextOffset} (h : c.advance p n = some ((ix, adv), o)) (hs : c.cur + n < usizeMod) :
    ix = c.cur ∧ ((adv = true ∧ o = { c with cur := c.cur + n }) ∨ (adv = false ∧ o = c)) := by
  simp only [ContextOffset.advance, uadd, if_pos hs] at h
  split at h
  · simp only [Option.some.injEq, Prod.mk.injEq] at h
    obtain ⟨⟨rfl, rfl⟩, rfl⟩ := h
    exact ⟨rfl, .inl ⟨rfl, rfl⟩⟩
  · simp only [Option.some.injEq, Prod.mk.injEq] at h
    obtain ⟨⟨rfl, rfl⟩, rfl⟩ := h
    exact ⟨rfl, .inr ⟨rfl, rfl⟩⟩

/-- Operations on the two parsers have the same outcome. -/
theorem memo_run_core (p : Profile) {buf : Bytes} {m : MemoParser} (h : MemoInv buf m) (op : Op)
    (ha : p = .debug ∨ m.off.cur + op.arg < usizeMod)
    (hoff : ((ByteParser.ops p).run op m.toByte).AllS (fun b => OffInv buf b.off)) :
    ((MemoParser.ops p).run op m).mapS MemoParser.toByte = (ByteParser.ops p).run op m.toByte ∧
    ((MemoParser.ops p).run op m).AllS (MemoInv buf) := by
  -- reduce to: same outcome, same buffer, log still bounded
  suffices hs : ((MemoParser.ops p).run op m).mapS MemoParser.toByte = (ByteParser.ops p).run op m.toByte ∧
      ((MemoParser.ops p).run op m).AllS (fun m' => m'.buffer = buf ∧ m'.munches.sum ≤ m'.off.cur) by
    refine ⟨hs.1, ?_⟩
    rw [← hs.1] at hoff
    revert hoff
    have := hs.2
    revert this
    cases (MemoParser.ops p).run op m <;> simp only [Out.AllS, Out.mapS, MemoParser.toByte] <;>
      first
        | exact fun h1 h2 => ⟨h1.1, h2, h1.2⟩
        | exact fun _ _ => trivial
  have hlog := h.log
  have hbuf := h.buf_eq
  cases op with
  | viewLen => exact ⟨rfl, hbuf, hlog⟩
  | offset => exact ⟨rfl, hbuf, hlog⟩
  | remainder =>
    simp only [ParserOps.run, ByteParser.ops, MemoParser.ops, M.map_run, MemoParser.remainder,
      ByteParser.remainder, MemoParser.viewLen, ByteParser.viewLen, MemoParser.offset, ByteParser.offset,
      MemoParser.toByte]
    cases usub p m.off.limit m.off.index with
    | none => exact ⟨rfl, trivial⟩
    | some r => exact ⟨rfl, hbuf, hlog⟩
  | consumeByte =>
    simp only [ParserOps.run, ByteParser.ops, MemoParser.ops, M.map_run, MemoParser.consumeByte,
      ByteParser.consumeByte]
    have hb : (m.toByte).off = m.off := rfl
    rw [hb]
    have hlt : m.off.cur + 1 < usizeMod := by
      have h1 := h.off.cur_le_limit
      have h2 := h.off.limit_le
      have h3 := h.off.small
      simp only [usizeMod_eq] at *; omega
    cases hadv : m.off.advance p 1 with
    | none => exact ⟨rfl, trivial⟩
    | some r =>
      obtain ⟨⟨ix, adv⟩, o⟩ := r
      obtain ⟨hix, ⟨rfl, rfl⟩ | ⟨rfl, rfl⟩⟩ := advance_cases hadv hlt
      · subst hix
        simp only [if_true, MemoParser.toByte]
        cases VecBuffer.getByte m.buffer m.off.cur with
        | val b => exact ⟨rfl, hbuf, by simp [List.sum_append]; omega⟩
        | panic => exact ⟨rfl, trivial⟩
        | ub => exact ⟨rfl, trivial⟩
      · simp only [Bool.false_eq_true, if_false]
        rw [failDump_eq p (m := m) h]
        exact ⟨rfl, hbuf, hlog⟩
  | consume n =>
    simp only [ParserOps.run, ByteParser.ops, MemoParser.ops, M.map_run, MemoParser.consume,
      ByteParser.consume]
    have hb : (m.toByte).off = m.off := rfl
    rw [hb]
    cases hadv : m.off.advance p n with
    | none => exact ⟨rfl, trivial⟩
    | some r =>
      obtain ⟨⟨ix, adv⟩, o⟩ := r
      have hlt : m.off.cur + n < usizeMod := by
        rcases ha with hp | ha
        · subst hp
          simp only [ContextOffset.advance, uadd] at hadv
          by_cases hlt : m.off.cur + n < usizeMod
          · exact hlt
          · rw [if_neg hlt] at hadv; cases hadv
        · exact ha
      obtain ⟨hix, ⟨rfl, rfl⟩ | ⟨rfl, rfl⟩⟩ := advance_cases hadv hlt
      · subst hix
        simp only [if_true, MemoParser.toByte]
        cases VecBuffer.getSliceUnchecked p m.buffer m.off.cur n with
        | val b => exact ⟨rfl, hbuf, by simp [List.sum_append]; omega⟩
        | panic => exact ⟨rfl, trivial⟩
        | ub => exact ⟨rfl, trivial⟩
      · simp only [Bool.false_eq_true, if_false]
        rw [failDump_eq p (m := m) h]
        exact ⟨rfl, hbuf, hlog⟩
  | setFit n =>
    simp only [ParserOps.run, ByteParser.ops, MemoParser.ops, M.map_run, MemoParser.liftOff,
      ByteParser.liftOff]
    have hb : (m.toByte).off = m.off := rfl
    rw [hb]
    have hcur : (ContextOffset.setFit p n m.off).AllS (fun o => o.cur = m.off.cur) := by
      simp only [ContextOffset.setFit, ContextOffset.pushFrame]
      repeat' split
      all_goals first | rfl | trivial
    revert hcur
    cases ContextOffset.setFit p n m.off with
    | ok a o => intro hc; exact ⟨rfl, hbuf, by simp only [Out.AllS] at hc; simp only [hc]; exact hlog⟩
    | err e o => intro hc; exact ⟨rfl, hbuf, by simp only [Out.AllS] at hc; simp only [hc]; exact hlog⟩
    | panic => intro _; exact ⟨rfl, trivial⟩
    | ub => intro _; exact ⟨rfl, trivial⟩
    | diverge => intro _; exact ⟨rfl, trivial⟩
  | testTarget =>
    simp only [ParserOps.run, ByteParser.ops, MemoParser.ops, M.map_run, MemoParser.liftOff,
      ByteParser.liftOff]
    have hb : (m.toByte).off = m.off := rfl
    rw [hb]
    have hcur : (ContextOffset.testTarget m.off).AllS (fun o => o.cur = m.off.cur) := by
      simp only [ContextOffset.testTarget]
      repeat' split
      all_goals first | rfl | trivial
    revert hcur
    cases ContextOffset.testTarget m.off with
    | ok a o => intro hc; exact ⟨rfl, hbuf, by simp only [Out.AllS] at hc; simp only [hc]; exact hlog⟩
    | err e o => intro hc; exact ⟨rfl, hbuf, by simp only [Out.AllS] at hc; simp only [hc]; exact hlog⟩
    | panic => intro _; exact ⟨rfl, trivial⟩
    | ub => intro _; exact ⟨rfl, trivial⟩
    | diverge => intro _; exact ⟨rfl, trivial⟩
  | enforceTarget =>
    simp only [ParserOps.run, ByteParser.ops, MemoParser.ops, M.map_run, MemoParser.liftOff,
      ByteParser.liftOff]
    have hb : (m.toByte).off = m.off := rfl
    rw [hb]
    have hcur : (ContextOffset.enforceTarget m.off).AllS (fun o => o.cur = m.off.cur) := by
      simp only [ContextOffset.enforceTarget]
      repeat' split
      all_goals first | rfl | trivial
    revert hcur
    cases ContextOffset.enforceTarget m.off with
    | ok a o => intro hc; exact ⟨rfl, hbuf, by simp only [Out.AllS] at hc; simp only [hc]; exact hlog⟩
    | err e o => intro hc; exact ⟨rfl, hbuf, by simp only [Out.AllS] at hc; simp only [hc]; exact hlog⟩
    | panic => intro _; exact ⟨rfl, trivial⟩
    | ub => intro _; exact ⟨rfl, trivial⟩
    | diverge => intro _; exact ⟨rfl, trivial⟩
  | skip n =>
    simp only [ParserOps.run, ByteParser.ops, MemoParser.ops, M.map_run, MemoParser.skip, ByteParser.skip]
    have hb : (m.toByte).off = m.off := rfl
    rw [hb]
    cases hr : m.off.rem p with
    | none => exact ⟨rfl, trivial⟩
    | some r =>
      simp only
      have h1 := h.off.cur_le_limit
      have h2 := h.off.limit_le
      have h3 := h.off.small
      have hrr : r = m.off.limit - m.off.cur := by
        cases p <;> simp [ContextOffset.rem, ContextOffset.index, h1, usub_of_le h1] at hr <;> exact hr.symm
      have hlt : m.off.cur + min r n < usizeMod := by
        simp only [usizeMod_eq] at *; omega
      cases hadv : m.off.advance p (min r n) with
      | none => exact ⟨rfl, trivial⟩
      | some q =>
        obtain ⟨⟨ix, adv⟩, o⟩ := q
        obtain ⟨hix, ⟨rfl, rfl⟩ | ⟨rfl, rfl⟩⟩ := advance_cases hadv hlt
        · exact ⟨rfl, hbuf, by simp [List.sum_append]; omega⟩
        · obtain ⟨segs, hs⟩ := dump_val p h
          simp only [Bool.false_eq_true, if_false, hs]
          exact ⟨rfl, trivial⟩
  | skipExactly n =>
    simp only [ParserOps.run, ByteParser.ops, MemoParser.ops, M.map_run, MemoParser.skipExactly,
      ByteParser.skipExactly]
    have hb : (m.toByte).off = m.off := rfl
    rw [hb]
    cases hadv : m.off.advance p n with
    | none => exact ⟨rfl, trivial⟩
    | some r =>
      obtain ⟨⟨ix, adv⟩, o⟩ := r
      have hlt : m.off.cur + n < usizeMod := by
        rcases ha with hp | ha
        · subst hp
          simp only [ContextOffset.advance, uadd] at hadv
          by_cases hlt : m.off.cur + n < usizeMod
          · exact hlt
          · rw [if_neg hlt] at hadv; cases hadv
        · exact ha
      obtain ⟨hix, ⟨rfl, rfl⟩ | ⟨rfl, rfl⟩⟩ := advance_cases hadv hlt
      · exact ⟨rfl, hbuf, by simp only; omega⟩
      · simp only [Bool.false_eq_true, if_false]
        rw [failDump_eq p (m := m) h]
        exact ⟨rfl, hbuf, hlog⟩

theorem memo_run (p : Profile) {buf : Bytes} {m : MemoParser} (h : MemoInv buf m) (op : Op)
    (ha : op.Adm p) :
    ((MemoParser.ops p).run op m).mapS MemoParser.toByte = (ByteParser.ops p).run op m.toByte ∧
    ((MemoParser.ops p).run op m).AllS (MemoInv buf) := by
  have hstep := byte_step p (s := m.toByte) (c := absCursor buf m.off) ⟨h.buf_eq, h.off, rfl⟩ op ha
  refine memo_run_core p h op (ha.imp_right fun ha => ?_) ?_
  · have h1 := h.off.cur_le_limit
    have h2 := h.off.limit_le
    have h3 := h.off.small
    simp only [usizeMod_eq] at *; omega
  · revert hstep
    cases hc : (absCursor buf m.off).step op with
    | mk r c' =>
      cases r with
      | ok o =>
        rintro ⟨s', he, hr⟩
        rw [he]; exact hr.2.1
      | error e =>
        rintro (⟨e', s', he, _, hr⟩ | ⟨_, he⟩)
        · rw [he]; exact hr.2.1
        · rw [he]; trivial

/-- Representation relation of `MemoParser` over a fixed input. -/
def MemoRep (buf : Bytes) (m : MemoParser) (c : Cursor) : Prop :=
  MemoInv buf m ∧ absCursor buf m.off = c

theorem MemoRep.start {buf : Bytes} (hb : buf.length ≤ isizeMax) :
    MemoRep buf (MemoParser.fromBuffer buf) (Cursor.start buf) :=
  ⟨MemoInv.start hb, absCursor_withLimit⟩

/-- `MemoParser` refines the windowed cursor. -/
theorem memo_step (p : Profile) {buf : Bytes} {s : MemoParser} {c : Cursor} (h : MemoRep buf s c)
    (op : Op) (ha : op.Adm p) :
    StepRefines (MemoRep buf) ParseError.eraseOpen (op.mayPanic p buf)
      ((MemoParser.ops p).run op s) (c.step op) := by
  obtain ⟨hi, rfl⟩ := h
  have hstep := byte_step p (s := s.toByte) (c := absCursor buf s.off) ⟨hi.buf_eq, hi.off, rfl⟩ op ha
  obtain ⟨heq, hall⟩ := memo_run p hi op ha
  rw [← heq] at hstep
  revert hstep hall
  generalize (MemoParser.ops p).run op s = out
  cases (absCursor buf s.off).step op with
  | mk r c' =>
    cases r with
    | ok o =>
      rintro ⟨s', he, hr⟩ hall
      cases out <;> simp only [Out.mapS, reduceCtorEq, Out.ok.injEq] at he
      obtain ⟨rfl, rfl⟩ := he
      exact ⟨_, rfl, hall, hr.2.2⟩
    | error e =>
      rintro (⟨e', s', he, hk, hr⟩ | ⟨hp, he⟩) hall
      · cases out <;> simp only [Out.mapS, reduceCtorEq, Out.err.injEq] at he
        obtain ⟨rfl, rfl⟩ := he
        exact .inl ⟨_, _, rfl, hk, hall, hr.2.2⟩
      · cases out <;> simp only [Out.mapS, reduceCtorEq] at he
        exact .inr ⟨hp, rfl⟩

end Verif
