import Verif.Spec.CursorExact
import Verif.Refine.Trace
/-
`ByteParser` and `MemoParser` against the exact specification, for all arguments.
-/
namespace Verif

variable {buf : Bytes} {c : ContextOffset}

/-- `out` gives the answer `r` and leaves a state that `A` relates to `c'`. -/
def Gives {σ : Type} (A : σ → Cursor → Prop) (out : Out σ ParseError Obs) (c' : Cursor) : Res → Prop
  | .ok o => ∃ s', out = .ok o s' ∧ A s' c'
  | .err e => ∃ s', out = .err e s' ∧ A s' c'
  | .panic => out = .panic
  | .ub => out = .ub
  | .diverge => out = .diverge

theorem isizeMax_lt : isizeMax + isizeMax < usizeMod := by rw [usizeMod_eq]; omega

theorem uadd_debug {a n : Nat} (hs : usizeMod ≤ a + n) : uadd .debug a n = none := by
  simp [uadd, Nat.not_lt.mpr hs]

theorem uadd_wrap {a n : Nat} (ha : a < usizeMod) (hn : n < usizeMod) (hs : usizeMod ≤ a + n) :
    uadd .release a n = some (a + n - usizeMod) := by
  simp only [uadd, if_neg (Nat.not_lt.mpr hs), Option.some.injEq]
  rw [Nat.mod_eq_sub_mod hs, Nat.mod_eq_of_lt (by omega)]

/-- `a - n`, wrapped. -/
theorem usub_wrap {a n : Nat} (ha : a < usizeMod) (p : Profile) :
    usub p a n = if p = .debug ∧ a < n then none else some ((a + usizeMod - n) % usizeMod) := by
  unfold usub
  by_cases h : n ≤ a
  · rw [if_pos h, if_neg (by omega), Nat.add_comm, Nat.add_sub_assoc h, Nat.add_mod_left,
      Nat.mod_eq_of_lt (by omega)]
  · cases p <;> simp [h]

theorem OffInv.not_overflows (h : OffInv buf c) {n : Nat} (hn : n ≤ (absCursor buf c).top.length) :
    c.cur + n < usizeMod := by
  have h1 := h.cur_le_limit
  have h2 := h.limit_le
  have h3 := h.small
  have hl := h.length_top
  have := isizeMax_lt
  omega

theorem OffInv.cur_lt (h : OffInv buf c) : c.cur < usizeMod := h.not_overflows (n := 0) (Nat.zero_le _)

theorem OffInv.arg_le (h : OffInv buf c) {n : Nat} (hn : n ≤ (absCursor buf c).top.length) : n ≤ isizeMax + 1 := by
  have h1 := h.cur_le_limit
  have h2 := h.limit_le
  have h3 := h.small
  have hl := h.length_top
  omega

theorem advance_short (h : OffInv buf c) (p : Profile) {n : Nat} (hs : c.cur + n < usizeMod)
    (hn : (absCursor buf c).top.length < n) : c.advance p n = some ((c.cur, false), c) := by
  have h1 := h.cur_le_limit
  rw [h.length_top] at hn
  simp only [ContextOffset.advance, uadd_of_lt hs]
  rw [if_neg (by omega)]

theorem advance_overflow_debug {n : Nat} (hs : usizeMod ≤ c.cur + n) : c.advance .debug n = none := by
  simp only [ContextOffset.advance, uadd_debug hs]

theorem advance_overflow_release (h : OffInv buf c) {n : Nat} (hn : n < usizeMod) (hs : usizeMod ≤ c.cur + n) :
    c.advance .release n = some ((c.cur, true), { c with cur := c.cur + n - usizeMod }) := by
  have h1 := h.cur_le_limit
  simp only [ContextOffset.advance, uadd_wrap h.cur_lt hn hs]
  rw [if_pos (by omega)]

/-- What is reported of a window that does not fit. -/
def openAnswer (p : Profile) (len pos lim n : Nat) : Option ParseError :=
  if len < pos + n then
    if p = .debug ∧ len < n then none
    else some (.window (.openWouldExceedBuffer ((len + usizeMod - n) % usizeMod) n))
  else some (.window (.openWouldExceedWindow lim (pos + n)))

theorem setFit_short (h : OffInv buf c) (p : Profile) {n : Nat} (hs : c.cur + n < usizeMod)
    (hn : (absCursor buf c).top.length < n) :
    ContextOffset.setFit p n c = match openAnswer p buf.length c.cur c.limit n with
      | some e => .err e c
      | none => .panic := by
  have h1 := h.cur_le_limit
  have h2 := h.limit_le
  have h3 := h.small
  have h4 := isizeMax_lt
  have hl := h.length_top
  simp only [ContextOffset.setFit, ContextOffset.index, uadd_of_lt hs, h.abs_eq, openAnswer]
  by_cases hgt : buf.length < c.cur + n
  · rw [if_pos hgt, if_pos hgt, usub_wrap (by omega)]
    split
    · rename_i hx
      split at hx
      · rename_i hc; rw [if_pos hc]
      · cases hx
    · rename_i hx
      split at hx
      · cases hx
      · rename_i hc; rw [if_neg hc]; cases hx; rfl
  · rw [if_neg (by omega), if_neg hgt]
    simp only [ContextOffset.pushFrame, ContextOffset.detectError]
    have hlim := h.limit_eq
    cases hf : c.frames with
    | nil =>
      rw [hf] at hlim
      simp only [List.head?_nil, Option.getD_none] at hlim
      omega
    | cons f fs =>
      rw [hf] at hlim
      simp only [List.head?_cons, Option.getD_some] at hlim
      simp only [List.head?_cons]
      rw [if_pos (by omega), hlim]

theorem setFit_overflow_debug {n : Nat} (hs : usizeMod ≤ c.cur + n) : ContextOffset.setFit .debug n c = .panic := by
  simp only [ContextOffset.setFit, ContextOffset.index, uadd_debug hs]

theorem setFit_overflow_release (h : OffInv buf c) {n : Nat} (hn : n < usizeMod) (hs : usizeMod ≤ c.cur + n) :
    ∃ t, t + usizeMod = c.cur + n ∧ t < c.cur ∧
      ContextOffset.setFit .release n c = .ok () { c with frames := t :: c.frames } := by
  have h1 := h.cur_le_limit
  have h2 := h.limit_le
  have habs := h.abs_eq
  have hu := uadd_wrap h.cur_lt hn hs
  obtain ⟨t, ht⟩ : ∃ t, t = c.cur + n - usizeMod := ⟨_, rfl⟩
  rw [← ht] at hu
  have ht2 : t < c.cur := by omega
  refine ⟨t, by omega, ht2, ?_⟩
  clear ht
  simp only [ContextOffset.setFit, ContextOffset.index, hu]
  rw [if_neg (by omega)]
  simp only [ContextOffset.pushFrame, ContextOffset.detectError]
  have hlim := h.limit_eq
  cases hf : c.frames with
  | nil => simp
  | cons f fs =>
    rw [hf] at hlim
    simp only [List.head?_cons, Option.getD_some] at hlim
    simp only [List.head?_cons]
    rw [if_neg (by omega)]

theorem Cursor.step_error_ne_open {c : Cursor} {op : Op} {e : ParseError} (he : (c.step op).1 = .error e)
    (hne : ∀ n, op ≠ .setFit n) {e' : ParseError} (hk : e'.eraseOpen = e.eraseOpen) : e' = e := by
  have h1 : e.eraseOpen = e ∧ e ≠ Cursor.openErr := by
    cases op <;> simp only [Cursor.step] at he <;> (repeat' split at he) <;>
      simp only [Except.error.injEq, reduceCtorEq] at he <;>
      (subst he; first | exact (hne _ rfl).elim | exact ⟨rfl, by simp [Cursor.openErr, Cursor.shortErr]⟩)
  rw [h1.1] at hk
  revert hk
  unfold ParseError.eraseOpen
  split
  · exact fun h => (h1.2 h.symm).elim
  · exact fun h => (h1.2 h.symm).elim
  · exact id

/-- One operation of `ByteParser`, to the letter. -/
theorem byte_gives (p : Profile) {s : ByteParser} {c : Cursor} (h : ByteRep buf s c) (op : Op)
    (ho : p = .debug ∨ ¬ c.Overflows op) :
    Gives (ByteRep buf) ((ByteParser.ops p).run op s) (c.step op).2 (c.answer p buf.length op) := by
  by_cases hov : c.Overflows op
  · -- debug builds panic
    have hp : p = .debug := ho.resolve_right (not_not_intro hov)
    subst hp
    simp only [Cursor.answer, if_pos hov, Gives]
    obtain ⟨rfl, hi, rfl⟩ := h
    have hlt := hi.cur_lt
    cases op with
    | consume n =>
      simp only [ParserOps.run, ByteParser.ops, M.map_run, ByteParser.consume]
      rw [advance_overflow_debug (c := s.off) (n := n) hov]; rfl
    | setFit n =>
      simp only [ParserOps.run, ByteParser.ops, M.map_run, ByteParser.liftOff]
      rw [setFit_overflow_debug (c := s.off) (n := n) hov]; rfl
    | skipExactly n =>
      simp only [ParserOps.run, ByteParser.ops, M.map_run, ByteParser.skipExactly]
      rw [advance_overflow_debug (c := s.off) (n := n) hov]; rfl
    | _ =>
      have : usizeMod ≤ s.off.cur + 0 := hov
      omega
  · have hstep := byte_step p h op
    obtain ⟨rfl, hi, rfl⟩ := h
    have hlt : s.off.cur + op.arg < usizeMod := Nat.not_le.mp hov
    simp only [Cursor.answer, if_neg hov]
    have hv := hi.viewLen
    -- operations without an argument
    have easy : op.arg = 0 → (∀ n, op ≠ .setFit n) →
        Gives (ByteRep s.buffer) ((ByteParser.ops p).run op s) ((absCursor s.buffer s.off).step op).2
          (match ((absCursor s.buffer s.off).step op).1 with
            | .ok o => .ok o
            | .error e => .err e) := by
      intro h0 hne
      have h1 := hstep (.inr (by rw [h0]; exact Nat.zero_le _))
      have hnp : ¬ op.mayPanic p s.buffer := by
        intro hm
        obtain ⟨_, n, hn⟩ := Op.mayPanic_setFit (by rw [h0]; exact Nat.zero_le _) hm
        exact hne n hn
      have hne' := fun e (he : ((absCursor s.buffer s.off).step op).1 = .error e) (e' : ParseError) hk =>
        Cursor.step_error_ne_open he hne (e' := e') hk
      revert h1 hne'
      cases (absCursor s.buffer s.off).step op with
      | mk r c' =>
        cases r with
        | ok o => exact fun h1 _ => h1
        | error e =>
          rintro (⟨e', s', he, hk, hr⟩ | ⟨hp, _⟩) hne'
          · exact ⟨s', hne' e rfl e' hk ▸ he, hr⟩
          · exact (hnp hp).elim
    cases op with
    | consume n =>
      by_cases hn : n ≤ (absCursor s.buffer s.off).top.length
      · have := hstep (.inr (hi.arg_le hn))
        simp only [Cursor.step, if_pos hn] at this ⊢
        exact this
      · simp only [Cursor.step, if_neg hn]
        refine ⟨s, ?_, rfl, hi, rfl⟩
        simp only [ParserOps.run, ByteParser.ops, M.map_run, ByteParser.consume]
        rw [advance_short (n := n) hi p hlt (by omega)]
        simp only [Cursor.shortErr, ← hv]
        rfl
    | skipExactly n =>
      by_cases hn : n ≤ (absCursor s.buffer s.off).top.length
      · have := hstep (.inr (hi.arg_le hn))
        simp only [Cursor.step, if_pos hn] at this ⊢
        exact this
      · simp only [Cursor.step, if_neg hn]
        refine ⟨s, ?_, rfl, hi, rfl⟩
        simp only [ParserOps.run, ByteParser.ops, M.map_run, ByteParser.skipExactly]
        rw [advance_short (n := n) hi p hlt (by omega)]
        simp only [Cursor.shortErr, ← hv]
        rfl
    | setFit n =>
      by_cases hn : n ≤ (absCursor s.buffer s.off).top.length
      · have := hstep (.inr (hi.arg_le hn))
        simp only [Cursor.step, if_pos hn] at this ⊢
        exact this
      · simp only [Cursor.step, if_neg hn]
        have hset := setFit_short (n := n) hi p hlt (by omega)
        have hpos : (absCursor s.buffer s.off).pos = s.off.cur := rfl
        rw [← hv, hpos]
        simp only [ParserOps.run, ByteParser.ops, M.map_run, ByteParser.liftOff]
        unfold openAnswer at hset
        by_cases h1 : s.buffer.length < s.off.cur + n
        · rw [if_pos h1] at hset ⊢
          by_cases h2 : p = .debug ∧ s.buffer.length < n
          · rw [if_pos h2] at hset ⊢
            rw [hset]
            rfl
          · rw [if_neg h2] at hset ⊢
            rw [hset]
            exact ⟨s, rfl, rfl, hi, rfl⟩
        · rw [if_neg h1] at hset ⊢
          rw [hset]
          exact ⟨s, rfl, rfl, hi, rfl⟩
    | _ => exact easy rfl nofun

/-! ### `MemoParser` -/

/-- In every state, for every argument: `MemoParser` does what `ByteParser` does, unless it fails to print its
log while reporting an error or panicking. -/
theorem memo_any (p : Profile) (m : MemoParser) (op : Op) :
    ((MemoParser.ops p).run op m).mapS MemoParser.toByte = (ByteParser.ops p).run op m.toByte ∨
    ((∃ e, (ByteParser.ops p).run op m.toByte = .err e m.toByte) ∧
      ((MemoParser.ops p).run op m = .panic ∨ (MemoParser.ops p).run op m = .ub)) ∨
    ((ByteParser.ops p).run op m.toByte = .panic ∧ (MemoParser.ops p).run op m = .ub) := by
  have hb : (m.toByte).off = m.off := rfl
  have hadv : ∀ {n ix o}, m.off.advance p n = some ((ix, false), o) → o = m.off := by
    intro n ix o h
    simp only [ContextOffset.advance] at h
    repeat' split at h
    all_goals simp_all
  cases op with
  | viewLen => exact .inl rfl
  | offset => exact .inl rfl
  | remainder =>
    left
    simp only [ParserOps.run, ByteParser.ops, MemoParser.ops, M.map_run, MemoParser.remainder,
      ByteParser.remainder, MemoParser.viewLen, ByteParser.viewLen, MemoParser.offset, ByteParser.offset,
      MemoParser.toByte]
    cases usub p m.off.limit m.off.index <;> rfl
  | consumeByte =>
    simp only [ParserOps.run, ByteParser.ops, MemoParser.ops, M.map_run, MemoParser.consumeByte,
      ByteParser.consumeByte]
    rw [hb]
    cases ha : m.off.advance p 1 with
    | none => exact .inl rfl
    | some r =>
      obtain ⟨⟨ix, adv⟩, o⟩ := r
      cases adv with
      | true =>
        left
        simp only [if_true, MemoParser.toByte]
        cases VecBuffer.getByte m.buffer ix <;> rfl
      | false =>
        obtain rfl := hadv ha
        simp only [Bool.false_eq_true, if_false, MemoParser.failDump]
        cases MemoParser.dump p m with
        | val _ => exact .inl rfl
        | panic => exact .inr (.inl ⟨⟨_, rfl⟩, .inl rfl⟩)
        | ub => exact .inr (.inl ⟨⟨_, rfl⟩, .inr rfl⟩)
  | consume n =>
    simp only [ParserOps.run, ByteParser.ops, MemoParser.ops, M.map_run, MemoParser.consume,
      ByteParser.consume]
    rw [hb]
    cases ha : m.off.advance p n with
    | none => exact .inl rfl
    | some r =>
      obtain ⟨⟨ix, adv⟩, o⟩ := r
      cases adv with
      | true =>
        left
        simp only [if_true, MemoParser.toByte]
        cases VecBuffer.getSliceUnchecked p m.buffer ix n <;> rfl
      | false =>
        obtain rfl := hadv ha
        simp only [Bool.false_eq_true, if_false, MemoParser.failDump]
        cases MemoParser.dump p m with
        | val _ => exact .inl rfl
        | panic => exact .inr (.inl ⟨⟨_, rfl⟩, .inl rfl⟩)
        | ub => exact .inr (.inl ⟨⟨_, rfl⟩, .inr rfl⟩)
  | skipExactly n =>
    simp only [ParserOps.run, ByteParser.ops, MemoParser.ops, M.map_run, MemoParser.skipExactly,
      ByteParser.skipExactly]
    rw [hb]
    cases ha : m.off.advance p n with
    | none => exact .inl rfl
    | some r =>
      obtain ⟨⟨ix, adv⟩, o⟩ := r
      cases adv with
      | true => exact .inl rfl
      | false =>
        obtain rfl := hadv ha
        simp only [Bool.false_eq_true, if_false, MemoParser.failDump]
        cases MemoParser.dump p m with
        | val _ => exact .inl rfl
        | panic => exact .inr (.inl ⟨⟨_, rfl⟩, .inl rfl⟩)
        | ub => exact .inr (.inl ⟨⟨_, rfl⟩, .inr rfl⟩)
  | skip n =>
    simp only [ParserOps.run, ByteParser.ops, MemoParser.ops, M.map_run, MemoParser.skip, ByteParser.skip]
    rw [hb]
    cases m.off.rem p with
    | none => exact .inl rfl
    | some r =>
      simp only
      cases m.off.advance p (min r n) with
      | none => exact .inl rfl
      | some q =>
        obtain ⟨⟨ix, adv⟩, o⟩ := q
        cases adv with
        | true => exact .inl rfl
        | false =>
          simp only [Bool.false_eq_true, if_false]
          cases MemoParser.dump p m with
          | val _ => exact .inl rfl
          | panic => exact .inl rfl
          | ub => exact .inr (.inr ⟨rfl, rfl⟩)
  | setFit n =>
    left
    simp only [ParserOps.run, ByteParser.ops, MemoParser.ops, M.map_run, MemoParser.liftOff,
      ByteParser.liftOff]
    rw [hb]
    cases ContextOffset.setFit p n m.off <;> rfl
  | testTarget =>
    left
    simp only [ParserOps.run, ByteParser.ops, MemoParser.ops, M.map_run, MemoParser.liftOff,
      ByteParser.liftOff]
    rw [hb]
    cases ContextOffset.testTarget m.off <;> rfl
  | enforceTarget =>
    left
    simp only [ParserOps.run, ByteParser.ops, MemoParser.ops, M.map_run, MemoParser.liftOff,
      ByteParser.liftOff]
    rw [hb]
    cases ContextOffset.enforceTarget m.off <;> rfl

theorem MemoRep.toByte {m : MemoParser} {c : Cursor} (h : MemoRep buf m c) : ByteRep buf m.toByte c :=
  ⟨h.1.buf_eq, h.1.off, h.2⟩

/-- One operation of `MemoParser`, to the letter. -/
theorem memo_gives (p : Profile) {s : MemoParser} {c : Cursor} (h : MemoRep buf s c) (op : Op)
    (ho : p = .debug ∨ ¬ c.Overflows op) :
    Gives (MemoRep buf) ((MemoParser.ops p).run op s) (c.step op).2 (c.answer p buf.length op) := by
  have hg := byte_gives p h.toByte op ho
  have hoff : ((ByteParser.ops p).run op s.toByte).AllS (fun b => OffInv buf b.off) := by
    revert hg
    cases c.answer p buf.length op with
    | ok o => rintro ⟨s', he, hr⟩; rw [he]; exact hr.2.1
    | err e => rintro ⟨s', he, hr⟩; rw [he]; exact hr.2.1
    | panic => intro he; rw [he]; trivial
    | ub => intro he; rw [he]; trivial
    | diverge => intro he; rw [he]; trivial
  obtain ⟨hi, rfl⟩ := h
  obtain ⟨heq, hall⟩ := memo_run_core p hi op (ho.imp_right Nat.not_le.mp) hoff
  rw [← heq] at hg
  revert hg hall
  generalize (MemoParser.ops p).run op s = out
  cases (absCursor buf s.off).answer p buf.length op with
  | ok o =>
    rintro ⟨s', he, hr⟩ hall
    cases out <;> simp only [Out.mapS, reduceCtorEq, Out.ok.injEq] at he
    obtain ⟨rfl, rfl⟩ := he
    exact ⟨_, rfl, hall, hr.2.2⟩
  | err e =>
    rintro ⟨s', he, hr⟩ hall
    cases out <;> simp only [Out.mapS, reduceCtorEq, Out.err.injEq] at he
    obtain ⟨rfl, rfl⟩ := he
    exact ⟨_, rfl, hall, hr.2.2⟩
  | panic => intro he _; cases out <;> simp_all [Out.mapS, Gives]
  | ub => intro he _; cases out <;> simp_all [Out.mapS, Gives]
  | diverge => intro he _; cases out <;> simp_all [Out.mapS, Gives]

/-! ### the answers are those of the cursor -/

theorem Cursor.answer_step (p : Profile) (len : Nat) {c : Cursor} (hc : c.pos + c.top.length < usizeMod) (op : Op) :
    match c.answer p len op with
    | .ok o => (c.step op).1 = .ok o
    | .err e => (c.step op).1 = .error e.eraseOpen
    | .panic => (∃ e, (c.step op).1 = .error e) ∧ (c.step op).2 = c ∧
        (c.Overflows op ∨ p = .debug ∧ ∃ n, op = .setFit n ∧ len < n)
    | _ => False := by
  by_cases ho : c.Overflows op
  · simp only [Cursor.answer, if_pos ho]
    cases op with
    | consume n =>
      have ho' : usizeMod ≤ c.pos + n := ho
      simp only [Cursor.step, if_neg (show ¬ n ≤ c.top.length by omega)]
      exact ⟨⟨_, rfl⟩, trivial, .inl ho⟩
    | setFit n =>
      have ho' : usizeMod ≤ c.pos + n := ho
      simp only [Cursor.step, if_neg (show ¬ n ≤ c.top.length by omega)]
      exact ⟨⟨_, rfl⟩, trivial, .inl ho⟩
    | skipExactly n =>
      have ho' : usizeMod ≤ c.pos + n := ho
      simp only [Cursor.step, if_neg (show ¬ n ≤ c.top.length by omega)]
      exact ⟨⟨_, rfl⟩, trivial, .inl ho⟩
    | _ =>
      have ho' : usizeMod ≤ c.pos + 0 := ho
      omega
  · simp only [Cursor.answer, if_neg ho]
    cases op with
    | setFit n =>
      by_cases hn : n ≤ c.top.length
      · simp only [Cursor.step, if_pos hn]
      · simp only [Cursor.step, if_neg hn]
        by_cases h1 : len < c.pos + n
        · simp only [if_pos h1]
          by_cases h2 : p = .debug ∧ len < n
          · simp only [if_pos h2]
            exact ⟨⟨_, rfl⟩, trivial, .inr ⟨h2.1, n, rfl, h2.2⟩⟩
          · simp only [if_neg h2]
            rfl
        · simp only [if_neg h1]
          rfl
    | consumeByte => simp only [Cursor.step]; cases c.top <;> rfl
    | consume n =>
      by_cases hn : n ≤ c.top.length
      · simp only [Cursor.step, if_pos hn]
      · simp only [Cursor.step, if_neg hn]
        rfl
    | skipExactly n =>
      by_cases hn : n ≤ c.top.length
      · simp only [Cursor.step, if_pos hn]
      · simp only [Cursor.step, if_neg hn]
        rfl
    | enforceTarget =>
      simp only [Cursor.step]
      cases c.outer with
      | nil => rfl
      | cons v vs =>
        by_cases hn : c.top = []
        · simp only [if_pos hn]
        · simp only [if_neg hn]
          rfl
    | _ => rfl

theorem ByteRep.bound {s : ByteParser} {c : Cursor} (h : ByteRep buf s c) : c.pos + c.top.length < usizeMod := by
  obtain ⟨rfl, hi, rfl⟩ := h
  exact hi.not_overflows (Nat.le_refl _)

theorem ParseError.eraseOpen_idem (e : ParseError) : e.eraseOpen.eraseOpen = e.eraseOpen := by
  cases e with
  | window w => cases w <;> rfl
  | _ => rfl

/-- The operations in terms of the windowed cursor: the same results, or a panic in place of an error. -/
theorem Gives.step {σ : Type} {A : σ → Cursor → Prop} {out : Out σ ParseError Obs} {p : Profile} {len : Nat}
    {c : Cursor} {op : Op} (hc : c.pos + c.top.length < usizeMod)
    (h : Gives A out (c.step op).2 (c.answer p len op)) :
    StepRefines A ParseError.eraseOpen True out (c.step op) := by
  have ha := Cursor.answer_step p len hc op
  revert h ha
  cases hst : c.step op with
  | mk r c' =>
    cases c.answer p len op with
    | ok o => rintro h ⟨rfl⟩; exact h
    | err e =>
      rintro ⟨s', h1, h2⟩ ⟨rfl⟩
      exact .inl ⟨e, s', h1, e.eraseOpen_idem.symm, h2⟩
    | panic => rintro h ⟨⟨e, rfl⟩, _⟩; exact .inr ⟨trivial, h⟩
    | ub => exact fun _ h => h.elim
    | diverge => exact fun _ h => h.elim

/-! ### lists of operations -/

section Lists
variable {σ : Type} {P : ParserOps σ} {A : σ → Cursor → Prop} {p : Profile} {len : Nat}

/-- The answers of a parser that is exact operation by operation. -/
theorem trace_of_gives
    (hg : ∀ {s c} (op : Op), A s c → (p = .debug ∨ ¬ c.Overflows op) →
      Gives A (P.run op s) (c.step op).2 (c.answer p len op)) :
    ∀ (ops : List Op) {s : σ} {c : Cursor}, A s c →
      ∃ rest, P.trace ops s = Cursor.answers p len ops c ++ rest ∧ (p = .debug ∨ Cursor.Fits ops c → rest = [])
  | [], _, _, _ => ⟨[], rfl, fun _ => rfl⟩
  | op :: ops, s, c, ha => by
    by_cases hov : p = .release ∧ c.Overflows op
    · refine ⟨P.trace (op :: ops) s, by simp only [Cursor.answers, if_pos hov, List.nil_append], ?_⟩
      rintro (h | h)
      · rw [h] at hov; exact absurd hov.1 (by decide)
      · exact (h.1 hov.2).elim
    · have h := hg op ha (by cases p <;> simp_all)
      simp only [Cursor.answers, if_neg hov, ParserOps.trace]
      revert h
      cases c.answer p len op with
      | ok o =>
        rintro ⟨s', he, ha'⟩
        obtain ⟨rest, h1, h2⟩ := trace_of_gives hg ops ha'
        exact ⟨rest, by rw [he]; simp only [h1, List.cons_append], fun h => h2 (h.imp_right And.right)⟩
      | err e =>
        rintro ⟨s', he, ha'⟩
        obtain ⟨rest, h1, h2⟩ := trace_of_gives hg ops ha'
        exact ⟨rest, by rw [he]; simp only [h1, List.cons_append], fun h => h2 (h.imp_right And.right)⟩
      | panic => intro he; exact ⟨[], by rw [he]; rfl, fun _ => rfl⟩
      | ub => intro he; exact ⟨[], by rw [he]; rfl, fun _ => rfl⟩
      | diverge => intro he; exact ⟨[], by rw [he]; rfl, fun _ => rfl⟩

/-- The state reached by a parser that is exact operation by operation. -/
theorem exec_of_gives
    (hg : ∀ {s c} (op : Op), A s c → (p = .debug ∨ ¬ c.Overflows op) →
      Gives A (P.run op s) (c.step op).2 (c.answer p len op)) :
    ∀ (ops : List Op) {s s' : σ} {c : Cursor}, A s c → (p = .debug ∨ Cursor.Fits ops c) →
      P.exec ops s = some s' → A s' (Cursor.exec ops c)
  | [], _, _, _, ha, _, he => by cases he; exact ha
  | op :: ops, s, s', c, ha, hf, he => by
    have h := hg op ha (hf.imp_right And.left)
    have hf' : p = .debug ∨ Cursor.Fits ops (c.step op).2 := hf.imp_right And.right
    simp only [ParserOps.exec, Cursor.exec] at he ⊢
    revert h
    cases c.answer p len op with
    | ok o => rintro ⟨t, ht, ha'⟩; rw [ht] at he; exact exec_of_gives hg ops ha' hf' he
    | err e => rintro ⟨t, ht, ha'⟩; rw [ht] at he; exact exec_of_gives hg ops ha' hf' he
    | panic => intro ht; rw [ht] at he; cases he
    | ub => intro ht; rw [ht] at he; cases he
    | diverge => intro ht; rw [ht] at he; cases he

end Lists

theorem byte_exec {p : Profile} (hb : buf.length ≤ isizeMax) {ops : List Op}
    (ha : p = .debug ∨ Cursor.Fits ops (Cursor.start buf)) {s : ByteParser}
    (he : (ByteParser.ops p).exec ops (ByteParser.fromBuffer buf) = some s) :
    ByteRep buf s (Cursor.exec ops (Cursor.start buf)) :=
  exec_of_gives (fun op h ho => byte_gives p h op ho) ops (ByteRep.start hb) ha he

theorem memo_exec {p : Profile} (hb : buf.length ≤ isizeMax) {ops : List Op}
    (ha : p = .debug ∨ Cursor.Fits ops (Cursor.start buf)) {s : MemoParser}
    (he : (MemoParser.ops p).exec ops (MemoParser.fromBuffer buf) = some s) :
    MemoRep buf s (Cursor.exec ops (Cursor.start buf)) :=
  exec_of_gives (fun op h ho => memo_gives p h op ho) ops (MemoRep.start hb) ha he

/-! ### overflowing requests in release builds -/

theorem byte_consume_overflow {s : ByteParser} {c : Cursor} (h : ByteRep buf s c) {n : Nat}
    (hn : n < usizeMod) (ho : c.Overflows (.consume n)) : (ByteParser.ops .release).consume n s = .ub := by
  obtain ⟨rfl, hi, rfl⟩ := h
  have ho : usizeMod ≤ s.off.cur + n := ho
  have h1 := hi.cur_lt
  simp only [ByteParser.ops, ByteParser.consume, advance_overflow_release hi hn ho, if_true,
    VecBuffer.getSliceUnchecked, uadd_wrap h1 hn ho]
  rw [if_neg (by omega)]

theorem byte_setFit_overflow {s : ByteParser} {c : Cursor} (h : ByteRep buf s c) {n : Nat}
    (hn : n < usizeMod) (ho : c.Overflows (.setFit n)) :
    ∃ s', (ByteParser.ops .release).setFit n s = .ok () s' ∧ (ByteParser.ops .release).remainder s' = .ok n s' := by
  obtain ⟨rfl, hi, rfl⟩ := h
  have ho : usizeMod ≤ s.off.cur + n := ho
  have h1 := hi.cur_lt
  obtain ⟨t, ht1, ht2, hset⟩ := setFit_overflow_release hi hn ho
  refine ⟨{ s with off := { s.off with frames := t :: s.off.frames } }, ?_, ?_⟩
  · simp only [ByteParser.ops, ByteParser.liftOff, hset]
  · have hsub : usub .release t s.off.cur = some n := by
      rw [usub_wrap (by omega), if_neg (by simp)]
      have : t + usizeMod - s.off.cur = n := by omega
      rw [this, Nat.mod_eq_of_lt hn]
    simp [ByteParser.ops, ByteParser.remainder, ByteParser.viewLen, ByteParser.offset, ContextOffset.index,
      ContextOffset.limit, hsub]

theorem byte_skipExactly_overflow {s : ByteParser} {c : Cursor} (h : ByteRep buf s c) {n : Nat}
    (hn : n < usizeMod) (ho : c.Overflows (.skipExactly n)) :
    ∃ s', (ByteParser.ops .release).skipExactly n s = .ok () s' ∧
      (ByteParser.ops .release).offset s' + usizeMod = c.pos + n := by
  obtain ⟨rfl, hi, rfl⟩ := h
  have ho : usizeMod ≤ s.off.cur + n := ho
  have hadv := advance_overflow_release hi hn ho
  obtain ⟨t, ht⟩ : ∃ t, t = s.off.cur + n - usizeMod := ⟨_, rfl⟩
  rw [← ht] at hadv
  have ht' : t + usizeMod = s.off.cur + n := by omega
  exact ⟨{ s with off := { s.off with cur := t } },
    by simp only [ByteParser.ops, ByteParser.skipExactly, hadv, if_true], ht'⟩

theorem memo_consume_overflow {s : MemoParser} {c : Cursor} (h : MemoRep buf s c) {n : Nat}
    (hn : n < usizeMod) (ho : c.Overflows (.consume n)) : (MemoParser.ops .release).consume n s = .ub := by
  have hub := byte_consume_overflow h.toByte hn ho
  have hrun : (ByteParser.ops .release).run (.consume n) s.toByte = .ub := by simp [ParserOps.run, hub]
  rcases memo_any .release s (.consume n) with h | ⟨⟨e, h⟩, _⟩ | ⟨h, _⟩
  · rw [hrun] at h
    simp only [ParserOps.run, M.map_run] at h
    cases hc : (MemoParser.ops .release).consume n s <;> rw [hc] at h <;>
      simp [Out.mapS, Out.bind] at h ⊢
  · rw [hrun] at h; cases h
  · rw [hrun] at h; cases h

theorem memo_setFit_overflow {s : MemoParser} {c : Cursor} (h : MemoRep buf s c) {n : Nat}
    (hn : n < usizeMod) (ho : c.Overflows (.setFit n)) :
    ∃ s', (MemoParser.ops .release).setFit n s = .ok () s' ∧ (MemoParser.ops .release).remainder s' = .ok n s' := by
  obtain ⟨b, h1, h2⟩ := byte_setFit_overflow h.toByte hn ho
  simp only [ByteParser.ops, ByteParser.liftOff] at h1
  have hb : (s.toByte).off = s.off := rfl
  rw [hb] at h1
  simp only [MemoParser.ops, MemoParser.liftOff]
  cases hc : ContextOffset.setFit .release n s.off with
  | ok a o =>
    rw [hc] at h1
    cases h1
    refine ⟨_, rfl, ?_⟩
    simp only [ByteParser.ops, ByteParser.remainder, ByteParser.viewLen, ByteParser.offset] at h2
    simp only [MemoParser.remainder, MemoParser.viewLen, MemoParser.offset]
    split at h2
    · rw [(Out.ok.inj h2).1]
    · cases h2
  | err e o => rw [hc] at h1; cases h1
  | panic => rw [hc] at h1; cases h1
  | ub => rw [hc] at h1; cases h1
  | diverge => rw [hc] at h1; cases h1

end Verif
