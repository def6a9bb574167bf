import Verif.Refine.Exact
import Verif.Refine.Lawful
/-
What holds of a `ByteParser` after any calls with any arguments, wrapped sums in release builds included.
-/
namespace Verif

/-- The windows are nested and end inside the buffer, the cursor is inside the buffer; it need not be inside the
innermost window. -/
structure Loose (buf : Bytes) (s : ByteParser) : Prop where
  buffer : s.buffer = buf
  small : buf.length ≤ isizeMax
  abs_eq : s.off.abs = buf.length
  cur_le : s.off.cur ≤ buf.length
  chain : Chain s.off.abs 0 s.off.frames

variable {buf : Bytes} {s : ByteParser}

theorem Loose.limit_le (h : Loose buf s) : s.off.limit ≤ buf.length := by
  have := h.chain.head_le_abs
  rw [h.abs_eq] at this
  rwa [ContextOffset.limit, h.abs_eq]

theorem Loose.start (hb : buf.length ≤ isizeMax) : Loose buf (ByteParser.fromBuffer buf) :=
  ⟨rfl, hb, rfl, Nat.zero_le _, Nat.zero_le _⟩

/-- While the cursor is inside the innermost window, the windowed cursor describes the state. -/
theorem Loose.rep (h : Loose buf s) (hl : s.off.cur ≤ s.off.limit) : ByteRep buf s (absCursor buf s.off) :=
  ⟨h.buffer, ⟨h.small, h.abs_eq, h.chain.mono hl⟩, rfl⟩

theorem Loose.advance (h : Loose buf s) {p : Profile} {n : Nat} {r : Nat × Bool} {o : ContextOffset}
    (ha : s.off.advance p n = some (r, o)) : Loose buf { s with off := o } := by
  simp only [ContextOffset.advance] at ha
  split at ha
  · cases ha
  · split at ha
    · rename_i t _ ht
      simp only [Option.some.injEq, Prod.mk.injEq] at ha
      obtain ⟨_, rfl⟩ := ha
      exact ⟨h.buffer, h.small, h.abs_eq, Nat.le_trans ht h.limit_le, h.chain⟩
    · simp only [Option.some.injEq, Prod.mk.injEq] at ha
      obtain ⟨_, rfl⟩ := ha
      exact h

theorem Chain.zero {abs cur : Nat} {fs : List Nat} (h : Chain abs cur fs) : Chain abs 0 fs :=
  h.mono (Nat.le_trans (Nat.zero_le _) h.le_head)

theorem Loose.pop (h : Loose buf s) {f : Nat} {fs : List Nat} (hf : s.off.frames = f :: fs) :
    Loose buf { s with off := { s.off with frames := fs } } := by
  have hc := h.chain
  rw [hf] at hc
  exact ⟨h.buffer, h.small, h.abs_eq, h.cur_le, hc.2.zero⟩

theorem Loose.setFit (h : Loose buf s) {p : Profile} {n : Nat} {o : ContextOffset}
    (ha : ContextOffset.setFit p n s.off = .ok () o) : Loose buf { s with off := o } := by
  simp only [ContextOffset.setFit] at ha
  split at ha
  · cases ha
  · rename_i t _
    split at ha
    · split at ha <;> cases ha
    · rename_i ht
      have ht' : t ≤ s.off.abs := Nat.not_lt.mp ht
      simp only [ContextOffset.pushFrame] at ha
      cases hf : s.off.frames with
      | nil =>
        simp only [hf, List.head?_nil, ContextOffset.detectError, Out.ok.injEq] at ha
        obtain ⟨_, rfl⟩ := ha
        refine ⟨h.buffer, h.small, h.abs_eq, h.cur_le, Nat.zero_le _, ?_⟩
        exact ht'
      | cons f fs =>
        simp only [hf, List.head?_cons, ContextOffset.detectError] at ha
        by_cases hg : t > f
        · simp only [if_pos hg] at ha
          cases ha
        · simp only [if_neg hg, Out.ok.injEq] at ha
          obtain ⟨_, rfl⟩ := ha
          have hc := h.chain
          rw [hf] at hc
          exact ⟨h.buffer, h.small, h.abs_eq, h.cur_le, Nat.zero_le _, Nat.not_lt.mp hg, hc.2⟩

/-- The state after an operation, if there is one. -/
def Out.state? {σ ε α : Type} : Out σ ε α → Option σ
  | .ok _ s | .err _ s => some s
  | _ => none

/-- How many windows are open after an operation, with `d` open before: a successful `set_fit` opens one, every
`enforce_target` closes one if there is one. -/
def Op.windows (op : Op) (ok : Bool) (d : Nat) : Nat :=
  match op with
  | .setFit _ => if ok then d + 1 else d
  | .enforceTarget => d - 1
  | _ => d

/-- Whether an operation returned a value. -/
def Out.isOk {σ ε α : Type} : Out σ ε α → Bool
  | .ok _ _ => true
  | _ => false

theorem state_map {σ α β : Type} (g : α → β) (f : PM σ α) (s : σ) : ((g <$> f) s).state? = (f s).state? := by
  rw [M.map_run]
  cases f s <;> rfl

theorem isOk_map {σ α β : Type} (g : α → β) (f : PM σ α) (s : σ) : ((g <$> f) s).isOk = (f s).isOk := by
  rw [M.map_run]
  cases f s <;> rfl

theorem setFit_state {p : Profile} {n : Nat} {c o : ContextOffset} (h : (ContextOffset.setFit p n c).state? = some o) :
    (ContextOffset.setFit p n c = .ok () o ∧ ∃ t, o.frames = t :: c.frames) ∨
      ((ContextOffset.setFit p n c).isOk = false ∧ o = c) := by
  revert h
  simp only [ContextOffset.setFit, ContextOffset.pushFrame]
  repeat' split
  all_goals simp only [Out.state?, Out.isOk, Option.some.injEq, reduceCtorEq, false_implies]
  all_goals rintro rfl
  all_goals simp

theorem testTarget_state {c o : ContextOffset} (h : (ContextOffset.testTarget c).state? = some o) : o = c := by
  revert h
  simp only [ContextOffset.testTarget]
  repeat' split
  all_goals simp only [Out.state?, Option.some.injEq]
  all_goals rintro rfl; rfl

theorem enforceTarget_state {c o : ContextOffset} (h : (ContextOffset.enforceTarget c).state? = some o) :
    (c.frames = [] ∧ o = c) ∨ ∃ f fs, c.frames = f :: fs ∧ o = { c with frames := fs } := by
  revert h
  simp only [ContextOffset.enforceTarget]
  cases hf : c.frames with
  | nil => exact fun h => .inl ⟨rfl, (Option.some.inj h).symm⟩
  | cons f fs =>
    simp only
    repeat' split
    all_goals simp only [Out.state?, Option.some.injEq]
    all_goals rintro rfl; simp

theorem liftOff_state {α : Type} {f : PM ContextOffset α} {s s' : ByteParser}
    (h : (ByteParser.liftOff f s).state? = some s') : ∃ o, (f s.off).state? = some o ∧ s' = { s with off := o } := by
  revert h
  unfold ByteParser.liftOff
  cases f s.off <;> simp [Out.state?]
  all_goals rintro rfl; rfl

theorem liftOff_isOk {α : Type} {f : PM ContextOffset α} {s : ByteParser} :
    (ByteParser.liftOff f s).isOk = (f s.off).isOk := by
  unfold ByteParser.liftOff
  cases f s.off <;> rfl

theorem advance_frames {p : Profile} {n : Nat} {c o : ContextOffset} {r : Nat × Bool}
    (h : c.advance p n = some (r, o)) : o.frames = c.frames := by
  simp only [ContextOffset.advance] at h
  split at h
  · cases h
  · split at h <;> cases h <;> rfl

/-- The operations that only move the cursor. -/
theorem advance_state {α : Type} {p : Profile} {n : Nat} {f : PM ByteParser α} {s s' : ByteParser}
    (hf : ∃ g : ByteParser → Nat → Bool → Out ByteParser ParseError α,
      (∀ t ix b t', (g t ix b).state? = some t' → t' = t) ∧
      f s = match s.off.advance p n with
        | none => .panic
        | some ((ix, adv), o) => g { s with off := o } ix adv)
    (h : Loose buf s) (hs : (f s).state? = some s') : Loose buf s' ∧ s'.off.frames.length = s.off.frames.length := by
  obtain ⟨g, hg, he⟩ := hf
  rw [he] at hs
  cases ha : s.off.advance p n with
  | none => rw [ha] at hs; cases hs
  | some r =>
    obtain ⟨⟨ix, adv⟩, o⟩ := r
    rw [ha] at hs
    rw [hg _ _ _ _ hs]
    exact ⟨h.advance ha, congrArg List.length (advance_frames ha)⟩

/-- Every operation keeps the invariant, and the number of windows changes only where it should. -/
theorem Loose.run (h : Loose buf s) (p : Profile) (op : Op) {s' : ByteParser}
    (hs : ((ByteParser.ops p).run op s).state? = some s') :
    Loose buf s' ∧ s'.off.frames.length = op.windows ((ByteParser.ops p).run op s).isOk s.off.frames.length := by
  cases op with
  | viewLen => cases hs; exact ⟨h, rfl⟩
  | offset => cases hs; exact ⟨h, rfl⟩
  | remainder =>
    simp only [ParserOps.run, state_map] at hs
    simp only [ByteParser.ops, ByteParser.remainder] at hs
    split at hs <;> cases hs
    exact ⟨h, rfl⟩
  | consumeByte =>
    simp only [ParserOps.run, state_map] at hs
    refine advance_state (p := p) (n := 1) ⟨fun t ix b => if b then
      match VecBuffer.getByte t.buffer ix with
      | .val b => .ok b t
      | .panic => .panic
      | .ub => .ub
      else .err (.window (.consumeWouldExceedLimit ix 1 t.viewLen)) t, ?_, ?_⟩ h hs
    · intro t ix b t' ht
      cases b <;> simp only [Bool.false_eq_true, if_false, if_true] at ht
      · cases ht; rfl
      · split at ht <;> cases ht; rfl
    · rfl
  | consume n =>
    simp only [ParserOps.run, state_map] at hs
    refine advance_state (p := p) (n := n) ⟨fun t ix b => if b then
      match VecBuffer.getSliceUnchecked p t.buffer ix n with
      | .val b => .ok b t
      | .panic => .panic
      | .ub => .ub
      else .err (.window (.consumeWouldExceedLimit ix n t.viewLen)) t, ?_, ?_⟩ h hs
    · intro t ix b t' ht
      cases b <;> simp only [Bool.false_eq_true, if_false, if_true] at ht
      · cases ht; rfl
      · split at ht <;> cases ht; rfl
    · rfl
  | setFit n =>
    simp only [ParserOps.run, state_map] at hs
    simp only [ParserOps.run, isOk_map]
    obtain ⟨o, ho, rfl⟩ := liftOff_state hs
    have hok : ((ByteParser.ops p).setFit n s).isOk = (ContextOffset.setFit p n s.off).isOk := liftOff_isOk
    rw [hok]
    rcases setFit_state ho with ⟨h1, t, ht⟩ | ⟨h1, rfl⟩
    · refine ⟨h.setFit h1, ?_⟩
      rw [h1]
      simp [Op.windows, Out.isOk, ht]
    · rw [h1]
      exact ⟨h, rfl⟩
  | testTarget =>
    simp only [ParserOps.run, state_map] at hs
    obtain ⟨o, ho, rfl⟩ := liftOff_state hs
    rw [testTarget_state ho]
    exact ⟨h, rfl⟩
  | enforceTarget =>
    simp only [ParserOps.run, state_map] at hs
    obtain ⟨o, ho, rfl⟩ := liftOff_state hs
    rcases enforceTarget_state ho with ⟨h1, rfl⟩ | ⟨f, fs, h1, rfl⟩
    · exact ⟨h, by simp [Op.windows, h1]⟩
    · exact ⟨h.pop h1, by simp [Op.windows, h1]⟩
  | skip n =>
    simp only [ParserOps.run, state_map] at hs
    cases hr : s.off.rem p with
    | none => simp only [ByteParser.ops, ByteParser.skip, hr] at hs; cases hs
    | some r =>
      refine advance_state (p := p) (n := min r n) ⟨fun t ix b => if b then .ok (min r n) t else .panic, ?_, ?_⟩ h hs
      · intro t ix b t' ht
        cases b <;> cases ht; rfl
      · simp only [ByteParser.ops, ByteParser.skip, hr]
        rfl
  | skipExactly n =>
    simp only [ParserOps.run, state_map] at hs
    refine advance_state (p := p) (n := n) ⟨fun t ix b => if b then .ok () t
      else .err (.window (.consumeWouldExceedLimit ix n t.viewLen)) t, ?_, ?_⟩ h hs
    · intro t ix b t' ht
      cases b <;> cases ht <;> rfl
    · rfl

/-- How many windows are open after operations with the given results. -/
def openWindows : List Op → List Res → Nat → Nat
  | op :: ops, r :: rs, d => openWindows ops rs (op.windows (match r with | .ok _ => true | _ => false) d)
  | _, _, d => d

theorem Loose.exec (p : Profile) : ∀ (ops : List Op) {s s' : ByteParser}, Loose buf s →
    (ByteParser.ops p).exec ops s = some s' →
    Loose buf s' ∧ s'.off.frames.length = openWindows ops ((ByteParser.ops p).trace ops s) s.off.frames.length
  | [], s, s', h, he => by cases he; exact ⟨h, rfl⟩
  | op :: ops, s, s', h, he => by
    have hr := fun t => h.run (s' := t) p op
    simp only [ParserOps.exec] at he
    simp only [ParserOps.trace]
    cases ho : (ByteParser.ops p).run op s with
    | ok a t =>
      rw [ho] at he hr
      obtain ⟨h1, h2⟩ := hr t rfl
      have ih := Loose.exec p ops h1 he
      rw [h2] at ih
      exact ih
    | err e t =>
      rw [ho] at he hr
      obtain ⟨h1, h2⟩ := hr t rfl
      have ih := Loose.exec p ops h1 he
      rw [h2] at ih
      exact ih
    | panic => rw [ho] at he; cases he
    | ub => rw [ho] at he; cases he
    | diverge => rw [ho] at he; cases he

/-- A `MemoParser` that is alive is a `ByteParser` after the same calls, with the same results. -/
theorem memo_exec_byte (p : Profile) : ∀ (ops : List Op) {m m' : MemoParser},
    (MemoParser.ops p).exec ops m = some m' →
    (ByteParser.ops p).exec ops m.toByte = some m'.toByte ∧
      (MemoParser.ops p).trace ops m = (ByteParser.ops p).trace ops m.toByte
  | [], m, m', he => by cases he; exact ⟨rfl, rfl⟩
  | op :: ops, m, m', he => by
    simp only [ParserOps.exec] at he
    simp only [ParserOps.exec, ParserOps.trace]
    rcases memo_any p m op with h | ⟨_, h⟩ | ⟨_, h⟩
    · rw [← h]
      cases ho : (MemoParser.ops p).run op m with
      | ok a t =>
        rw [ho] at he
        obtain ⟨h1, h2⟩ := memo_exec_byte p ops he
        exact ⟨h1, congrArg _ h2⟩
      | err e t =>
        rw [ho] at he
        obtain ⟨h1, h2⟩ := memo_exec_byte p ops he
        exact ⟨h1, congrArg _ h2⟩
      | panic => rw [ho] at he; cases he
      | ub => rw [ho] at he; cases he
      | diverge => rw [ho] at he; cases he
    · rcases h with h | h <;> rw [h] at he <;> cases he
    · rw [h] at he; cases he

/-- All that is unread, from the cursor to the end of the buffer. -/
theorem seg_flatten {buf : Bytes} : ∀ (fs : List Nat) (cur : Nat), Chain buf.length cur fs →
    segTop buf cur fs ++ (segOuter buf fs).flatten = buf.drop cur
  | [], cur, _ => by simp [segTop, segOuter, List.take_of_length_le]
  | f :: fs, cur, h => by
    have ih := seg_flatten fs f h.2
    simp only [segOuter, List.flatten_cons, ih]
    simp only [segTop, List.head?_cons, Option.getD_some]
    have : buf.drop f = (buf.drop cur).drop (f - cur) := by
      rw [List.drop_drop]; congr 1; have := h.1; omega
    rw [this, List.take_append_drop]

end Verif
