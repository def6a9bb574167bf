import Verif.Lemmas.Width
import Verif.Props.Reached
/-
C04 and C07 for `ByteParser` and `MemoParser` after any calls: what every read returns, and exactly which calls are
undefined behaviour.
-/
namespace Verif.Props

/-- What asking for `n` bytes does, in terms of `offset` and `view_len`; `fail` is how errors are reported. -/
structure ConsumeSpec (P : ParserOps σ) (p : Profile) (buf : Bytes) (s : σ) (n : Nat)
    (fail : ParseError → Out σ ParseError Bytes) : Prop where
  /-- there are as many -/
  there : P.offset s + n ≤ P.viewLen s → ∃ s', P.consume n s = .ok ((buf.drop (P.offset s)).take n) s' ∧
    P.offset s' = P.offset s + n ∧ P.viewLen s' = P.viewLen s
  /-- there are not -/
  missing : P.viewLen s < P.offset s + n → P.offset s + n < usizeMod →
    P.consume n s = fail (.window (.consumeWouldExceedLimit (P.offset s) n (P.viewLen s)))
  /-- no `usize` -/
  checked : p = .debug → usizeMod ≤ P.offset s + n → P.consume n s = .panic
  wrapped : p = .release → usizeMod ≤ P.offset s + n → P.offset s + n - usizeMod ≤ P.viewLen s → P.consume n s = .ub
  beyond : p = .release → usizeMod ≤ P.offset s + n → P.viewLen s < P.offset s + n - usizeMod →
    P.consume n s = fail (.window (.consumeWouldExceedLimit (P.offset s) n (P.viewLen s)))

theorem uadd_wraps {a n M : Nat} (hM : usizeMod = M) (ha : a < M) (hn : n < M) (hs : M ≤ a + n) :
    ∃ v, v + M = a + n ∧ uadd .release a n = some v := by
  subst hM
  exact ⟨_, Nat.sub_add_cancel hs, uadd_wrap ha hn hs⟩

theorem consume_loose {buf : Bytes} {s : ByteParser} (p : Profile) (h : Loose buf s) (n M : Nat) (hM : usizeMod = M)
    (hI : isizeMax < M) (hn : n < M) :
    (s.off.cur + n ≤ s.off.limit →
      ByteParser.consume p n s = .ok ((buf.drop s.off.cur).take n) { s with off := { s.off with cur := s.off.cur + n } }) ∧
    (s.off.limit < s.off.cur + n → s.off.cur + n < M → ByteParser.consume p n s =
      .err (.window (.consumeWouldExceedLimit s.off.cur n s.off.limit)) s) ∧
    (p = .debug → M ≤ s.off.cur + n → ByteParser.consume p n s = .panic) ∧
    (p = .release → M ≤ s.off.cur + n → s.off.cur + n - M ≤ s.off.limit → ByteParser.consume p n s = .ub) ∧
    (p = .release → M ≤ s.off.cur + n → s.off.limit < s.off.cur + n - M → ByteParser.consume p n s =
      .err (.window (.consumeWouldExceedLimit s.off.cur n s.off.limit)) s) := by
  have h1 : s.off.cur ≤ buf.length := h.cur_le
  have h2 := h.small
  have h3 : s.off.limit ≤ buf.length := h.limit_le
  have h6 : s.buffer = buf := h.buffer
  refine ⟨?_, ?_, ?_, ?_, ?_⟩
  · intro hl
    simp only [ByteParser.consume, ContextOffset.advance]
    rw [uadd_of_lt (by omega)]
    simp only
    rw [if_pos hl]
    simp only [if_true, VecBuffer.getSliceUnchecked, h6]
    rw [uadd_of_lt (by omega)]
    simp only
    rw [if_pos (by omega), Nat.add_sub_cancel_left]
  · intro hl hs
    simp only [ByteParser.consume, ContextOffset.advance]
    rw [uadd_of_lt (by omega)]
    simp only
    rw [if_neg (by omega)]
    rfl
  · rintro rfl hs
    simp only [ByteParser.consume, ContextOffset.advance]
    rw [uadd_debug (by omega)]
  · rintro rfl hs hl
    obtain ⟨v, hv, hu⟩ := uadd_wraps (a := s.off.cur) (n := n) hM (by omega) hn hs
    simp only [ByteParser.consume, ContextOffset.advance, hu]
    rw [if_pos (by omega)]
    simp only [if_true, VecBuffer.getSliceUnchecked, hu]
    rw [if_neg (by omega)]
  · rintro rfl hs hl
    obtain ⟨v, hv, hu⟩ := uadd_wraps (a := s.off.cur) (n := n) hM (by omega) hn hs
    simp only [ByteParser.consume, ContextOffset.advance, hu]
    rw [if_neg (by omega)]
    rfl

theorem consumeSpec_loose {buf : Bytes} {s : ByteParser} (p : Profile) (h : Loose buf s) (n : Nat) (hn : n < usizeMod) :
    ConsumeSpec (ByteParser.ops p) p buf s n (.err · s) := by
  obtain ⟨a, b, c, d, e⟩ := consume_loose p h n usizeMod rfl (by rw [usizeMod_eq]; omega) hn
  exact ⟨fun hl => ⟨_, a hl, rfl, rfl⟩, b, c, d, e⟩

/-- C07 for `ByteParser` after any calls, all `usize` arguments: what reading `n` bytes returns. -/
theorem C07_byteparser_reads_any (p : Profile) (buf : Bytes) (hb : buf.length ≤ isizeMax) (ops : List Op) (s : ByteParser)
    (hs : (ByteParser.ops p).exec ops (ByteParser.fromBuffer buf) = some s) (n : Nat) (hn : n < usizeMod) :
    ConsumeSpec (ByteParser.ops p) p buf s n (.err · s) :=
  consumeSpec_loose p (Loose.exec p ops (Loose.start hb) hs).1 n hn

/-- C04 for `ByteParser` after any calls: a call is undefined behaviour exactly if it reads, in a release build, a number
of bytes whose end is no `usize`, and the wrapped end is within the window. -/
theorem C04_byteparser_exact (p : Profile) (buf : Bytes) (hb : buf.length ≤ isizeMax) (ops : List Op) (s : ByteParser)
    (hs : (ByteParser.ops p).exec ops (ByteParser.fromBuffer buf) = some s) (op : Op) (ho : op.arg < usizeMod) :
    (ByteParser.ops p).run op s = .ub ↔ ∃ n, op = .consume n ∧ p = .release ∧ usizeMod ≤ s.offset + n ∧
      s.offset + n - usizeMod ≤ s.viewLen := by
  have h := (Loose.exec p ops (Loose.start hb) hs).1
  have h1 : s.off.cur ≤ buf.length := h.cur_le
  have h2 := h.small
  have h3 : s.off.limit ≤ buf.length := h.limit_le
  have h4 := usizeMod_eq
  have h6 : s.buffer = buf := h.buffer
  cases op with
  | consume n =>
    have hc := consumeSpec_loose p h n ho
    have eo : (ByteParser.ops p).offset s = s.offset := rfl
    have ev : (ByteParser.ops p).viewLen s = s.viewLen := rfl
    simp only [ParserOps.run, M.map_run]
    by_cases hl : s.offset + n ≤ s.viewLen
    · obtain ⟨s', e, _⟩ := hc.there hl
      rw [e]
      refine ⟨nofun, fun ⟨m, hm, _, hw, _⟩ => ?_⟩
      cases hm
      have : s.viewLen = s.off.limit := rfl
      omega
    · by_cases hw : s.offset + n < usizeMod
      · rw [hc.missing (by omega) hw]
        refine ⟨nofun, fun ⟨m, hm, _, hw', _⟩ => ?_⟩
        cases hm
        omega
      · cases p with
        | debug =>
          rw [hc.checked rfl (by omega)]
          exact ⟨nofun, fun ⟨m, hm, hp, _⟩ => nomatch hp⟩
        | release =>
          by_cases hv : s.offset + n - usizeMod ≤ s.viewLen
          · rw [hc.wrapped rfl (by omega) hv]
            exact ⟨fun _ => ⟨n, rfl, rfl, by omega, hv⟩, fun _ => rfl⟩
          · rw [hc.beyond rfl (by omega) (by omega)]
            refine ⟨nofun, fun ⟨m, hm, _, _, hv'⟩ => ?_⟩
            cases hm
            exact absurd hv' hv
  | consumeByte =>
    refine ⟨fun e => ?_, fun ⟨n, h, _⟩ => nomatch h⟩
    have hne : ByteParser.consumeByte p s ≠ .ub := by
      simp only [ByteParser.consumeByte, ContextOffset.advance]
      rw [uadd_of_lt (by omega)]
      simp only
      by_cases hl : s.off.cur + 1 ≤ s.off.limit
      · rw [if_pos hl]
        simp only [if_true, VecBuffer.getByte, VecBuffer.getByteUnchecked, h6]
        rw [if_pos (by omega), List.getElem?_eq_getElem (by omega)]
        simp
      · rw [if_neg hl]
        simp
    simp only [ParserOps.run, M.map_run, ByteParser.ops] at e
    revert e hne
    cases ByteParser.consumeByte p s <;> simp
  | remainder =>
    refine ⟨fun e => ?_, fun ⟨n, h, _⟩ => nomatch h⟩
    simp only [ParserOps.run, M.map_run, ByteParser.ops, ByteParser.remainder] at e
    split at e <;> (first | cases e | (split at e <;> cases e))
  | viewLen => exact ⟨nofun, fun ⟨n, h, _⟩ => nomatch h⟩
  | offset => exact ⟨nofun, fun ⟨n, h, _⟩ => nomatch h⟩
  | setFit n =>
    refine ⟨fun e => ?_, fun ⟨n, h, _⟩ => nomatch h⟩
    have hne : ContextOffset.setFit p n s.off ≠ .ub := by
      simp only [ContextOffset.setFit, ContextOffset.pushFrame]
      (repeat' split) <;> simp
    simp only [ParserOps.run, M.map_run, ByteParser.ops, ByteParser.liftOff] at e
    revert e hne
    cases ContextOffset.setFit p n s.off <;> simp
  | testTarget =>
    refine ⟨fun e => ?_, fun ⟨n, h, _⟩ => nomatch h⟩
    have hne : ContextOffset.testTarget s.off ≠ .ub := by
      simp only [ContextOffset.testTarget]
      (repeat' split) <;> simp
    simp only [ParserOps.run, M.map_run, ByteParser.ops, ByteParser.liftOff] at e
    revert e hne
    cases ContextOffset.testTarget s.off <;> simp
  | enforceTarget =>
    refine ⟨fun e => ?_, fun ⟨n, h, _⟩ => nomatch h⟩
    have hne : ContextOffset.enforceTarget s.off ≠ .ub := by
      simp only [ContextOffset.enforceTarget]
      (repeat' split) <;> simp
    simp only [ParserOps.run, M.map_run, ByteParser.ops, ByteParser.liftOff] at e
    revert e hne
    cases ContextOffset.enforceTarget s.off <;> simp
  | skip n =>
    refine ⟨fun e => ?_, fun ⟨n, h, _⟩ => nomatch h⟩
    simp only [ParserOps.run, M.map_run, ByteParser.ops, ByteParser.skip] at e
    (repeat' split at e) <;> simp_all
  | skipExactly n =>
    refine ⟨fun e => ?_, fun ⟨n, h, _⟩ => nomatch h⟩
    simp only [ParserOps.run, M.map_run, ByteParser.ops, ByteParser.skipExactly] at e
    (repeat' split at e) <;> simp_all

theorem advance_false {p : Profile} {o o' : ContextOffset} {n ix : Nat} (h : o.advance p n = some ((ix, false), o')) :
    o' = o := by
  simp only [ContextOffset.advance] at h
  repeat' split at h
  all_goals simp_all

/-- Reading as `ByteParser` does; errors are reported after the log has been printed. -/
theorem memo_consume (p : Profile) (m : MemoParser) (n : Nat) :
    (∀ b s', ByteParser.consume p n m.toByte = .ok b s' →
      MemoParser.consume p n m = .ok b { m with off := s'.off, munches := m.munches ++ [n] }) ∧
    (∀ e, ByteParser.consume p n m.toByte = .err e m.toByte → MemoParser.consume p n m = m.failDump p e) ∧
    (ByteParser.consume p n m.toByte = .panic → MemoParser.consume p n m = .panic) ∧
    (ByteParser.consume p n m.toByte = .ub → MemoParser.consume p n m = .ub) := by
  have hb : (m.toByte).off = m.off := rfl
  have hbuf : (m.toByte).buffer = m.buffer := rfl
  simp only [MemoParser.consume, ByteParser.consume]
  rw [hb, hbuf]
  cases ha : m.off.advance p n with
  | none => exact ⟨nofun, nofun, fun _ => rfl, nofun⟩
  | some r =>
    obtain ⟨⟨ix, adv⟩, o⟩ := r
    cases adv with
    | true =>
      simp only [if_true]
      cases VecBuffer.getSliceUnchecked p m.buffer ix n with
      | val b =>
        refine ⟨fun b' s' h => ?_, nofun, nofun, nofun⟩
        cases h
        rfl
      | panic => exact ⟨nofun, nofun, fun _ => rfl, nofun⟩
      | ub => exact ⟨nofun, nofun, nofun, fun _ => rfl⟩
    | false =>
      obtain rfl := advance_false ha
      refine ⟨nofun, fun e h => ?_, nofun, nofun⟩
      simp only [Bool.false_eq_true, if_false] at h ⊢
      cases h
      rfl

/-- C07 for `MemoParser` after any calls, all `usize` arguments: as `ByteParser`, but an error is returned after the log
has been printed. -/
theorem C07_memoparser_reads_any (p : Profile) (buf : Bytes) (hb : buf.length ≤ isizeMax) (ops : List Op) (m : MemoParser)
    (hs : (MemoParser.ops p).exec ops (MemoParser.fromBuffer buf) = some m) (n : Nat) (hn : n < usizeMod) :
    ConsumeSpec (MemoParser.ops p) p buf m n fun e =>
      match m.dump p with
      | .val _ => .err e m
      | .panic => .panic
      | .ub => .ub := by
  have h := consumeSpec_loose p (Loose.exec p ops (Loose.start hb) (memo_exec_byte p ops hs).1).1 n hn
  obtain ⟨h1, h2, h3, h4⟩ := memo_consume p m n
  refine ⟨fun hl => ?_, fun hl hv => h2 _ (h.missing hl hv), fun hp hl => h3 (h.checked hp hl),
    fun hp hl hv => h4 (h.wrapped hp hl hv), fun hp hl hv => h2 _ (h.beyond hp hl hv)⟩
  obtain ⟨s', e, eo, ev⟩ := h.there hl
  exact ⟨_, h1 _ _ e, eo, ev⟩

/-- The calls after which `MemoParser` prints its log: those that ask for more than there is. -/
def ReadFails (p : Profile) (cur lim : Nat) : Op → Prop
  | .consume n | .skipExactly n => lim < cur + n ∧ cur + n < usizeMod ∨ p = .release ∧ usizeMod + lim < cur + n
  | .consumeByte => lim < cur + 1
  | .skip n => p = .release ∧ lim < cur ∧ cur + n < usizeMod
  | _ => False

theorem advance_refused {p : Profile} {o : ContextOffset} {n M : Nat} (hM : usizeMod = M) (hc : o.cur < M) (hn : n < M) :
    (∃ r o', o.advance p n = some ((r, false), o')) ↔
      (o.limit < o.cur + n ∧ o.cur + n < M) ∨ p = .release ∧ M + o.limit < o.cur + n := by
  simp only [ContextOffset.advance]
  by_cases hs : o.cur + n < M
  · rw [uadd_of_lt (by omega)]
    simp only
    by_cases hl : o.cur + n ≤ o.limit
    · rw [if_pos hl]
      refine ⟨fun ⟨_, _, h⟩ => by simp at h, fun h => by omega⟩
    · rw [if_neg hl]
      exact ⟨fun _ => .inl ⟨by omega, hs⟩, fun _ => ⟨_, _, rfl⟩⟩
  · cases p with
    | debug =>
      rw [uadd_debug (by omega)]
      refine ⟨fun ⟨_, _, h⟩ => by simp at h, fun h => ?_⟩
      rcases h with h | ⟨h, _⟩
      · omega
      · cases h
    | release =>
      obtain ⟨v, hv, hu⟩ := uadd_wraps (a := o.cur) (n := n) hM hc hn (by omega)
      rw [hu]
      simp only
      by_cases hl : v ≤ o.limit
      · rw [if_pos hl]
        refine ⟨fun ⟨_, _, h⟩ => by simp at h, fun h => by omega⟩
      · rw [if_neg hl]
        exact ⟨fun _ => .inr ⟨trivial, by omega⟩, fun _ => ⟨_, _, rfl⟩⟩

theorem rem_wrapped {p : Profile} {o : ContextOffset} {r M : Nat} (hM : usizeMod = M) (hc : o.cur < M) (hl : o.limit < M)
    (h : o.rem p = some r) : (o.cur ≤ o.limit ∧ r = o.limit - o.cur) ∨
      p = .release ∧ o.limit < o.cur ∧ r + o.cur = M + o.limit := by
  have hu : usub p o.limit o.cur = some r := by
    unfold ContextOffset.rem at h
    cases p with
    | debug =>
      simp only at h
      split at h
      · exact h
      · cases h
    | release => exact h
  rw [usub_wrap (by omega)] at hu
  split at hu
  · cases hu
  · rename_i hnd
    simp only [Option.some.injEq] at hu
    subst hM
    by_cases hlc : o.cur ≤ o.limit
    · left
      refine ⟨hlc, ?_⟩
      rw [← hu, Nat.add_comm, Nat.add_sub_assoc hlc, Nat.add_mod_left, Nat.mod_eq_of_lt (by omega)]
    · right
      rw [Nat.mod_eq_of_lt (by omega)] at hu
      refine ⟨?_, by omega, by omega⟩
      cases p with
      | debug => exact (hnd ⟨rfl, by omega⟩).elim
      | release => rfl

theorem rem_release (o : ContextOffset) : ∃ r, o.rem .release = some r := by
  unfold ContextOffset.rem usub
  simp only
  split
  · exact ⟨_, rfl⟩
  · exact ⟨_, rfl⟩

theorem failDump_ub {p : Profile} {m : MemoParser} {e : ParseError} {α : Type} :
    (MemoParser.failDump p e m : Out MemoParser ParseError α) = .ub ↔ m.dump p = .ub := by
  unfold MemoParser.failDump
  cases m.dump p <;> simp

/-- The argument with which the call advances the cursor. -/
def ReadRefused (p : Profile) (o : ContextOffset) : Op → Prop
  | .consume n | .skipExactly n => ∃ r o', o.advance p n = some ((r, false), o')
  | .consumeByte => ∃ r o', o.advance p 1 = some ((r, false), o')
  | .skip n => ∃ k r o', o.rem p = some k ∧ o.advance p (min k n) = some ((r, false), o')
  | _ => False

theorem memo_ub (p : Profile) (m : MemoParser) (op : Op) :
    (MemoParser.ops p).run op m = .ub ↔
      (ByteParser.ops p).run op m.toByte = .ub ∨ (ReadRefused p m.off op ∧ m.dump p = .ub) := by
  have hb : (m.toByte).off = m.off := rfl
  have hbuf : (m.toByte).buffer = m.buffer := rfl
  cases op with
  | viewLen => simp [ParserOps.run, ReadRefused]
  | offset => simp [ParserOps.run, ReadRefused]
  | remainder =>
    simp only [ParserOps.run, ByteParser.ops, MemoParser.ops, M.map_run, MemoParser.remainder,
      ByteParser.remainder, MemoParser.viewLen, ByteParser.viewLen, MemoParser.offset, ByteParser.offset,
      MemoParser.toByte, ReadRefused]
    cases usub p m.off.limit m.off.index <;> simp
  | consumeByte =>
    simp only [ParserOps.run, ByteParser.ops, MemoParser.ops, M.map_run, MemoParser.consumeByte,
      ByteParser.consumeByte, ReadRefused]
    rw [hb, hbuf]
    cases ha : m.off.advance p 1 with
    | none => simp
    | some r =>
      obtain ⟨⟨ix, adv⟩, o⟩ := r
      cases adv with
      | true => simp only [if_true]; cases VecBuffer.getByte m.buffer ix <;> simp
      | false =>
        obtain rfl := advance_false ha
        simp only [Bool.false_eq_true, if_false, MemoParser.failDump]
        cases MemoParser.dump p m <;> simp
  | consume n =>
    simp only [ParserOps.run, ByteParser.ops, MemoParser.ops, M.map_run, MemoParser.consume,
      ByteParser.consume, ReadRefused]
    rw [hb, hbuf]
    cases ha : m.off.advance p n with
    | none => simp
    | some r =>
      obtain ⟨⟨ix, adv⟩, o⟩ := r
      cases adv with
      | true => simp only [if_true]; cases VecBuffer.getSliceUnchecked p m.buffer ix n <;> simp
      | false =>
        obtain rfl := advance_false ha
        simp only [Bool.false_eq_true, if_false, MemoParser.failDump]
        cases MemoParser.dump p m <;> simp
  | skipExactly n =>
    simp only [ParserOps.run, ByteParser.ops, MemoParser.ops, M.map_run, MemoParser.skipExactly,
      ByteParser.skipExactly, ReadRefused]
    rw [hb]
    cases ha : m.off.advance p n with
    | none => simp
    | some r =>
      obtain ⟨⟨ix, adv⟩, o⟩ := r
      cases adv with
      | true => simp
      | false =>
        obtain rfl := advance_false ha
        simp only [Bool.false_eq_true, if_false, MemoParser.failDump]
        cases MemoParser.dump p m <;> simp
  | skip n =>
    simp only [ParserOps.run, ByteParser.ops, MemoParser.ops, M.map_run, MemoParser.skip, ByteParser.skip, ReadRefused]
    rw [hb]
    cases m.off.rem p with
    | none => simp
    | some r =>
      simp only
      cases ha : m.off.advance p (min r n) with
      | none => simp [ha]
      | some q =>
        obtain ⟨⟨ix, adv⟩, o⟩ := q
        cases adv with
        | true => simp [ha]
        | false =>
          simp only [Bool.false_eq_true, if_false]
          cases MemoParser.dump p m <;> simp [ha]
  | setFit n =>
    simp only [ParserOps.run, ByteParser.ops, MemoParser.ops, M.map_run, MemoParser.liftOff,
      ByteParser.liftOff, ReadRefused]
    rw [hb]
    cases ContextOffset.setFit p n m.off <;> simp
  | testTarget =>
    simp only [ParserOps.run, ByteParser.ops, MemoParser.ops, M.map_run, MemoParser.liftOff,
      ByteParser.liftOff, ReadRefused]
    rw [hb]
    cases ContextOffset.testTarget m.off <;> simp
  | enforceTarget =>
    simp only [ParserOps.run, ByteParser.ops, MemoParser.ops, M.map_run, MemoParser.liftOff,
      ByteParser.liftOff, ReadRefused]
    rw [hb]
    cases ContextOffset.enforceTarget m.off <;> simp

theorem refused_iff {p : Profile} {o : ContextOffset} {M : Nat} (hM : usizeMod = M) (hc : o.cur + 1 < M) (hl : o.limit < M)
    (op : Op) (ho : op.arg < M) : ReadRefused p o op ↔ (match op with
      | .consume n | .skipExactly n => o.limit < o.cur + n ∧ o.cur + n < M ∨ p = .release ∧ M + o.limit < o.cur + n
      | .consumeByte => o.limit < o.cur + 1
      | .skip n => p = .release ∧ o.limit < o.cur ∧ o.cur + n < M
      | _ => False) := by
  cases op with
  | consume n => exact advance_refused hM (by omega) ho
  | skipExactly n => exact advance_refused hM (by omega) ho
  | consumeByte =>
    refine (advance_refused hM (by omega) (by omega)).trans ⟨fun h => ?_, fun h => .inl ⟨h, hc⟩⟩
    rcases h with h | ⟨_, h⟩ <;> omega
  | skip n =>
    constructor
    · rintro ⟨k, r, o', hk, ha⟩
      have hkM : k < M := by rcases rem_wrapped hM (by omega) hl hk with ⟨h1, h2⟩ | ⟨h1, h2, h3⟩ <;> omega
      have hr := (advance_refused hM (by omega) (by omega)).mp ⟨r, o', ha⟩
      rcases rem_wrapped hM (by omega) hl hk with ⟨h1, h2⟩ | ⟨h1, h2, h3⟩
      · rcases hr with h | ⟨_, h⟩ <;> omega
      · refine ⟨h1, h2, ?_⟩
        rcases hr with h | ⟨_, h⟩ <;> omega
    · rintro ⟨rfl, h1, h2⟩
      obtain ⟨k, hk⟩ := rem_release o
      rcases rem_wrapped hM (by omega) hl hk with ⟨h3, h4⟩ | ⟨_, _, h3⟩
      · omega
      · obtain ⟨r, o', ha⟩ := (advance_refused (p := .release) (o := o) (n := min k n) hM (by omega) (by omega)).mpr
          (.inl ⟨by omega, by omega⟩)
        exact ⟨k, r, o', hk, ha⟩
  | _ => exact Iff.rfl

/-- C04 for `MemoParser` after any calls: a call is undefined behaviour exactly if it reads, in a release build, a number
of bytes whose end is no `usize`, and the wrapped end is within the window; or if it fails and printing the log is. -/
theorem C04_memoparser_exact (p : Profile) (buf : Bytes) (hb : buf.length ≤ isizeMax) (ops : List Op) (m : MemoParser)
    (hs : (MemoParser.ops p).exec ops (MemoParser.fromBuffer buf) = some m) (op : Op) (ho : op.arg < usizeMod) :
    (MemoParser.ops p).run op m = .ub ↔ (∃ n, op = .consume n ∧ p = .release ∧ usizeMod ≤ m.offset + n ∧
      m.offset + n - usizeMod ≤ m.viewLen) ∨ (ReadFails p m.offset m.viewLen op ∧ m.dump p = .ub) := by
  have h := (Loose.exec p ops (Loose.start hb) (memo_exec_byte p ops hs).1).1
  have hx := C04_byteparser_exact p buf hb ops m.toByte (memo_exec_byte p ops hs).1 op ho
  have h1 : m.off.cur ≤ buf.length := h.cur_le
  have h2 : m.off.limit ≤ buf.length := h.limit_le
  have h3 := h.small
  have hI : isizeMax + 1 < usizeMod := by have := isizeMax_ge; rw [usizeMod_eq]; omega
  have hr := refused_iff (p := p) (o := m.off) rfl (by omega) (by omega) op ho
  rw [memo_ub, hx]
  refine or_congr Iff.rfl (and_congr (hr.trans ?_) Iff.rfl)
  cases op <;> exact Iff.rfl

/-- The exceptions are real: a window that ends before the cursor, and `skip` back over that end, which is logged. -/
example : ∃ m, (MemoParser.ops .release).exec [.consume 2, .setFit (usizeMod - 1), .skip (usizeMod - 1)]
      (MemoParser.fromBuffer [1, 2, 3]) = some m ∧ m.offset = 1 ∧ m.viewLen = 1 ∧
    (MemoParser.ops .release).trace [.consumeByte] m = [.ub] ∧
    (MemoParser.ops .release).trace [.consume (usizeMod - 1)] m = [.ub] ∧
    (ByteParser.ops .release).trace [.consumeByte] m.toByte = [.err (.window (.consumeWouldExceedLimit 1 1 1))] :=
  ⟨⟨[1, 2, 3], ⟨3, [1], 1⟩, [2, usizeMod - 1]⟩, by run_wide, rfl, rfl, by run_wide, by run_wide, by run_wide [MemoParser.toByte]⟩

end Verif.Props
