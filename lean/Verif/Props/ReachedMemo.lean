import Verif.Lemmas.Width
import Verif.Props.Reached
/-
C08 and C41 for `MemoParser` after any calls whatsoever (see Props/Reached.lean for `ByteParser`).
-/
namespace Verif.Props

theorem memo_remainder_byte (p : Profile) (m : MemoParser) :
    ((MemoParser.ops p).remainder m).mapS MemoParser.toByte = (ByteParser.ops p).remainder m.toByte := by
  simp only [ByteParser.ops, MemoParser.ops, MemoParser.remainder, ByteParser.remainder, MemoParser.viewLen,
    ByteParser.viewLen, MemoParser.offset, ByteParser.offset, MemoParser.toByte]
  cases usub p m.off.limit m.off.index <;> rfl

/-- Reading up to the end of the self-terminating item, from any state. -/
theorem memo_selfTerm {buf : Bytes} (p : Profile) (f : Byte → Bool) : ∀ (w acc : Bytes) {m : MemoParser},
    Loose buf m.toByte → window buf m.offset m.viewLen = w →
    (∀ pre rest, ShortestTerminated f w pre rest →
      iterM ((MemoParser.ops p).selfTermBody f) acc m = .ok (acc ++ pre) (afterReads m pre.length)) ∧
    ((∀ b ∈ w, f b = false) → iterM ((MemoParser.ops p).selfTermBody f) acc m =
      match (afterReads m w.length).dump p with
      | .val _ => .err (.token (.nonTerminating (acc ++ w))) (afterReads m w.length)
      | .panic => .panic
      | .ub => .ub)
  | [], acc, m, h, hw => by
    constructor
    · rintro pre rest ⟨h1, init, last, rfl, _⟩
      simp at h1
    · intro _
      obtain ⟨e, he⟩ := memo_consumeByte_out p h hw
      rw [iterM_unfold]
      simp only [ParserOps.selfTermBody, he, MemoParser.failDump, List.length_nil, afterReads_zero]
      cases m.dump p <;> simp
  | b :: w, acc, m, h, hw => by
    obtain ⟨h1, h2, h3⟩ := memo_consumeByte_in p h hw
    have ih := memo_selfTerm p f w (acc ++ [b]) h2 h3
    simp only [afterReads_add] at ih
    constructor
    · rintro pre rest ⟨e, init, last, rfl, hl, hi⟩
      rw [iterM_unfold]
      simp only [ParserOps.selfTermBody, h1]
      cases init with
      | nil =>
        simp only [List.nil_append, List.cons_append, List.cons.injEq] at e
        obtain ⟨rfl, rfl⟩ := e
        simp [hl]
      | cons c init =>
        simp only [List.cons_append, List.cons.injEq] at e
        obtain ⟨rfl, rfl⟩ := e
        have := ih.1 (init ++ [last]) rest ⟨by simp, init, last, rfl, hl, fun x hx => hi x (.tail _ hx)⟩
        simp [hi b (.head _), this, Nat.add_comm 1]
    · intro hf
      rw [iterM_unfold]
      simp only [ParserOps.selfTermBody, h1, hf b (.head _), Bool.false_eq_true, if_false, Out.bind_ok,
        ih.2 fun x hx => hf x (.tail _ hx)]
      simp [Nat.add_comm 1]

/-- C08 for `MemoParser` after any calls: while the cursor is inside the window, as listed, with one log entry for each
byte; the error of an unterminated item comes if the log can be printed, otherwise the parser dies as printing does.
With the cursor behind the end of the window, `take_self_terminating` panics. -/
theorem C08_memoparser_any (p : Profile) (buf : Bytes) (hb : buf.length ≤ isizeMax) (ops : List Op) (m : MemoParser)
    (hs : (MemoParser.ops p).exec ops (MemoParser.fromBuffer buf) = some m) (f : Byte → Bool) :
    let w := window buf m.offset m.viewLen
    (m.offset ≤ m.viewLen →
      (∀ pre rest, ShortestTerminated f w pre rest →
        (MemoParser.ops p).takeSelfTerminating f m = .ok pre (afterReads m pre.length) ∧
        window buf (afterReads m pre.length).offset (afterReads m pre.length).viewLen = rest) ∧
      ((∀ b ∈ w, f b = false) → (MemoParser.ops p).takeSelfTerminating f m =
        match (afterReads m w.length).dump p with
        | .val _ => .err (.token (.nonTerminating w)) (afterReads m w.length)
        | .panic => .panic
        | .ub => .ub)) ∧
    (m.viewLen < m.offset → (MemoParser.ops p).takeSelfTerminating f m = .panic) := by
  intro w
  obtain ⟨hs', _⟩ := memo_exec_byte p ops hs
  obtain ⟨h, _⟩ := Loose.exec p ops (Loose.start hb) hs'
  have h1 : m.off.cur ≤ buf.length := h.cur_le
  have h2 := h.small
  have h3 : m.off.limit ≤ buf.length := h.limit_le
  have h4 : usizeMod = 2 * (isizeMax + 1) := usizeMod_eq
  have hrm := memo_remainder_byte p m
  constructor
  · intro hl
    have hl' : m.off.cur ≤ m.off.limit := hl
    have hr : (MemoParser.ops p).remainder m = .ok (m.off.limit - m.off.cur) m := by
      have : usub p m.off.limit m.off.cur = some (m.off.limit - m.off.cur) := by simp [usub, hl']
      simp only [MemoParser.ops, MemoParser.remainder, MemoParser.viewLen, MemoParser.offset, ContextOffset.index, this]
    have ht : (MemoParser.ops p).takeSelfTerminating f m = iterM ((MemoParser.ops p).selfTermBody f) [] m := by
      simp only [ParserOps.takeSelfTerminating, M.bind_run, hr, Out.bind_ok]
      rw [if_neg (by omega)]
    obtain ⟨ha, hn⟩ := memo_selfTerm p f w [] h rfl
    rw [ht]
    refine ⟨fun pre rest hsp => ⟨by simpa using ha pre rest hsp, ?_⟩, fun hf => by simpa using hn hf⟩
    obtain ⟨e, _⟩ := hsp
    have e' : (buf.drop m.off.cur).take (m.off.limit - m.off.cur) = pre ++ rest := e
    show (buf.drop (m.off.cur + pre.length)).take (m.off.limit - (m.off.cur + pre.length)) = rest
    rw [← List.drop_drop, ← Nat.sub_sub, ← List.drop_take, e', List.drop_left]
  · intro hl
    rcases remainder_wrapped h hl p with hr | ⟨_, hr⟩
    · rw [hr] at hrm
      cases hq : (MemoParser.ops p).remainder m <;> rw [hq] at hrm <;> cases hrm
      simp only [ParserOps.takeSelfTerminating, M.bind_run, hq, Out.bind]
    · rw [hr] at hrm
      have hl' : m.toByte.offset = m.off.cur := rfl
      cases hq : (MemoParser.ops p).remainder m <;> rw [hq] at hrm <;> simp only [Out.mapS, reduceCtorEq, Out.ok.injEq] at hrm
      simp only [ParserOps.takeSelfTerminating, M.bind_run, hq, Out.bind_ok]
      rw [if_pos (by omega)]
      rfl

theorem memo_consume_byte {p : Profile} {m : MemoParser} {n : Nat} {b : Bytes} {s : ByteParser}
    (h : (ByteParser.ops p).consume n m.toByte = .ok b s) : ∃ m', (MemoParser.ops p).consume n m = .ok b m' ∧ m'.toByte = s := by
  simp only [ByteParser.ops, ByteParser.consume] at h
  simp only [MemoParser.ops, MemoParser.consume]
  simp only [MemoParser.toByte] at h
  split at h
  · cases h
  · rename_i ix adv o ha
    split at h
    · rename_i hadv
      simp only [ha, hadv, if_true]
      split at h
      · rename_i hg
        cases h
        exact ⟨_, rfl, rfl⟩
      · cases h
      · cases h
    · cases h

theorem memo_consume_ub {p : Profile} {m : MemoParser} {n : Nat}
    (h : (ByteParser.ops p).consume n m.toByte = .ub) : (MemoParser.ops p).consume n m = .ub := by
  simp only [ByteParser.ops, ByteParser.consume] at h
  simp only [MemoParser.ops, MemoParser.consume]
  simp only [MemoParser.toByte] at h
  split at h
  · cases h
  · rename_i ix adv o ha
    split at h
    · rename_i hadv
      simp only [ha, hadv, if_true]
      split at h
      · cases h
      · cases h
      · rename_i hg
        simp only [hg]
    · cases h

theorem memo_enforce_byte (p : Profile) (m : MemoParser) :
    ((MemoParser.ops p).enforceTarget m).mapS MemoParser.toByte = (ByteParser.ops p).enforceTarget m.toByte := by
  simp only [MemoParser.ops, ByteParser.ops, MemoParser.liftOff, ByteParser.liftOff, MemoParser.toByte]
  cases ContextOffset.enforceTarget m.off <;> rfl

/-- What a round of `cleanup` does once the window is empty. -/
def afterClose {σ : Type} (ret : CleanupResult) : Out σ ParseError Unit → Out σ ParseError (CleanupResult ⊕ CleanupResult)
  | .ok () s => .ok (.inl (ret.map Leftover.escapeContext)) s
  | .err (.window .closeWithoutWindow) s => .ok (.inr ret) s
  | .err (.window w) s => .ok (.inl (.error (.caseUnexpected w))) s
  | .err e s => .ok (.inl (.error (.kindUnexpected e))) s
  | .panic => .panic
  | .ub => .ub
  | .diverge => .diverge

theorem cleanupBody_eq {σ : Type} (P : ParserOps σ) (ret : CleanupResult) (s : σ) : P.cleanupBody ret s =
    match P.remainder s with
    | .ok res s =>
      if res ≠ 0 then
        match P.consume res s with
        | .ok tmp s => afterClose (ret.map fun o => (o.append tmp).1) (P.enforceTarget s)
        | .err e s => .ok (.inr (.error (.unexpected e))) s
        | .panic => .panic
        | .ub => .ub
        | .diverge => .diverge
      else afterClose ret (P.enforceTarget s)
    | .err e s => .err e s
    | .panic => .panic
    | .ub => .ub
    | .diverge => .diverge := rfl

theorem afterClose_byte {p : Profile} {m : MemoParser} {ret : CleanupResult} {r : CleanupResult ⊕ CleanupResult}
    {s : ByteParser} (h : afterClose ret ((ByteParser.ops p).enforceTarget m.toByte) = .ok r s) :
    ∃ m', afterClose ret ((MemoParser.ops p).enforceTarget m) = .ok r m' ∧ m'.toByte = s := by
  rw [← memo_enforce_byte] at h
  cases hq : (MemoParser.ops p).enforceTarget m with
  | ok a m' => rw [hq] at h; cases h; exact ⟨_, rfl, rfl⟩
  | err e m' =>
    rw [hq] at h
    cases e with
    | window w => cases w <;> (cases h; exact ⟨_, rfl, rfl⟩)
    | _ => cases h; exact ⟨_, rfl, rfl⟩
  | panic => rw [hq] at h; cases h
  | ub => rw [hq] at h; cases h
  | diverge => rw [hq] at h; cases h

/-- A round that ends well does so for both parsers. -/
theorem memo_cleanup_round {p : Profile} {m : MemoParser} {ret : CleanupResult} {r : CleanupResult ⊕ CleanupResult}
    {s : ByteParser} (h : (ByteParser.ops p).cleanupBody ret m.toByte = .ok r s) (hr : ∀ e, r ≠ .inr (.error (.unexpected e))) :
    ∃ m', (MemoParser.ops p).cleanupBody ret m = .ok r m' ∧ m'.toByte = s := by
  rw [cleanupBody_eq] at h ⊢
  rw [← memo_remainder_byte] at h
  cases hq : (MemoParser.ops p).remainder m with
  | ok n m1 =>
    rw [hq] at h
    simp only [Out.mapS] at h ⊢
    by_cases hn : n ≠ 0
    · rw [if_pos hn] at h ⊢
      cases ht : (ByteParser.ops p).consume n m1.toByte with
      | ok b s2 =>
        obtain ⟨m2, e2, rfl⟩ := memo_consume_byte ht
        rw [ht] at h
        rw [e2]
        exact afterClose_byte h
      | err e s2 =>
        rw [ht] at h
        simp only [Out.ok.injEq] at h
        exact absurd h.1.symm (hr e)
      | panic => rw [ht] at h; cases h
      | ub => rw [ht] at h; cases h
      | diverge => rw [ht] at h; cases h
    · rw [if_neg hn] at h ⊢
      exact afterClose_byte h
  | err e m1 => rw [hq] at h; cases h
  | panic => rw [hq] at h; cases h
  | ub => rw [hq] at h; cases h
  | diverge => rw [hq] at h; cases h

theorem memo_cleanup_rounds {p : Profile} {l : Leftover} {s' : ByteParser} : ∀ (n : Nat) (ret : CleanupResult) (m : MemoParser),
    iterN (ByteParser.ops p).cleanupBody n ret m.toByte = some (.ok (.ok l) s') →
    ∃ m', iterM (MemoParser.ops p).cleanupBody ret m = .ok (.ok l) m' ∧ m'.toByte = s'
  | 0, _, _, h => by cases h
  | n + 1, ret, m, h => by
    simp only [iterN] at h
    cases hb : (ByteParser.ops p).cleanupBody ret m.toByte with
    | ok r s =>
      rw [hb] at h
      have hr : ∀ e, r ≠ .inr (.error (.unexpected e)) := by
        rintro e rfl
        cases h
      obtain ⟨m', e, rfl⟩ := memo_cleanup_round hb hr
      rw [iterM_unfold, e]
      cases r with
      | inl ret' => exact memo_cleanup_rounds n ret' m' h
      | inr a => cases h; exact ⟨m', rfl, rfl⟩
    | err e s => rw [hb] at h; cases h
    | panic => rw [hb] at h; cases h
    | ub => rw [hb] at h; cases h
    | diverge => rw [hb] at h; cases h

theorem iterN_of_iterM {σ ε α β : Type} {body : β → M σ ε (β ⊕ α)} {b : β} {s s' : σ} {a : α}
    (h : iterM body b s = .ok a s') : ∃ n, iterN body n b s = some (.ok a s') := by
  by_cases hex : ∃ n o, iterN body n b s = some o
  · obtain ⟨n, o, hn⟩ := hex
    exact ⟨n, by rw [hn, ← h, iterM_of_iterN hn]⟩
  · rw [iterM_eq_diverge fun n => by
      cases hq : iterN body n b s with
      | none => rfl
      | some o => exact absurd ⟨n, o, hq⟩ hex] at h
    cases h

/-- C41 for `MemoParser` after any calls, as for `ByteParser`: `cleanup` reads nothing it could fail on, so the log is
never printed. -/
theorem C41_memoparser_any (p : Profile) (buf : Bytes) (hb : buf.length ≤ isizeMax) (ops : List Op) (m : MemoParser)
    (hs : (MemoParser.ops p).exec ops (MemoParser.fromBuffer buf) = some m) :
    (m.offset ≤ m.viewLen → ∃ l m', Backend.cleanup p .memo m = .ok (.ok l) m' ∧ leftBytes l = buf.drop m.offset) ∧
    (m.viewLen < m.offset → Backend.cleanup p .memo m = .ub) := by
  obtain ⟨hs', _⟩ := memo_exec_byte p ops hs
  obtain ⟨hok, hub⟩ := C41_byteparser_any p buf hb ops _ hs'
  constructor
  · intro hl
    obtain ⟨l, s', e, hbytes⟩ := hok hl
    obtain ⟨n, hn⟩ := iterN_of_iterM e
    obtain ⟨m', e', _⟩ := memo_cleanup_rounds n _ m hn
    exact ⟨l, m', e', hbytes⟩
  · intro hl
    obtain ⟨h, _⟩ := Loose.exec p ops (Loose.start hb) hs'
    have e : iterM (ByteParser.ops p).cleanupBody (.ok .new) m.toByte = .ub := hub hl
    show iterM (MemoParser.ops p).cleanupBody (.ok .new) m = .ub
    have hp : p = .release := by
      cases p with
      | release => rfl
      | debug => exact absurd ((C07_byteparser_any .debug buf hb ops _ hs').2.2 rfl) (Nat.not_le.mpr hl)
    subst hp
    have h1 : m.off.cur ≤ buf.length := h.cur_le
    have h2 := h.small
    have h4 : usizeMod = 2 * (isizeMax + 1) := usizeMod_eq
    have hl' : m.off.limit < m.off.cur := hl
    rcases remainder_wrapped h hl .release with hr | ⟨_, hr⟩
    · rw [iterM_unfold] at e
      simp only [ParserOps.cleanupBody, hr] at e
      cases e
    · obtain ⟨k, hk⟩ : ∃ k, k = usizeMod + m.toByte.viewLen - m.toByte.offset := ⟨_, rfl⟩
      rw [← hk] at hr
      have hk0 : k ≠ 0 := by
        have ho : m.toByte.offset = m.off.cur := rfl
        omega
      have hrm := memo_remainder_byte .release m
      rw [hr] at hrm
      cases hq : (MemoParser.ops .release).remainder m with
      | ok n m1 =>
        have hm1 := memo_rem_state hq
        subst hm1
        rw [hq] at hrm
        simp only [Out.mapS, Out.ok.injEq] at hrm
        obtain ⟨rfl, _⟩ := hrm
        have hc : (ByteParser.ops .release).consume n m1.toByte = .ub := by
          have hu : uadd .release m1.off.cur n = some m1.off.limit := by
            have ho : m1.toByte.offset = m1.off.cur := rfl
            have hv : m1.toByte.viewLen = m1.off.limit := rfl
            have : m1.off.cur + n - usizeMod = m1.off.limit := by omega
            rw [uadd_wrap (by omega) (by omega) (by omega), this]
          simp only [ByteParser.ops, ByteParser.consume, ContextOffset.advance, MemoParser.toByte, hu, Nat.le_refl, if_true,
            VecBuffer.getSliceUnchecked]
          rw [if_neg (by omega)]
        rw [iterM_unfold]
        have : (MemoParser.ops .release).cleanupBody (.ok .new) m1 = .ub := by
          simp only [ParserOps.cleanupBody, hq]
          rw [if_pos hk0]
          simp only [ParserOps.takeDynamic, memo_consume_ub hc]
        rw [this]
        rfl
      | err e m1 => rw [hq] at hrm; cases hrm
      | panic => rw [hq] at hrm; cases hrm
      | ub => rw [hq] at hrm; cases hrm
      | diverge => rw [hq] at hrm; cases hrm

/-- All cases occur: the cursor has gone back to the start, and the log cannot be printed; or the end of the window lies
before the cursor. -/
example : ∃ m m', (MemoParser.ops .release).exec [.consume 2, .skipExactly (usizeMod - 2)]
      (MemoParser.fromBuffer [1, 2, 3]) = some m ∧ m.offset ≤ m.viewLen ∧ window [1, 2, 3] m.offset m.viewLen = [1, 2, 3] ∧
      (afterReads m 3).dump .release = .panic ∧
    (MemoParser.ops .release).exec [.consume 2, .setFit (usizeMod - 1)] (MemoParser.fromBuffer [1, 2, 3]) = some m' ∧
      m'.viewLen < m'.offset :=
  ⟨⟨[1, 2, 3], ⟨3, [], 0⟩, [2]⟩, ⟨[1, 2, 3], ⟨3, [1], 2⟩, [2]⟩, by run_wide, by decide, by decide +kernel, by decide +kernel,
    by run_wide, by decide⟩

/-- So a caller sees a panic instead of the error of an unterminated item. -/
theorem C08_memo_log_fails : ∃ m, (MemoParser.ops .release).exec [.consume 2, .skipExactly (usizeMod - 2)]
      (MemoParser.fromBuffer [1, 2, 3]) = some m ∧
    (MemoParser.ops .release).takeSelfTerminating (fun _ => false) m = .panic := by
  have he : (MemoParser.ops .release).exec [.consume 2, .skipExactly (usizeMod - 2)] (MemoParser.fromBuffer [1, 2, 3]) =
    some ⟨[1, 2, 3], ⟨3, [], 0⟩, [2]⟩ := by run_wide
  refine ⟨_, he, ?_⟩
  rw [((C08_memoparser_any .release [1, 2, 3] (by decide) _ _ he fun _ => false).1 (by decide)).2 fun _ _ => rfl]
  have hd : (afterReads ⟨[1, 2, 3], ⟨3, [], 0⟩, [2]⟩ 3).dump .release = .panic := by decide +kernel
  have hw : (window [1, 2, 3] (MemoParser.offset ⟨[1, 2, 3], ⟨3, [], 0⟩, [2]⟩)
    (MemoParser.viewLen ⟨[1, 2, 3], ⟨3, [], 0⟩, [2]⟩)).length = 3 := by decide
  simp only [hw, hd]

end Verif.Props
