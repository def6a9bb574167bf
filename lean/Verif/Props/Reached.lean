import Verif.Lemmas.Width
import Verif.Props.Reading
import Verif.Props.Iterate
import Verif.Props.Cleanup
import Verif.Refine.Reached
/-
C06, C08, C41 and C60 for `ByteParser` after any calls whatsoever: also after requests that have wrapped in a release
build, where the windowed cursor does not describe the parser any more.  Everything is said in terms of what the caller
can see: `offset`, `view_len`, and the results so far.
-/
namespace Verif.Props

/-- The bytes between the cursor and the end of the innermost window. -/
def window (buf : Bytes) (off viewLen : Nat) : Bytes := (buf.drop off).take (viewLen - off)

theorem segTop_eq {buf : Bytes} {s : ByteParser} (h : Loose buf s) :
    (absCursor buf s.off).top = window buf s.offset s.viewLen := by
  show segTop buf s.off.cur s.off.frames = window buf s.off.index s.off.limit
  rw [segTop, window, ContextOffset.limit, ContextOffset.index, h.abs_eq]

theorem byteR_of_loose {buf : Bytes} {s : ByteParser} (h : Loose buf s) (hl : s.offset ≤ s.viewLen) :
    ByteR buf (window buf s.offset s.viewLen) (segOuter buf s.off.frames) s := by
  have := h.rep hl
  rw [← segTop_eq h]
  exact ⟨s.off.cur, this⟩

/-- In both builds the parser stays inside the buffer, and in debug builds inside the window. -/
theorem C07_byteparser_any (p : Profile) (buf : Bytes) (hb : buf.length ≤ isizeMax) (ops : List Op) (s : ByteParser)
    (hs : (ByteParser.ops p).exec ops (ByteParser.fromBuffer buf) = some s) :
    s.offset ≤ buf.length ∧ s.viewLen ≤ buf.length ∧ (p = .debug → s.offset ≤ s.viewLen) := by
  obtain ⟨h, _⟩ := Loose.exec p ops (Loose.start hb) hs
  refine ⟨h.cur_le, h.limit_le, fun hp => ?_⟩
  have := byte_exec hb (.inl hp) hs
  exact this.2.1.cur_le_limit

/-- The closing of windows in terms of `offset` and `view_len`, with `d` windows open. -/
structure CloseSpec {σ : Type} (P : ParserOps σ) (s : σ) (d : Nat) : Prop where
  none : d = 0 → P.enforceTarget s = .err (.window .closeWithoutWindow) s
  exact_ : d ≠ 0 → P.offset s = P.viewLen s → ∃ s', P.enforceTarget s = .ok () s' ∧ P.offset s' = P.offset s
  residue : d ≠ 0 → P.offset s < P.viewLen s → ∃ s',
    P.enforceTarget s = .err (.window (.closeWithResidue (P.viewLen s - P.offset s))) s' ∧ P.offset s' = P.offset s
  overflow : d ≠ 0 → P.viewLen s < P.offset s → ∃ s',
    P.enforceTarget s = .err (.window (.offsetOverflow (P.offset s - P.viewLen s))) s' ∧ P.offset s' = P.offset s
  test_none : d = 0 → P.testTarget s = .ok false s
  test : d ≠ 0 → P.offset s ≤ P.viewLen s → P.testTarget s = .ok (P.offset s == P.viewLen s) s
  test_overflow : d ≠ 0 → P.viewLen s < P.offset s →
    P.testTarget s = .err (.window (.offsetOverflow (P.offset s - P.viewLen s))) s

theorem closeSpec_byte (p : Profile) (s : ByteParser) : CloseSpec (ByteParser.ops p) s s.off.frames.length := by
  obtain ⟨buf, abs, frames, cur⟩ := s
  cases frames with
  | nil =>
    constructor <;> intro h
    · rfl
    all_goals first | exact absurd rfl h | skip
    rfl
  | cons f fs =>
    constructor <;> intro h
    all_goals first | cases h; done | skip
    all_goals intro h'
    all_goals simp only [ByteParser.ops, ByteParser.offset, ByteParser.viewLen, ContextOffset.limit, ContextOffset.index,
      List.head?_cons, Option.getD_some] at h' ⊢
    all_goals simp only [ByteParser.liftOff, ContextOffset.enforceTarget, ContextOffset.testTarget, ContextOffset.index]
    · simp [h']
    · have h1 : ¬ f = cur := by omega
      simp [h1, h']
    · have h1 : ¬ f = cur := by omega
      have h2 : ¬ cur < f := by omega
      simp [h1, h2]
    · by_cases he : f = cur
      · simp [he]
      · have h1 : cur < f := by omega
        have h2 : ¬ cur = f := fun h => he h.symm
        simp [he, h1, h2]
    · have h1 : ¬ f = cur := by omega
      have h2 : ¬ cur < f := by omega
      simp [h1, h2]

theorem closeSpec_memo (p : Profile) (s : MemoParser) : CloseSpec (MemoParser.ops p) s s.off.frames.length := by
  obtain ⟨buf, ⟨abs, frames, cur⟩, log⟩ := s
  cases frames with
  | nil =>
    constructor <;> intro h
    · rfl
    all_goals first | exact absurd rfl h | skip
    rfl
  | cons f fs =>
    constructor <;> intro h
    all_goals first | cases h; done | skip
    all_goals intro h'
    all_goals simp only [MemoParser.ops, MemoParser.offset, MemoParser.viewLen, ContextOffset.limit, ContextOffset.index,
      List.head?_cons, Option.getD_some] at h' ⊢
    all_goals simp only [MemoParser.liftOff, ContextOffset.enforceTarget, ContextOffset.testTarget, ContextOffset.index]
    · simp [h']
    · have h1 : ¬ f = cur := by omega
      simp [h1, h']
    · have h1 : ¬ f = cur := by omega
      have h2 : ¬ cur < f := by omega
      simp [h1, h2]
    · by_cases he : f = cur
      · simp [he]
      · have h1 : cur < f := by omega
        have h2 : ¬ cur = f := fun h => he h.symm
        simp [he, h1, h2]
    · have h1 : ¬ f = cur := by omega
      have h2 : ¬ cur < f := by omega
      simp [h1, h2]

/-- C06 for `ByteParser` after any calls: `openWindows` counts the windows from the results the caller has seen. -/
theorem C06_byteparser_any (p : Profile) (buf : Bytes) (hb : buf.length ≤ isizeMax) (ops : List Op) (s : ByteParser)
    (hs : (ByteParser.ops p).exec ops (ByteParser.fromBuffer buf) = some s) :
    CloseSpec (ByteParser.ops p) s (openWindows ops ((ByteParser.ops p).trace ops (ByteParser.fromBuffer buf)) 0) := by
  have := (Loose.exec p ops (Loose.start hb) hs).2
  rw [show openWindows ops ((ByteParser.ops p).trace ops (ByteParser.fromBuffer buf)) 0 = s.off.frames.length from this.symm]
  exact closeSpec_byte p s

/-- C06 for `MemoParser` after any calls. -/
theorem C06_memoparser_any (p : Profile) (buf : Bytes) (hb : buf.length ≤ isizeMax) (ops : List Op) (m : MemoParser)
    (hs : (MemoParser.ops p).exec ops (MemoParser.fromBuffer buf) = some m) :
    CloseSpec (MemoParser.ops p) m (openWindows ops ((MemoParser.ops p).trace ops (MemoParser.fromBuffer buf)) 0) := by
  obtain ⟨h1, h2⟩ := memo_exec_byte p ops hs
  have := (Loose.exec p ops (Loose.start hb) h1).2
  rw [h2, show openWindows ops ((ByteParser.ops p).trace ops (MemoParser.fromBuffer buf).toByte) 0 = m.off.frames.length
    from this.symm]
  exact closeSpec_memo p m

theorem remainder_wrapped {buf : Bytes} {s : ByteParser} (h : Loose buf s) (hl : s.viewLen < s.offset) (p : Profile) :
    (ByteParser.ops p).remainder s = .panic ∨
      (p = .release ∧ (ByteParser.ops p).remainder s = .ok (usizeMod + s.viewLen - s.offset) s) := by
  have hc : s.offset < usizeMod := by
    have h1 := h.cur_le
    have h2 := h.small
    have : s.offset = s.off.cur := rfl
    have := isizeMax_lt
    omega
  cases p with
  | debug =>
    left
    simp only [ByteParser.ops, ByteParser.remainder, usub]
    rw [if_neg (by omega)]
  | release =>
    right
    refine ⟨rfl, ?_⟩
    simp only [ByteParser.ops, ByteParser.remainder]
    have hv : s.viewLen < usizeMod := by omega
    rw [usub_wrap hv .release, if_neg (by simp), Nat.mod_eq_of_lt (by omega), Nat.add_comm]

/-- C08 for `ByteParser` after any calls: while the cursor is inside the window, as listed; otherwise
`take_self_terminating` panics, since it asks for memory for more than `isize::MAX` bytes. -/
theorem C08_byteparser_any (p : Profile) (buf : Bytes) (hb : buf.length ≤ isizeMax) (ops : List Op) (s : ByteParser)
    (hs : (ByteParser.ops p).exec ops (ByteParser.fromBuffer buf) = some s) :
    (s.offset ≤ s.viewLen → SelfTermSpec (ByteParser.ops p) s (window buf s.offset s.viewLen)) ∧
    (s.viewLen < s.offset → ∀ f, (ByteParser.ops p).takeSelfTerminating f s = .panic) := by
  obtain ⟨h, _⟩ := Loose.exec p ops (Loose.start hb) hs
  refine ⟨fun hl => selfTermSpec_of_lawful (byteLawful p buf) byte_rem_state (byteR_of_loose h hl), fun hl f => ?_⟩
  rcases remainder_wrapped h hl p with hr | ⟨_, hr⟩
  · simp only [ParserOps.takeSelfTerminating, M.bind_run, hr, Out.bind]
  · simp only [ParserOps.takeSelfTerminating, M.bind_run, hr, Out.bind_ok]
    have h1 := h.cur_le
    have h2 := h.small
    have h3 : s.offset = s.off.cur := rfl
    have h4 : usizeMod = 2 * (isizeMax + 1) := usizeMod_eq
    rw [if_pos (by omega)]
    rfl

/-- C60 for `ByteParser` after any calls: the bytes between cursor and end of the window; none if the end lies
before the cursor. -/
theorem C60_byteparser_any (p : Profile) (buf : Bytes) (hb : buf.length ≤ isizeMax) (ops : List Op) (s : ByteParser)
    (hs : (ByteParser.ops p).exec ops (ByteParser.fromBuffer buf) = some s) :
    (s.offset ≤ s.viewLen → ∃ vs, IterSpec (ByteParser.ops p) s (window buf s.offset s.viewLen) vs ∧
      window buf s.offset s.viewLen ++ vs.flatten = buf.drop s.offset) ∧
    (s.viewLen < s.offset → (∀ k, (ByteParser.ops p).nexts k s = .ok (List.replicate k none) s) ∧
      (ByteParser.ops p).collect s = .ok [] s) := by
  obtain ⟨h, _⟩ := Loose.exec p ops (Loose.start hb) hs
  constructor
  · intro hl
    refine ⟨_, iterSpec_of_lawful (byteLawful p buf) byte_rem_state (byteR_of_loose h hl), ?_⟩
    rw [← segTop_eq h]
    have hc := (h.rep hl).2.1.chain
    rw [h.abs_eq] at hc
    exact seg_flatten s.off.frames s.off.cur hc
  · intro hl
    have hn : ∃ e, (ByteParser.ops p).consumeByte s = .err e s := by
      have h1 := h.cur_le
      have h2 := h.small
      have h3 : s.offset = s.off.cur := rfl
      have h4 : usizeMod = 2 * (isizeMax + 1) := usizeMod_eq
      have h5 : s.viewLen = s.off.limit := rfl
      simp only [ByteParser.ops, ByteParser.consumeByte, ContextOffset.advance]
      rw [uadd_of_lt (by have : 0 < isizeMax := by decide
                         omega)]
      simp only
      rw [if_neg (by omega)]
      exact ⟨_, rfl⟩
    obtain ⟨e, hn⟩ := hn
    constructor
    · intro k
      induction k with
      | zero => rfl
      | succ k ih => simp [ParserOps.nexts, M.bind_run, ParserOps.iterNext, hn, ih, List.replicate_succ]
    · rw [ParserOps.collect, iterM_unfold]
      simp [ParserOps.collectBody, M.bind_run, ParserOps.iterNext, hn]

/-- C41 for `ByteParser` after any calls: all from the cursor on, cut at the ends of the windows; but if the end of the
window lies before the cursor (only in release builds), `cleanup` reads an inverted range. -/
theorem C41_byteparser_any (p : Profile) (buf : Bytes) (hb : buf.length ≤ isizeMax) (ops : List Op) (s : ByteParser)
    (hs : (ByteParser.ops p).exec ops (ByteParser.fromBuffer buf) = some s) :
    (s.offset ≤ s.viewLen → ∃ l s', Backend.cleanup p .byte s = .ok (.ok l) s' ∧ leftBytes l = buf.drop s.offset) ∧
    (s.viewLen < s.offset → Backend.cleanup p .byte s = .ub) := by
  obtain ⟨h, _⟩ := Loose.exec p ops (Loose.start hb) hs
  constructor
  · intro hl
    have hH : Backend.Holds .byte (window buf s.offset s.viewLen) (segOuter buf s.off.frames) s :=
      ⟨buf, byteR_of_loose h hl⟩
    obtain ⟨l, s', e, ⟨buf', h'⟩, h1, _⟩ := C41_cleanup p .byte nofun _ _ s hH
    have hc := (h.rep hl).2.1.chain
    rw [h.abs_eq] at hc
    refine ⟨l, s', e, ?_⟩
    rw [h1, ← segTop_eq h]
    exact seg_flatten s.off.frames s.off.cur hc
  · intro hl
    have hp : p = .release := by
      cases p with
      | release => rfl
      | debug => exact absurd ((C07_byteparser_any .debug buf hb ops s hs).2.2 rfl) (by omega)
    subst hp
    have h1 := h.cur_le
    have h2 := h.small
    have h3 : s.offset = s.off.cur := rfl
    have h4 : usizeMod = 2 * (isizeMax + 1) := usizeMod_eq
    have h5 : s.viewLen = s.off.limit := rfl
    have hr : (ByteParser.ops .release).remainder s = .ok (usizeMod + s.viewLen - s.offset) s := by
      rcases remainder_wrapped h hl .release with hr | ⟨_, hr⟩
      · obtain ⟨r, hr'⟩ : ∃ r, usub .release s.viewLen s.offset = some r := ⟨_, by rw [usub_wrap (by omega), if_neg (by simp)]⟩
        simp only [ByteParser.ops, ByteParser.remainder, hr'] at hr
        cases hr
      · exact hr
    obtain ⟨n, hn⟩ : ∃ n, n = usizeMod + s.viewLen - s.offset := ⟨_, rfl⟩
    rw [← hn] at hr
    have hu : uadd .release s.off.cur n = some s.off.limit := by
      have : s.off.cur + n - usizeMod = s.off.limit := by omega
      rw [uadd_wrap (by omega) (by omega) (by omega), this]
    have hcons : (ByteParser.ops .release).consume n s = .ub := by
      simp only [ByteParser.ops, ByteParser.consume, ContextOffset.advance, hu, Nat.le_refl, if_true,
        VecBuffer.getSliceUnchecked]
      rw [if_neg (by omega)]
    show (ByteParser.ops .release).cleanup s = .ub
    rw [ParserOps.cleanup, iterM_unfold]
    have hb' : (ByteParser.ops .release).cleanupBody (.ok .new) s = .ub := by
      simp only [ParserOps.cleanupBody, hr]
      rw [if_pos (by omega)]
      simp only [ParserOps.takeDynamic, hcons]
    rw [hb']
    rfl

/-- The exceptions are real: two bytes of three are read, then a window is opened that wraps. -/
theorem C41_release_wrapped : ∃ s, (ByteParser.ops .release).exec [.consume 2, .setFit (usizeMod - 1)]
    (ByteParser.fromBuffer [1, 2, 3]) = some s ∧ s.viewLen < s.offset ∧ Backend.cleanup .release .byte s = .ub ∧
    ∀ f, (ByteParser.ops .release).takeSelfTerminating f s = .panic := by
  have he : (ByteParser.ops .release).exec [.consume 2, .setFit (usizeMod - 1)] (ByteParser.fromBuffer [1, 2, 3]) =
    some ⟨[1, 2, 3], ⟨3, [1], 2⟩⟩ := by run_wide
  refine ⟨_, he, by decide, ?_, ?_⟩
  · exact (C41_byteparser_any .release [1, 2, 3] (by decide) _ _ he).2 (by decide)
  · exact (C08_byteparser_any .release [1, 2, 3] (by decide) _ _ he).2 (by decide)

/-- What `MemoParser` is after `j` more bytes have been read one by one. -/
def afterReads (m : MemoParser) (j : Nat) : MemoParser :=
  { m with off := { m.off with cur := m.off.cur + j }, munches := m.munches ++ List.replicate j 1 }

theorem memo_consumeByte_in {buf : Bytes} {m : MemoParser} (p : Profile) (h : Loose buf m.toByte) {b : Byte} {w : Bytes}
    (hw : window buf m.offset m.viewLen = b :: w) :
    (MemoParser.ops p).consumeByte m = .ok b (afterReads m 1) ∧ Loose buf (afterReads m 1).toByte ∧
      window buf (afterReads m 1).offset (afterReads m 1).viewLen = w := by
  have h1 : m.off.cur ≤ buf.length := h.cur_le
  have h2 := h.small
  have h3 : m.off.limit ≤ buf.length := h.limit_le
  have h6 : m.buffer = buf := h.buffer
  have h4 : usizeMod = 2 * (isizeMax + 1) := usizeMod_eq
  have hlt : m.off.cur < m.off.limit := by
    refine Nat.lt_of_not_le fun hc => ?_
    have : window buf m.offset m.viewLen = [] := by
      show (buf.drop m.off.cur).take (m.off.limit - m.off.cur) = []
      rw [Nat.sub_eq_zero_of_le (by omega)]; rfl
    rw [this] at hw; cases hw
  have hd : buf.drop m.off.cur = buf[m.off.cur] :: buf.drop (m.off.cur + 1) := List.drop_eq_getElem_cons (by omega)
  have hw' : (buf.drop m.off.cur).take (m.off.limit - m.off.cur) = b :: w := hw
  rw [hd, show m.off.limit - m.off.cur = (m.off.limit - (m.off.cur + 1)) + 1 by omega, List.take_succ_cons] at hw'
  obtain ⟨hb, hw''⟩ := List.cons.inj hw'
  refine ⟨?_, ⟨h.buffer, h.small, h.abs_eq, ?_, h.chain⟩, hw''⟩
  · simp only [MemoParser.ops, MemoParser.consumeByte, ContextOffset.advance]
    rw [uadd_of_lt (by omega)]
    simp only
    rw [if_pos (by omega)]
    simp only [if_true, VecBuffer.getByte, h6]
    rw [if_pos (by omega)]
    simp only [VecBuffer.getByteUnchecked]
    rw [List.getElem?_eq_getElem (by omega), hb, ← h6]
    rfl
  · show m.off.cur + 1 ≤ buf.length
    omega

theorem memo_consumeByte_out {buf : Bytes} {m : MemoParser} (p : Profile) (h : Loose buf m.toByte)
    (hw : window buf m.offset m.viewLen = []) :
    ∃ e, (MemoParser.ops p).consumeByte m = MemoParser.failDump p e m := by
  have h1 : m.off.cur ≤ buf.length := h.cur_le
  have h2 := h.small
  have h3 : m.off.limit ≤ buf.length := h.limit_le
  have h4 : usizeMod = 2 * (isizeMax + 1) := usizeMod_eq
  have h7 : 0 < isizeMax := by decide
  have hlt : m.off.limit ≤ m.off.cur := by
    have : ((buf.drop m.off.cur).take (m.off.limit - m.off.cur)).length = 0 := congrArg List.length hw
    simp only [List.length_take, List.length_drop] at this
    omega
  refine ⟨.window (.consumeWouldExceedLimit m.off.cur 1 m.viewLen), ?_⟩
  simp only [MemoParser.ops, MemoParser.consumeByte, ContextOffset.advance]
  rw [uadd_of_lt (by omega)]
  simp only
  rw [if_neg (by omega)]
  rfl

theorem afterReads_add (m : MemoParser) (i j : Nat) : afterReads (afterReads m i) j = afterReads m (i + j) := by
  simp only [afterReads, Nat.add_assoc, List.append_assoc, List.replicate_append_replicate]

theorem afterReads_zero (m : MemoParser) : afterReads m 0 = m := by
  simp [afterReads]

theorem memo_nexts {buf : Bytes} (p : Profile) : ∀ (w : Bytes) (k : Nat) {m : MemoParser}, Loose buf m.toByte →
    window buf m.offset m.viewLen = w →
    (MemoParser.ops p).nexts k m =
      if k ≤ w.length then .ok ((w.take k).map some) (afterReads m k)
      else match (afterReads m w.length).dump p with
        | .val _ => .ok (w.map some ++ List.replicate (k - w.length) none) (afterReads m w.length)
        | .panic => .panic
        | .ub => .ub
  | w, 0, m, _, _ => by simp [ParserOps.nexts, afterReads_zero, M.pure_run]
  | [], k + 1, m, h, hw => by
    obtain ⟨e, he⟩ := memo_consumeByte_out p h hw
    have ih := memo_nexts p [] k h hw
    simp only [List.length_nil, afterReads_zero, Nat.le_zero] at ih ⊢
    simp only [ParserOps.nexts, M.bind_run, ParserOps.iterNext, he, MemoParser.failDump]
    cases hd : m.dump p with
    | val ps =>
      rw [hd] at ih
      by_cases hk : k = 0
      · subst hk; simp [ih, afterReads_zero]
      · simp [ih, hk, List.replicate_succ]
    | panic => simp
    | ub => simp
  | b :: w, k + 1, m, h, hw => by
    obtain ⟨h1, h2, h3⟩ := memo_consumeByte_in p h hw
    have ih := memo_nexts p w k h2 h3
    simp only [afterReads_add] at ih
    simp only [ParserOps.nexts, M.bind_run, ParserOps.iterNext, h1, Out.bind_ok, ih]
    simp only [List.length_cons, Nat.add_le_add_iff_right, Nat.add_comm 1]
    by_cases hk : k ≤ w.length
    · simp [hk]
    · simp only [hk, if_false]
      cases (afterReads m (w.length + 1)).dump p <;> simp

theorem memo_collect {buf : Bytes} (p : Profile) : ∀ (w : Bytes) (acc : Bytes) {m : MemoParser}, Loose buf m.toByte →
    window buf m.offset m.viewLen = w →
    iterM (MemoParser.ops p).collectBody acc m =
      match (afterReads m w.length).dump p with
        | .val _ => .ok (acc ++ w) (afterReads m w.length)
        | .panic => .panic
        | .ub => .ub
  | [], acc, m, h, hw => by
    obtain ⟨e, he⟩ := memo_consumeByte_out p h hw
    rw [iterM_unfold]
    simp only [ParserOps.collectBody, M.bind_run, ParserOps.iterNext, he, MemoParser.failDump, List.length_nil,
      afterReads_zero]
    cases m.dump p <;> simp
  | b :: w, acc, m, h, hw => by
    obtain ⟨h1, h2, h3⟩ := memo_consumeByte_in p h hw
    have ih := memo_collect p w (acc ++ [b]) h2 h3
    rw [iterM_unfold]
    simp only [afterReads_add] at ih
    simp [ParserOps.collectBody, M.bind_run, ParserOps.iterNext, h1, ih, Nat.add_comm 1]

/-- C60 for `MemoParser` after any calls: `next` yields the bytes between cursor and end of the window; the `None`
after them is printed with the log, and comes if the log can be printed: otherwise the parser dies as printing does. -/
theorem C60_memoparser_any (p : Profile) (buf : Bytes) (hb : buf.length ≤ isizeMax) (ops : List Op) (m : MemoParser)
    (hs : (MemoParser.ops p).exec ops (MemoParser.fromBuffer buf) = some m) :
    let w := window buf m.offset m.viewLen
    (∀ k ≤ w.length, (MemoParser.ops p).nexts k m = .ok ((w.take k).map some) (afterReads m k)) ∧
    (∀ k > w.length, (MemoParser.ops p).nexts k m =
      match (afterReads m w.length).dump p with
        | .val _ => .ok (w.map some ++ List.replicate (k - w.length) none) (afterReads m w.length)
        | .panic => .panic
        | .ub => .ub) ∧
    (MemoParser.ops p).collect m =
      match (afterReads m w.length).dump p with
        | .val _ => .ok w (afterReads m w.length)
        | .panic => .panic
        | .ub => .ub := by
  intro w
  obtain ⟨h1, _⟩ := memo_exec_byte p ops hs
  obtain ⟨h, _⟩ := Loose.exec p ops (Loose.start hb) h1
  refine ⟨fun k hk => ?_, fun k hk => ?_, ?_⟩
  · rw [memo_nexts p w k h rfl, if_pos hk]
  · rw [memo_nexts p w k h rfl, if_neg (by omega)]
  · exact memo_collect p w [] h rfl

/-- Both cases after a request that has wrapped: with the cursor back at the start, the first two bytes are read twice,
which the log cannot account for; with only the last of them read again, it can. -/
example : ∃ m m', (MemoParser.ops .release).exec [.consume 2, .skipExactly (usizeMod - 2)]
      (MemoParser.fromBuffer [1, 2, 3]) = some m ∧ window [1, 2, 3] m.offset m.viewLen = [1, 2, 3] ∧
      (afterReads m 3).dump .release = .panic ∧
    (MemoParser.ops .release).exec [.consumeByte, .skipExactly (usizeMod - 1), .skipExactly 1]
      (MemoParser.fromBuffer [1, 2, 3]) = some m' ∧ window [1, 2, 3] m'.offset m'.viewLen = [2, 3] ∧
      (afterReads m' 2).dump .release = .val [[1], [2], [3]] :=
  ⟨⟨[1, 2, 3], ⟨3, [], 0⟩, [2]⟩, ⟨[1, 2, 3], ⟨3, [], 1⟩, [1]⟩, by run_wide, by decide +kernel, by decide +kernel, by run_wide,
    by decide +kernel, by decide +kernel⟩

/-- A state of the ordinary kind that is reached by wrapping: the cursor has gone back to the start. -/
example : ∃ s, (ByteParser.ops .release).exec [.consume 2, .skipExactly (usizeMod - 2)]
    (ByteParser.fromBuffer [1, 2, 3]) = some s ∧ s.offset = 0 ∧ s.viewLen = 3 :=
  ⟨⟨[1, 2, 3], ⟨3, [], 0⟩⟩, by run_wide, rfl, rfl⟩

end Verif.Props
