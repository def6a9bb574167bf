import Verif.Lemmas.Width
import Verif.Props.ReadsAny
import Verif.Props.ReachedMemo
/-
C44 for `ByteParser` and `MemoParser` after any calls: what `skip_exactly` and `skip` do with any argument.
-/
namespace Verif.Props

theorem skipExactly_wraps {buf : Bytes} {s : ByteParser} (h : Loose buf s) (n M : Nat) (hM : usizeMod = M) (hI : isizeMax < M)
    (hn : n < M) (ho : M ≤ s.off.cur + n) (hl : s.off.cur + n - M ≤ s.off.limit) :
    ByteParser.skipExactly .release n s = .ok () { s with off := { s.off with cur := s.off.cur + n - M } } := by
  have h1 : s.off.cur ≤ buf.length := h.cur_le
  have h2 := h.small
  obtain ⟨v, hv, hu⟩ := uadd_wraps (a := s.off.cur) (n := n) hM (by omega) hn ho
  obtain rfl : v = s.off.cur + n - M := by omega
  simp only [ByteParser.skipExactly, ContextOffset.advance, hu]
  rw [if_pos hl]
  rfl

theorem skipExactly_back {buf : Bytes} {s : ByteParser} (h : Loose buf s) (n M : Nat) (hM : usizeMod = M) (hI : isizeMax < M)
    (hn : n < M) (ho : M ≤ s.off.cur + n) (hl : s.off.cur + n - M ≤ s.off.limit) :
    ∃ s', ByteParser.skipExactly .release n s = .ok () s' ∧ s'.offset + M = s.offset + n ∧ s'.viewLen = s.viewLen :=
  ⟨_, skipExactly_wraps h n M hM hI hn ho hl, Nat.sub_add_cancel ho, rfl⟩

theorem memo_skipExactly_back {buf : Bytes} {m : MemoParser} (h : Loose buf m.toByte) (n M : Nat) (hM : usizeMod = M)
    (hI : isizeMax < M) (hn : n < M) (ho : M ≤ m.off.cur + n) (hl : m.off.cur + n - M ≤ m.off.limit) :
    ∃ m', MemoParser.skipExactly .release n m = .ok () m' ∧ m'.offset + M = m.offset + n ∧ m'.viewLen = m.viewLen := by
  have h1 : m.off.cur ≤ buf.length := h.cur_le
  have h2 := h.small
  obtain ⟨v, hv, hu⟩ := uadd_wraps (a := m.off.cur) (n := n) hM (by omega) hn ho
  obtain rfl : v = m.off.cur + n - M := by omega
  refine ⟨{ m with off := { m.off with cur := m.off.cur + n - M } }, ?_, Nat.sub_add_cancel ho, rfl⟩
  simp only [MemoParser.skipExactly, ContextOffset.advance, hu]
  rw [if_pos hl]
  rfl

theorem skipExactly_is_consume {buf : Bytes} {s : ByteParser} (p : Profile) (h : Loose buf s) (n M : Nat) (hM : usizeMod = M)
    (hI : isizeMax < M) (hn : n < M) (hx : ¬ (p = .release ∧ M ≤ s.off.cur + n ∧ s.off.cur + n - M ≤ s.off.limit)) :
    ByteParser.skipExactly p n s = ((fun _ => ()) <$> ByteParser.consume p n : PM ByteParser Unit) s := by
  obtain ⟨a, b, c, d, e⟩ := consume_loose p h n M hM hI hn
  have h1 : s.off.cur ≤ buf.length := h.cur_le
  have h2 := h.small
  have h3 : s.off.limit ≤ buf.length := h.limit_le
  rw [Verif.M.map_run]
  by_cases hs : s.off.cur + n < M
  · have hu : uadd p s.off.cur n = some (s.off.cur + n) := uadd_of_lt (by omega)
    by_cases hl : s.off.cur + n ≤ s.off.limit
    · rw [a hl]
      simp only [ByteParser.skipExactly, ContextOffset.advance, hu]
      rw [if_pos hl]
      rfl
    · rw [b (by omega) hs]
      simp only [ByteParser.skipExactly, ContextOffset.advance, hu]
      rw [if_neg hl]
      rfl
  · cases p with
    | debug =>
      rw [c rfl (by omega)]
      simp only [ByteParser.skipExactly, ContextOffset.advance]
      rw [uadd_debug (by omega)]
      rfl
    | release =>
      have hl : s.off.limit < s.off.cur + n - M := by
        by_cases hl : s.off.cur + n - M ≤ s.off.limit
        · exact absurd ⟨rfl, by omega, hl⟩ hx
        · omega
      rw [e rfl (by omega) hl]
      obtain ⟨v, hv, hu⟩ := uadd_wraps (a := s.off.cur) (n := n) hM (by omega) hn (by omega)
      simp only [ByteParser.skipExactly, ContextOffset.advance, hu]
      rw [if_neg (by omega)]
      rfl

/-- C44 for `ByteParser` after any calls, all `usize` arguments: `skip_exactly` is `consume` with the bytes dropped,
except where `consume` is undefined behaviour (C04); there `skip_exactly` moves the cursor backwards. -/
theorem C44_byteparser_any (p : Profile) (buf : Bytes) (hb : buf.length ≤ isizeMax) (ops : List Op) (s : ByteParser)
    (hs : (ByteParser.ops p).exec ops (ByteParser.fromBuffer buf) = some s) (n : Nat) (hn : n < usizeMod) :
    ((ByteParser.ops p).consume n s ≠ .ub →
      (ByteParser.ops p).skipExactly n s = ((fun _ => ()) <$> (ByteParser.ops p).consume n) s) ∧
    ((ByteParser.ops p).consume n s = .ub → ∃ s', (ByteParser.ops p).skipExactly n s = .ok () s' ∧
      s'.offset + usizeMod = s.offset + n ∧ s'.viewLen = s.viewLen) := by
  have h := (Loose.exec p ops (Loose.start hb) hs).1
  have hc := consumeSpec_loose p h n hn
  have eo : (ByteParser.ops p).offset s = s.off.cur := rfl
  have ev : (ByteParser.ops p).viewLen s = s.off.limit := rfl
  by_cases hx : p = .release ∧ usizeMod ≤ s.off.cur + n ∧ s.off.cur + n - usizeMod ≤ s.off.limit
  · obtain ⟨rfl, ho, hl⟩ := hx
    exact ⟨fun hu => absurd (hc.wrapped rfl ho hl) hu, fun _ => skipExactly_back h n usizeMod rfl (by rw [usizeMod_eq]; omega) hn ho hl⟩
  · refine ⟨fun _ => skipExactly_is_consume p h n usizeMod rfl (by rw [usizeMod_eq]; omega) hn hx, fun hu => absurd ?_ hx⟩
    by_cases h1 : s.off.cur + n ≤ s.off.limit
    · obtain ⟨_, h2, _⟩ := hc.there h1
      rw [h2] at hu; cases hu
    by_cases h2 : s.off.cur + n < usizeMod
    · rw [hc.missing (by omega) h2] at hu; cases hu
    cases p with
    | debug => rw [hc.checked rfl (by omega)] at hu; cases hu
    | release =>
      by_cases h3 : s.off.cur + n - usizeMod ≤ s.off.limit
      · exact ⟨rfl, by omega, h3⟩
      · rw [hc.beyond rfl (by omega) (by omega)] at hu; cases hu

/-- Both cases occur. -/
example : ∃ s, (ByteParser.ops .release).exec [.consume 2, .setFit (usizeMod - 1)] (ByteParser.fromBuffer [1, 2, 3]) = some s ∧
    (ByteParser.ops .release).trace [.consume (usizeMod - 2)] s = [.ub] ∧
    (ByteParser.ops .release).trace [.skipExactly (usizeMod - 2), .offset] s = [.ok .unit, .ok (.nat 0)] ∧
    ∃ e, (ByteParser.ops .release).trace [.skipExactly 1] s = [.err e] ∧
      (ByteParser.ops .release).trace [.consume 1] s = [.err e] :=
  ⟨⟨[1, 2, 3], ⟨3, [1], 2⟩⟩, by run_wide, by run_wide, by run_wide, _, rfl, rfl⟩

theorem memo_skipExactly (p : Profile) (m : MemoParser) (n : Nat)
    (hb : (ByteParser.ops p).skipExactly n m.toByte = ((fun _ => ()) <$> (ByteParser.ops p).consume n) m.toByte) :
    ((MemoParser.ops p).skipExactly n m).mapS MemoParser.toByte =
      (((fun _ => ()) <$> (MemoParser.ops p).consume n) m).mapS MemoParser.toByte := by
  rw [M.map_run] at hb ⊢
  simp only [MemoParser.ops, ByteParser.ops, MemoParser.skipExactly, MemoParser.consume, ByteParser.skipExactly,
    ByteParser.consume, MemoParser.toByte] at hb ⊢
  cases ha : m.off.advance p n with
  | none => rfl
  | some r =>
    obtain ⟨⟨ix, adv⟩, o⟩ := r
    simp only [ha] at hb ⊢
    cases adv with
    | true =>
      simp only [if_true] at hb ⊢
      cases hg : VecBuffer.getSliceUnchecked p m.buffer ix n <;> simp only [hg] at hb ⊢
      · rfl
      · cases hb
      · cases hb
    | false =>
      simp only [Bool.false_eq_true, if_false, MemoParser.failDump]
      cases MemoParser.dump p { m with off := o } <;> rfl

/-- C44 for `MemoParser` after any calls, all `usize` arguments: the same up to the log of reads. -/
theorem C44_memoparser_any (p : Profile) (buf : Bytes) (hb : buf.length ≤ isizeMax) (ops : List Op) (m : MemoParser)
    (hs : (MemoParser.ops p).exec ops (MemoParser.fromBuffer buf) = some m) (n : Nat) (hn : n < usizeMod) :
    (¬ (p = .release ∧ usizeMod ≤ m.offset + n ∧ m.offset + n - usizeMod ≤ m.viewLen) →
      ((MemoParser.ops p).skipExactly n m).mapS MemoParser.toByte =
        (((fun _ => ()) <$> (MemoParser.ops p).consume n) m).mapS MemoParser.toByte) ∧
    (p = .release → usizeMod ≤ m.offset + n → m.offset + n - usizeMod ≤ m.viewLen →
      (MemoParser.ops p).consume n m = .ub ∧ ∃ m', (MemoParser.ops p).skipExactly n m = .ok () m' ∧
        m'.offset + usizeMod = m.offset + n ∧ m'.viewLen = m.viewLen) := by
  have h := (Loose.exec p ops (Loose.start hb) (memo_exec_byte p ops hs).1).1
  refine ⟨fun hx => ?_, ?_⟩
  · refine memo_skipExactly p m n (skipExactly_is_consume p h n usizeMod rfl (by rw [usizeMod_eq]; omega) hn hx)
  · rintro rfl ho hl
    refine ⟨memo_consume_ub ((consumeSpec_loose .release h n hn).wrapped rfl ho hl), ?_⟩
    exact memo_skipExactly_back h n usizeMod rfl (by rw [usizeMod_eq]; omega) hn ho hl

/-- What `skip(n)` does, in terms of `offset` and `view_len`; `stuck` is how `unreachable!` shows; there are `W` numbers. -/
structure SkipSpec (P : ParserOps σ) (p : Profile) (s : σ) (n W : Nat) (stuck : Out σ ParseError Nat) : Prop where
  /-- the cursor is in the window -/
  inside : P.offset s ≤ P.viewLen s → ∃ s', P.skip n s = .ok (min (P.viewLen s - P.offset s) n) s' ∧
    P.offset s' = P.offset s + min (P.viewLen s - P.offset s) n ∧ P.viewLen s' = P.viewLen s
  /-- it is behind its end, after a wrapped request -/
  checked : P.viewLen s < P.offset s → p = .debug → P.skip n s = .panic
  back : P.viewLen s < P.offset s → p = .release → W ≤ P.offset s + n →
    ∃ s', P.skip n s = .ok (min (W + P.viewLen s - P.offset s) n) s' ∧
      P.offset s' + W = P.offset s + min (W + P.viewLen s - P.offset s) n ∧ P.viewLen s' = P.viewLen s
  stuck : P.viewLen s < P.offset s → p = .release → P.offset s + n < W → P.skip n s = stuck

theorem skip_cases (o : ContextOffset) (p : Profile) (n M : Nat) (hM : usizeMod = M) (hn : n < M) (hc : o.cur < M)
    (hl : o.limit < M) :
    (o.cur ≤ o.limit → o.rem p = some (o.limit - o.cur) ∧ o.advance p (min (o.limit - o.cur) n) =
      some ((o.cur, true), { o with cur := o.cur + min (o.limit - o.cur) n })) ∧
    (o.limit < o.cur → p = .debug → o.rem p = none) ∧
    (o.limit < o.cur → p = .release → o.rem p = some (M + o.limit - o.cur) ∧
      (M ≤ o.cur + n → o.advance p (min (M + o.limit - o.cur) n) =
        some ((o.cur, true), { o with cur := o.cur + min (M + o.limit - o.cur) n - M })) ∧
      (o.cur + n < M → o.advance p (min (M + o.limit - o.cur) n) = some ((o.cur, false), o))) := by
  refine ⟨fun h => ?_, ?_, ?_⟩
  · constructor
    · cases p
      · show (if o.limit ≥ o.index then usub .debug o.limit o.index else none) = _
        rw [if_pos (show o.limit ≥ o.index from h)]
        exact usub_of_le (show o.index ≤ o.limit from h)
      · show usub .release o.limit o.index = _
        exact usub_of_le (show o.index ≤ o.limit from h)
    · simp only [ContextOffset.advance]
      rw [uadd_of_lt (by omega)]
      simp only
      rw [if_pos (by omega)]
  · rintro h rfl
    show (if o.limit ≥ o.index then usub .debug o.limit o.index else none) = _
    rw [if_neg (by simpa [ContextOffset.index] using h)]
  · rintro h rfl
    refine ⟨?_, fun ho => ?_, fun ho => ?_⟩
    · show usub .release o.limit o.cur = _
      rw [usub_wrap (by omega) .release, if_neg (by simp), Nat.mod_eq_of_lt (by omega), hM, Nat.add_comm]
    · obtain ⟨v, hv, hu⟩ := uadd_wraps (a := o.cur) (n := min (M + o.limit - o.cur) n) hM hc (by omega) (by omega)
      obtain rfl : v = o.cur + min (M + o.limit - o.cur) n - M := by omega
      simp only [ContextOffset.advance, hu]
      rw [if_pos (by omega)]
    · simp only [ContextOffset.advance]
      rw [uadd_of_lt (by omega)]
      simp only
      rw [if_neg (by omega)]

theorem byte_skipSpec (p : Profile) (s : ByteParser) (n W : Nat) (hW : usizeMod = W) (hn : n < W) (hc : s.off.cur < W)
    (hv : s.off.limit < W) : SkipSpec (ByteParser.ops p) p s n W .panic := by
  obtain ⟨a, b, c⟩ := skip_cases s.off p n W hW hn hc hv
  refine ⟨fun hl => ?_, fun hl hp => ?_, fun hl hp ho => ?_, fun hl hp ho => ?_⟩
  · obtain ⟨hr, ha⟩ := a hl
    refine ⟨{ s with off := { s.off with cur := s.off.cur + min (s.off.limit - s.off.cur) n } }, ?_, rfl, rfl⟩
    simp only [ByteParser.ops, ByteParser.skip, hr, ha]
    rfl
  · simp only [ByteParser.ops, ByteParser.skip, b hl hp]
  · obtain ⟨hr, ha, _⟩ := c hl hp
    refine ⟨{ s with off := { s.off with cur := s.off.cur + min (W + s.off.limit - s.off.cur) n - W } }, ?_, ?_, rfl⟩
    · simp only [ByteParser.ops, ByteParser.skip, hr, ha ho]
      rfl
    · have hl' : s.off.limit < s.off.cur := hl
      have ho' : W ≤ s.off.cur + n := ho
      show s.off.cur + min (W + s.off.limit - s.off.cur) n - W + W = s.off.cur + min (W + s.off.limit - s.off.cur) n
      omega
  · obtain ⟨hr, _, ha⟩ := c hl hp
    simp only [ByteParser.ops, ByteParser.skip, hr, ha ho]
    rfl

theorem memo_skipSpec (p : Profile) (m : MemoParser) (n W : Nat) (hW : usizeMod = W) (hn : n < W) (hc : m.off.cur < W)
    (hv : m.off.limit < W) : SkipSpec (MemoParser.ops p) p m n W (if m.dump p = .ub then .ub else .panic) := by
  obtain ⟨a, b, c⟩ := skip_cases m.off p n W hW hn hc hv
  refine ⟨fun hl => ?_, fun hl hp => ?_, fun hl hp ho => ?_, fun hl hp ho => ?_⟩
  · obtain ⟨hr, ha⟩ := a hl
    refine ⟨⟨m.buffer, { m.off with cur := m.off.cur + min (m.off.limit - m.off.cur) n },
      m.munches ++ [min (m.off.limit - m.off.cur) n]⟩, ?_, rfl, rfl⟩
    simp only [MemoParser.ops, MemoParser.skip, hr, ha]
    rfl
  · simp only [MemoParser.ops, MemoParser.skip, b hl hp]
  · obtain ⟨hr, ha, _⟩ := c hl hp
    refine ⟨⟨m.buffer, { m.off with cur := m.off.cur + min (W + m.off.limit - m.off.cur) n - W },
      m.munches ++ [min (W + m.off.limit - m.off.cur) n]⟩, ?_, ?_, rfl⟩
    · simp only [MemoParser.ops, MemoParser.skip, hr, ha ho]
      rfl
    · have hl' : m.off.limit < m.off.cur := hl
      have ho' : W ≤ m.off.cur + n := ho
      show m.off.cur + min (W + m.off.limit - m.off.cur) n - W + W = m.off.cur + min (W + m.off.limit - m.off.cur) n
      omega
  · obtain ⟨hr, _, ha⟩ := c hl hp
    simp only [MemoParser.ops, MemoParser.skip, hr, ha ho]
    cases hd : m.dump p <;> simp

/-- C44 for `ByteParser` after any calls: `skip(n)` moves past `min n remainder` bytes while the cursor is in the window;
behind its end (release builds only) it moves back or reaches `unreachable!`. -/
theorem C44_byteparser_skip_any (p : Profile) (buf : Bytes) (hb : buf.length ≤ isizeMax) (ops : List Op) (s : ByteParser)
    (hs : (ByteParser.ops p).exec ops (ByteParser.fromBuffer buf) = some s) (n : Nat) (hn : n < usizeMod) :
    SkipSpec (ByteParser.ops p) p s n (usizeMod) .panic := by
  have h := (Loose.exec p ops (Loose.start hb) hs).1
  have h1 : s.off.cur ≤ buf.length := h.cur_le
  have h2 := h.small
  have h3 : s.off.limit ≤ buf.length := h.limit_le
  have hI : isizeMax < usizeMod := by rw [usizeMod_eq]; omega
  exact byte_skipSpec p s n usizeMod rfl hn (by omega) (by omega)

/-- C44 for `MemoParser` after any calls: the same, but before `unreachable!` the log is printed. -/
theorem C44_memoparser_skip_any (p : Profile) (buf : Bytes) (hb : buf.length ≤ isizeMax) (ops : List Op) (m : MemoParser)
    (hs : (MemoParser.ops p).exec ops (MemoParser.fromBuffer buf) = some m) (n : Nat) (hn : n < usizeMod) :
    SkipSpec (MemoParser.ops p) p m n (usizeMod) (if m.dump p = .ub then .ub else .panic) := by
  have h := (Loose.exec p ops (Loose.start hb) (memo_exec_byte p ops hs).1).1
  have h1 : m.off.cur ≤ buf.length := h.cur_le
  have h2 := h.small
  have h3 : m.off.limit ≤ buf.length := h.limit_le
  have hI : isizeMax < usizeMod := by rw [usizeMod_eq]; omega
  exact memo_skipSpec p m n usizeMod rfl hn (by omega) (by omega)

/-- All cases occur: two bytes of three are read, then a window is opened that ends before the cursor. -/
example : ∃ s, (ByteParser.ops .release).exec [.consume 2, .setFit (usizeMod - 1)] (ByteParser.fromBuffer [1, 2, 3]) = some s ∧
    (ByteParser.ops .release).trace [.skip 1] s = [.panic] ∧
    (ByteParser.ops .release).trace [.skip (usizeMod - 1), .offset] s = [.ok (.nat (usizeMod - 1)), .ok (.nat 1)] ∧
    (ByteParser.ops .release).trace [.skip (usizeMod - 2), .offset] s = [.ok (.nat (usizeMod - 2)), .ok (.nat 0)] ∧
    (ByteParser.ops .release).trace [.skip 2] (ByteParser.fromBuffer [1]) = [.ok (.nat 1)] :=
  ⟨⟨[1, 2, 3], ⟨3, [1], 2⟩⟩, by run_wide, by run_wide, by run_wide, by run_wide, by run_wide⟩

end Verif.Props
