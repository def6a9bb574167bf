import Verif.Props.Dynamic
import Verif.Props.Parsers
/-
C19, C20: what `ByteParser` and `MemoParser` do when a length prefix announces too much, and when a `VPadded` has too
little room, to the letter.
-/
namespace Verif.Props
open Codec

variable {α : Type}

theorem rep_at {buf : Bytes} {s : ByteParser} {pos : Nat} {v : Bytes} (h : ByteRep buf s ⟨pos, v, []⟩) :
    pos + v.length = buf.length := by
  obtain ⟨rfl, hi, hc⟩ := h
  have hl := hi.length_top
  have h1 := hi.cur_le_limit
  have hf : s.off.frames = [] := by
    have : segOuter s.buffer s.off.frames = [] := congrArg Cursor.outer hc
    cases hfr : s.off.frames with
    | nil => rfl
    | cons f fs => rw [hfr] at this; cases this
  have hlim := hi.limit_eq
  rw [hf] at hlim
  rw [hc] at hl
  have hp : s.off.cur = pos := congrArg Cursor.pos hc
  simp only [List.head?_nil, Option.getD_none] at hlim
  simp only at hl
  omega

/-- C19 to the letter, for decoding `p ++ v` from its start: the prefix `p` announces `n` bytes and there are fewer.  The
parser panics in debug builds if `n` exceeds the length of the whole input, prefix included; otherwise it reports
`OpenWouldExceedBuffer`, with the length of the whole input less `n`, as a `usize`, in place of the number of bytes left. -/
theorem C19_too_long_exact (c : Codec α) (cfg : Cfg) {S : LenPref} {p v : Bytes} {n : Nat} (hp : Announces S p n)
    (hn : v.length < n) (hb : (p ++ v).length ≤ isizeMax) (k : Backend) (hk : k ≠ .slice) :
    (cfg.prof = .debug ∧ (p ++ v).length < n →
      (dynamic cfg S c).parse (k.ops cfg.prof) (k.init (p ++ v)) = .panic) ∧
    (¬ (cfg.prof = .debug ∧ (p ++ v).length < n) →
      ∃ s, (dynamic cfg S c).parse (k.ops cfg.prof) (k.init (p ++ v)) =
        .err (.window (.openWouldExceedBuffer (((p ++ v).length + usizeMod - n) % usizeMod) n)) s) := by
  have hn64 : n ≤ isizeMax + 1 := Nat.le_trans hp.2.2 S.maxLen_le
  have hmod : usizeMod = isizeMax + 1 + isizeMax + 1 := by rw [usizeMod_eq]; omega
  have hbuf : (p ++ v).length < isizeMax + 1 := by omega
  -- what `set_fit` does once the prefix has been read
  have key : ∀ {σ : Type} (P : ParserOps σ) (s1 : σ) (A : σ → Cursor → Prop) (pos : Nat),
      pos + v.length = (p ++ v).length →
      Gives A (P.run (.setFit n) s1) ((⟨pos, v, []⟩ : Cursor).step (.setFit n)).2
        ((⟨pos, v, []⟩ : Cursor).answer cfg.prof (p ++ v).length (.setFit n)) →
      (cfg.prof = .debug ∧ (p ++ v).length < n → P.setFit n s1 = .panic) ∧
      (¬ (cfg.prof = .debug ∧ (p ++ v).length < n) → ∃ s, P.setFit n s1 =
        .err (.window (.openWouldExceedBuffer (((p ++ v).length + usizeMod - n) % usizeMod) n)) s) := by
    intro σ P s1 A pos hpos hg
    have hno : ¬ (⟨pos, v, []⟩ : Cursor).Overflows (.setFit n) := by
      simp only [Cursor.Overflows, Op.arg]
      omega
    simp only [Cursor.answer, if_neg hno, if_neg (Nat.not_le.mpr hn)] at hg
    rw [if_pos (by omega)] at hg
    constructor
    · intro h
      rw [if_pos h] at hg
      exact run_panic_of_map hg
    · intro h
      rw [if_neg h] at hg
      obtain ⟨s, hs, _⟩ := hg
      exact ⟨s, run_err_of_map hs⟩
  have fin : ∀ {σ : Type} (P : ParserOps σ) (s s1 : σ), S.parse P s = .ok n s1 →
      ((cfg.prof = .debug ∧ (p ++ v).length < n → P.setFit n s1 = .panic) ∧
      (¬ (cfg.prof = .debug ∧ (p ++ v).length < n) → ∃ s, P.setFit n s1 =
        .err (.window (.openWouldExceedBuffer (((p ++ v).length + usizeMod - n) % usizeMod) n)) s)) →
      (cfg.prof = .debug ∧ (p ++ v).length < n → (dynamic cfg S c).parse P s = .panic) ∧
      (¬ (cfg.prof = .debug ∧ (p ++ v).length < n) → ∃ s', (dynamic cfg S c).parse P s =
        .err (.window (.openWouldExceedBuffer (((p ++ v).length + usizeMod - n) % usizeMod) n)) s') := by
    rintro σ P s s1 h1 ⟨h2, h3⟩
    constructor
    · intro h
      simp only [dynamic, M.bind_run, h1, Out.bind_ok, h2 h]
      rfl
    · intro h
      obtain ⟨s', h'⟩ := h3 h
      exact ⟨s', by simp only [dynamic, M.bind_run, h1, Out.bind_ok, h']; rfl⟩
  match k, hk with
  | .byte, _ =>
    have h1 := Refines.lenPref (pan' := False) (byteLawful cfg.prof (p ++ v)) S (p ++ v) [] _
      ⟨0, ByteRep.start hb⟩
    rw [lenPref_run hp] at h1
    obtain ⟨s1, h1, pos, hr⟩ := h1
    exact fin _ _ _ h1 (key _ s1 _ pos (rep_at hr) (byte_gives cfg.prof hr (.setFit n) (.inr (by
      have := rep_at hr
      simp only [Cursor.Overflows, Op.arg]
      omega))))
  | .memo, _ =>
    have h1 := Refines.lenPref (pan' := False) (memoLawful cfg.prof (p ++ v)) S (p ++ v) [] _
      ⟨0, MemoRep.start hb⟩
    rw [lenPref_run hp] at h1
    obtain ⟨s1, h1, pos, hr⟩ := h1
    exact fin _ _ _ h1 (key _ s1 _ pos (rep_at hr.toByte) (memo_gives cfg.prof hr (.setFit n) (.inr (by
      have := rep_at hr.toByte
      simp only [Cursor.Overflows, Op.arg]
      omega))))

/-- C20 to the letter, in release builds, when a `ByteParser` has fewer than `n` bytes left in its window (after any
calls none of which has wrapped).  The size of the payload wraps.  If the window ends at position `n` of the input or
later, a window is opened that ends before the cursor, `n` bytes before the old one, and the payload is decoded in that;
a `Bytes` payload then is undefined behaviour.  Otherwise an error is reported. -/
theorem C20_short_release_exact (c : Codec α) (cfg : Cfg) (hr : cfg.prof = .release) (buf : Bytes)
    (hb : buf.length ≤ isizeMax) (ops : List Op) (ha : Cursor.Fits ops (Cursor.start buf)) (s : ByteParser)
    (hs : (ByteParser.ops .release).exec ops (ByteParser.fromBuffer buf) = some s) (n : Nat) (hn : n < usizeMod)
    (hshort : s.viewLen < s.offset + n) :
    (n ≤ s.viewLen → ∃ s', s'.offset = s.offset ∧ s'.viewLen + n = s.viewLen ∧ s'.viewLen < s'.offset ∧
      (vpadded cfg n c).parse (ByteParser.ops .release) s =
        (do let a ← c.parse (ByteParser.ops .release); (ByteParser.ops .release).enforceTarget; pure a) s' ∧
      (vpadded cfg n Codec.bytes).parse (ByteParser.ops .release) s = .ub) ∧
    (s.viewLen < n → (vpadded cfg n c).parse (ByteParser.ops .release) s =
      .err (.window
        (if buf.length < s.viewLen + usizeMod - n then
          .openWouldExceedBuffer ((buf.length + usizeMod - (s.viewLen - s.offset + usizeMod - n)) % usizeMod)
            (s.viewLen - s.offset + usizeMod - n)
        else .openWouldExceedWindow s.viewLen (s.viewLen + usizeMod - n))) s) := by
  have hrep := byte_exec hb (.inr ha) hs
  obtain ⟨hbuf, hi, _⟩ := hrep
  have h1 := hi.cur_le_limit
  have h2 := hi.limit_le
  have h3 := hi.small
  have h4 := hi.abs_eq
  have h5 : s.viewLen = s.off.limit := rfl
  have h6 : s.offset = s.off.cur := rfl
  have hmod : usizeMod = 2 * (isizeMax + 1) := usizeMod_eq
  have hn' : n < usizeMod := hn
  obtain ⟨k, hk⟩ : ∃ k, k = s.viewLen - s.offset + usizeMod - n := ⟨_, rfl⟩
  have hk' : k < usizeMod := by omega
  have hrem : (ByteParser.ops .release).remainder s = .ok (s.viewLen - s.offset) s := by
    simp only [ByteParser.ops, ByteParser.remainder, usub_of_le (p := .release) (show s.offset ≤ s.viewLen from h1)]
  have hsub : usub .release (s.viewLen - s.offset) n = some k := by
    rw [usub_wrap (by omega), if_neg (by simp), ← hk, Nat.mod_eq_of_lt hk']
  have hparse : ∀ {β : Type} (c : Codec β), (vpadded cfg n c).parse (ByteParser.ops .release) s =
      (do (ByteParser.ops .release).setFit k; let a ← c.parse (ByteParser.ops .release)
          (ByteParser.ops .release).enforceTarget; pure a) s := by
    intro β c
    simp only [vpadded, hr]
    rw [M.bind_run, hrem, Out.bind_ok, if_neg (by simp), hsub]
  constructor
  · intro hle
    obtain ⟨t, ht1, ht2, hset⟩ := setFit_overflow_release hi hk' (by omega)
    have hset' : (ByteParser.ops .release).setFit k s =
        .ok () { s with off := { s.off with frames := t :: s.off.frames } } := by
      simp only [ByteParser.ops, ByteParser.liftOff, hset]
    have hv : ({ s with off := { s.off with frames := t :: s.off.frames } } : ByteParser).viewLen = t := rfl
    have ho : ({ s with off := { s.off with frames := t :: s.off.frames } } : ByteParser).offset = s.off.cur := rfl
    refine ⟨{ s with off := { s.off with frames := t :: s.off.frames } }, rfl, ?_, ?_, ?_, ?_⟩
    · rw [hv]; omega
    · rw [hv, ho]; omega
    · rw [hparse, M.bind_run, hset', Out.bind_ok]
    · rw [hparse, M.bind_run, hset', Out.bind_ok, M.bind_run]
      obtain ⟨m, hm⟩ : ∃ m, m = t + usizeMod - s.off.cur := ⟨_, rfl⟩
      have hrem2 : usub .release t s.off.cur = some m := by
        rw [usub_wrap (by omega), if_neg (by simp), ← hm, Nat.mod_eq_of_lt (by omega)]
      have hu : uadd .release s.off.cur m = some t := by
        have : s.off.cur + m - usizeMod = t := by omega
        rw [uadd_wrap (by omega) (by omega) (by omega), this]
      have hc : Codec.bytes.parse (ByteParser.ops .release)
          { s with off := { s.off with frames := t :: s.off.frames } } = .ub := by
        simp only [Codec.bytes, M.bind_run, ByteParser.ops, ByteParser.remainder, hv, ho, hrem2, Out.bind_ok,
          ParserOps.takeDynamic, ByteParser.consume, ContextOffset.advance, hu, ContextOffset.limit, List.head?_cons,
          Option.getD_some, Nat.le_refl, if_true, VecBuffer.getSliceUnchecked]
        rw [if_neg (by omega)]
      rw [hc]
      rfl
  · intro hlt
    have hset := setFit_short hi .release (n := k) (by omega) (by rw [hi.length_top]; omega)
    rw [← hk, hparse, M.bind_run]
    have hpos : s.off.cur + k = s.viewLen + usizeMod - n := by omega
    have hans : openAnswer .release buf.length s.off.cur s.off.limit k = some (.window
        (if buf.length < s.viewLen + usizeMod - n then
          .openWouldExceedBuffer ((buf.length + usizeMod - k) % usizeMod) k
        else .openWouldExceedWindow s.viewLen (s.viewLen + usizeMod - n))) := by
      simp only [openAnswer, hpos, h5]
      split
      · rw [if_neg (by simp)]
      · rfl
    rw [hans] at hset
    have hset' : (ByteParser.ops .release).setFit k s = .err (.window
        (if buf.length < s.viewLen + usizeMod - n then
          .openWouldExceedBuffer ((buf.length + usizeMod - k) % usizeMod) k
        else .openWouldExceedWindow s.viewLen (s.viewLen + usizeMod - n))) s := by
      simp only [ByteParser.ops, ByteParser.liftOff, hset]
    rw [hset']
    rfl

/-- C21 to the letter: the payload has been decoded and left `ByteParser` or `MemoParser` (after any calls none of which
has wrapped) in the state `s'` with fewer than `n` bytes in its window.  The error has the usual numbers as long as the
position `n` bytes on is a `usize`; beyond that debug builds panic and release builds read out of bounds. -/
theorem C21_short_exact (c : Codec α) (cfg : Cfg) (a : α) (buf : Bytes) (hb : buf.length ≤ isizeMax) (ops : List Op)
    (ha : Cursor.Fits ops (Cursor.start buf)) (n : Nat) (hn : n < usizeMod) :
    (∀ s s' : ByteParser, c.parse (ByteParser.ops cfg.prof) s = .ok a s' →
      (ByteParser.ops cfg.prof).exec ops (ByteParser.fromBuffer buf) = some s' → s'.viewLen < s'.offset + n →
      (s'.offset + n < usizeMod → ∃ s'', (padded cfg n c).parse (ByteParser.ops cfg.prof) s =
        .err (.window (.consumeWouldExceedLimit s'.offset n s'.viewLen)) s'') ∧
      (usizeMod ≤ s'.offset + n → (padded cfg n c).parse (ByteParser.ops cfg.prof) s =
        match cfg.prof with | .debug => .panic | .release => .ub)) ∧
    (∀ s s' : MemoParser, c.parse (MemoParser.ops cfg.prof) s = .ok a s' →
      (MemoParser.ops cfg.prof).exec ops (MemoParser.fromBuffer buf) = some s' → s'.viewLen < s'.offset + n →
      (s'.offset + n < usizeMod → ∃ s'', (padded cfg n c).parse (MemoParser.ops cfg.prof) s =
        .err (.window (.consumeWouldExceedLimit s'.offset n s'.viewLen)) s'') ∧
      (usizeMod ≤ s'.offset + n → (padded cfg n c).parse (MemoParser.ops cfg.prof) s =
        match cfg.prof with | .debug => .panic | .release => .ub)) := by
  have hn' : n < usizeMod := hn
  have key : ∀ {σ : Type} (P : ParserOps σ) (A : σ → Cursor → Prop) (s s' : σ) (cu : Cursor) (vl : Nat),
      c.parse P s = .ok a s' → vl = cu.pos + cu.top.length → vl < cu.pos + n →
      (cfg.prof = .debug ∨ ¬ cu.Overflows (.consume n) →
        Gives A (P.run (.consume n) s') (cu.step (.consume n)).2 (cu.answer cfg.prof buf.length (.consume n))) →
      (cfg.prof = .release → cu.Overflows (.consume n) → P.consume n s' = .ub) →
      (cu.pos + n < usizeMod → ∃ s'', (padded cfg n c).parse P s =
        .err (.window (.consumeWouldExceedLimit cu.pos n vl)) s'') ∧
      (usizeMod ≤ cu.pos + n → (padded cfg n c).parse P s = match cfg.prof with | .debug => .panic | .release => .ub) := by
    intro σ P A s s' cu vl h hvl hs hg hu
    constructor
    · intro hlt
      have hno : ¬ cu.Overflows (.consume n) := by simp only [Cursor.Overflows, Op.arg]; omega
      have hg := hg (.inr hno)
      simp only [Cursor.answer, if_neg hno, Cursor.step, if_neg (show ¬ n ≤ cu.top.length by omega),
        Cursor.shortErr, ← hvl, Gives] at hg
      obtain ⟨t, ht, _⟩ := hg
      have ht := run_err_of_map ht
      exact ⟨t, by simp only [padded, M.bind_run, h, ht, Out.bind]⟩
    · intro hge
      have ho : cu.Overflows (.consume n) := hge
      cases hp : cfg.prof with
      | debug =>
        have hg := hg (.inl hp)
        simp only [Cursor.answer, if_pos ho, Gives] at hg
        have ht := run_panic_of_map hg
        simp only [padded, M.bind_run, h, ht, Out.bind]
      | release => simp only [padded, M.bind_run, h, hu hp ho, Out.bind]
  constructor
  · intro s s' h he hs
    have hrep := byte_exec hb (.inr ha) he
    have hpos : (Cursor.exec ops (Cursor.start buf)).pos = s'.offset := (congrArg Cursor.pos hrep.2.2).symm
    have hl := hrep.2.1.length_top
    have hle := hrep.2.1.cur_le_limit
    rw [hrep.2.2] at hl
    have h5 : s'.viewLen = s'.off.limit := rfl
    have h6 : s'.offset = s'.off.cur := rfl
    rw [← hpos]
    exact key (ByteParser.ops cfg.prof) (ByteRep buf) s s' (Cursor.exec ops (Cursor.start buf)) s'.viewLen h
      (by omega) (by omega) (fun ho => byte_gives cfg.prof hrep _ ho)
      (fun hp ho => by rw [hp]; exact byte_consume_overflow hrep hn' ho)
  · intro s s' h he hs
    have hrep := memo_exec hb (.inr ha) he
    have hb' := hrep.toByte
    have hpos : (Cursor.exec ops (Cursor.start buf)).pos = s'.offset := (congrArg Cursor.pos hb'.2.2).symm
    have hl := hb'.2.1.length_top
    have hle := hb'.2.1.cur_le_limit
    rw [hb'.2.2] at hl
    have h5 : s'.viewLen = s'.toByte.off.limit := rfl
    have h6 : s'.offset = s'.toByte.off.cur := rfl
    rw [← hpos]
    exact key (MemoParser.ops cfg.prof) (MemoRep buf) s s' (Cursor.exec ops (Cursor.start buf)) s'.viewLen h
      (by omega) (by omega) (fun ho => memo_gives cfg.prof hrep _ ho)
      (fun hp ho => by rw [hp]; exact memo_consume_overflow hrep hn' ho)

/-- C21 fails for such sizes: the payload of a `Padded<u8, { usize::MAX }>` is decoded from one byte, and then the
padding is not refused. -/
theorem C21_huge_fails (a b d : Bool) :
    (padded ⟨.debug, a, b, d⟩ (usizeMod - 1) (Codec.int .u8)).parse (ByteParser.ops .debug) (ByteParser.fromBuffer [7])
      = .panic ∧
    (padded ⟨.release, a, b, d⟩ (usizeMod - 1) (Codec.int .u8)).parse (ByteParser.ops .release) (ByteParser.fromBuffer [7])
      = .ub := by
  have hg := usizeMod_ge
  constructor
  · have h := (C21_short_exact (Codec.int .u8) ⟨.debug, a, b, d⟩ (7 : BitVec 8) [7] (by decide +kernel) [.consume 1]
      ⟨by simp only [Cursor.Overflows, Op.arg, Cursor.start]; decide +kernel, trivial⟩ (usizeMod - 1) (by omega)).1
      (ByteParser.fromBuffer [7]) ⟨[7], ⟨1, [], 1⟩⟩ rfl (by dsimp only; decide +kernel)
      (show 1 < 1 + (usizeMod - 1) by omega)
    exact h.2 (show usizeMod ≤ 1 + (usizeMod - 1) by omega)
  · have h := (C21_short_exact (Codec.int .u8) ⟨.release, a, b, d⟩ (7 : BitVec 8) [7] (by decide +kernel) [.consume 1]
      ⟨by simp only [Cursor.Overflows, Op.arg, Cursor.start]; decide +kernel, trivial⟩ (usizeMod - 1) (by omega)).1
      (ByteParser.fromBuffer [7]) ⟨[7], ⟨1, [], 1⟩⟩ rfl (by dsimp only; decide +kernel)
      (show 1 < 1 + (usizeMod - 1) by omega)
    exact h.2 (show usizeMod ≤ 1 + (usizeMod - 1) by omega)

/-- The hypotheses of `C19_too_long_exact` and `C20_short_release_exact` are met. -/
example : Announces .u8 [5] 5 ∧ ([1, 2] : Bytes).length < 5 ∧ (([5] ++ [1, 2] : Bytes)).length ≤ isizeMax ∧
    (([5] ++ [1, 2] : Bytes)).length < 5 :=
  ⟨⟨rfl, rfl, by decide⟩, by decide, by decide +kernel, by decide⟩

example : ∃ s, (ByteParser.ops .release).exec [.consume 4] (ByteParser.fromBuffer [1, 2, 3, 4, 5, 6]) = some s ∧
    Cursor.Fits [.consume 4] (Cursor.start [1, 2, 3, 4, 5, 6]) ∧ s.viewLen < s.offset + 4 ∧ 4 ≤ s.viewLen :=
  ⟨⟨[1, 2, 3, 4, 5, 6], ⟨6, [], 4⟩⟩, by decide +kernel,
    ⟨by simp only [Cursor.Overflows, Op.arg, Cursor.start]; decide +kernel, trivial⟩, by decide +kernel, by decide +kernel⟩

end Verif.Props
