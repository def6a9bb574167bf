import Verif.Props.Short
import Verif.Refine.Sinks
/-
C19: what `ByteParser` and `MemoParser` do when a length prefix announces too much, to the letter, wherever that happens.
-/
namespace Verif.Props
open Codec

variable {α : Type}

theorem rep_total {buf : Bytes} {s : ByteParser} {c : Cursor} (h : ByteRep buf s c) :
    c.pos + c.top.length + c.outer.flatten.length = buf.length := by
  obtain ⟨_, hi, rfl⟩ := h
  have h1 := hi.unread
  have h2 := hi.cur_le_limit
  have h3 := hi.limit_le
  have h4 := hi.abs_eq
  show s.off.cur + _ + _ = _
  omega

/-- What is said about a window of `n` bytes at offset `q` of an input of `len` bytes where only `room` bytes can be read. -/
def TooLong (p : Profile) (len q room n : Nat) {σ : Type} (o : Out σ ParseError α) : Prop :=
  if len < q + n then
    if p = .debug ∧ len < n then o = .panic
    else ∃ s, o = .err (.window (.openWouldExceedBuffer ((len + usizeMod - n) % usizeMod) n)) s
  else ∃ s, o = .err (.window (.openWouldExceedWindow (q + room) (q + n))) s

theorem dynamic_tooLong (c : Codec α) (cfg : Cfg) {S : LenPref} {p v : Bytes} {vs : List Bytes} {n : Nat} (hp : Announces S p n)
    (hn : v.length < n) {buf : Bytes} (hb : buf.length ≤ isizeMax) {pos : Nat} {σ : Type} (P : ParserOps σ) {pan : Prop}
    {Rep : σ → Cursor → Prop} (L : Lawful P pan fun v vs s => ∃ pos, Rep s ⟨pos, v, vs⟩)
    (ht : ∀ s c, Rep s c → c.pos + c.top.length + c.outer.flatten.length = buf.length)
    (hg : ∀ s c, Rep s c → ¬ c.Overflows (.setFit n) →
      Gives Rep (P.run (.setFit n) s) (c.step (.setFit n)).2 (c.answer cfg.prof buf.length (.setFit n)))
    (s : σ) (hs : Rep s ⟨pos, p ++ v, vs⟩) :
    TooLong cfg.prof buf.length (pos + p.length) v.length n ((dynamic cfg S c).parse P s) := by
  have hn64 : n ≤ isizeMax + 1 := Nat.le_trans hp.2.2 S.maxLen_le
  have hmod : usizeMod = isizeMax + 1 + isizeMax + 1 := by rw [usizeMod_eq]; omega
  have h1 := Refines.lenPref (pan' := False) L S (p ++ v) vs s ⟨pos, hs⟩
  rw [lenPref_run hp] at h1
  obtain ⟨s1, h1, pos', hr⟩ := h1
  have e1 := ht _ _ hs
  have e2 := ht _ _ hr
  simp only [List.length_append] at e1 e2
  have hpos : pos' = pos + p.length := by omega
  subst hpos
  have hno : ¬ (⟨pos + p.length, v, vs⟩ : Cursor).Overflows (.setFit n) := by
    simp only [Cursor.Overflows, Op.arg]
    omega
  have hg := hg s1 _ hr hno
  simp only [Cursor.answer, if_neg hno, if_neg (Nat.not_le.mpr hn)] at hg
  unfold TooLong
  split
  · rename_i hl
    rw [if_pos hl] at hg
    split
    · rename_i h
      rw [if_pos h] at hg
      simp only [dynamic, M.bind_run, h1, Out.bind_ok, run_panic_of_map hg]
      rfl
    · rename_i h
      rw [if_neg h] at hg
      obtain ⟨s', hs', _⟩ := hg
      exact ⟨s', by simp only [dynamic, M.bind_run, h1, Out.bind_ok, run_err_of_map hs']; rfl⟩
  · rename_i hl
    rw [if_neg hl] at hg
    obtain ⟨s', hs', _⟩ := hg
    exact ⟨s', by simp only [dynamic, M.bind_run, h1, Out.bind_ok, run_err_of_map hs']; rfl⟩

/-- C19 to the letter, wherever it happens: after any calls the parser stands at a prefix that announces `n` bytes, with fewer in
the window.  If the announced end is beyond the whole input, the parser panics in debug builds when `n` exceeds the length of the
whole input, and otherwise reports `OpenWouldExceedBuffer` with the length of the input less `n`, as a `usize`, in place of the
number of bytes left; if the end is beyond the window only, it reports the ends of both. -/
theorem C19_too_long_any (c : Codec α) (cfg : Cfg) {S : LenPref} {p v : Bytes} {vs : List Bytes} {n pos : Nat} (hp : Announces S p n)
    (hn : v.length < n) (buf : Bytes) (hb : buf.length ≤ isizeMax) (k : Backend) (hk : k ≠ .slice) (ops : List Op)
    (ha : cfg.prof = .debug ∨ Cursor.Fits ops (Cursor.start buf)) (s : k.State)
    (hs : (k.ops cfg.prof).exec ops (k.init buf) = some s) (hc : Cursor.exec ops (Cursor.start buf) = ⟨pos, p ++ v, vs⟩) :
    TooLong cfg.prof buf.length (pos + p.length) v.length n ((dynamic cfg S c).parse (k.ops cfg.prof) s) := by
  match k, hk with
  | .byte, _ =>
    have h := byte_exec hb ha hs
    rw [hc] at h
    exact dynamic_tooLong c cfg hp hn hb _ (byteLawful cfg.prof buf) (fun _ _ h => rep_total h)
      (fun _ _ h ho => byte_gives cfg.prof h _ (.inr ho)) s h
  | .memo, _ =>
    have h := memo_exec hb ha hs
    rw [hc] at h
    exact dynamic_tooLong c cfg hp hn hb _ (memoLawful cfg.prof buf) (fun _ _ h => rep_total h.toByte)
      (fun _ _ h ho => memo_gives cfg.prof h _ (.inr ho)) s h

/-- C20 to the letter likewise, in release builds, when a `MemoParser` has fewer than `n` bytes left in its window (after any
calls none of which has wrapped).  The size of the payload wraps.  If the window ends at position `n` of the input or
later, a window is opened that ends before the cursor, `n` bytes before the old one, and the payload is decoded in that;
a `Bytes` payload then is undefined behaviour.  Otherwise an error is reported. -/
theorem C20_short_release_memo (c : Codec α) (cfg : Cfg) (hr : cfg.prof = .release) (buf : Bytes)
    (hb : buf.length ≤ isizeMax) (ops : List Op) (ha : Cursor.Fits ops (Cursor.start buf)) (s : MemoParser)
    (hs : (MemoParser.ops .release).exec ops (MemoParser.fromBuffer buf) = some s) (n : Nat) (hn : n < usizeMod)
    (hshort : s.viewLen < s.offset + n) :
    (n ≤ s.viewLen → ∃ s', s'.offset = s.offset ∧ s'.viewLen + n = s.viewLen ∧ s'.viewLen < s'.offset ∧
      (vpadded cfg n c).parse (MemoParser.ops .release) s =
        (do let a ← c.parse (MemoParser.ops .release); (MemoParser.ops .release).enforceTarget; pure a) s' ∧
      (vpadded cfg n Codec.bytes).parse (MemoParser.ops .release) s = .ub) ∧
    (s.viewLen < n → (vpadded cfg n c).parse (MemoParser.ops .release) s =
      .err (.window
        (if buf.length < s.viewLen + usizeMod - n then
          .openWouldExceedBuffer ((buf.length + usizeMod - (s.viewLen - s.offset + usizeMod - n)) % usizeMod)
            (s.viewLen - s.offset + usizeMod - n)
        else .openWouldExceedWindow s.viewLen (s.viewLen + usizeMod - n))) s) := by
  have hrep := (memo_exec hb (.inr ha) hs).toByte
  obtain ⟨hbuf, hi, _⟩ := hrep
  change OffInv buf s.off at hi
  have h1 := hi.cur_le_limit
  have h2 := hi.limit_le
  have h3 := hi.small
  have h4 := hi.abs_eq
  have h5 : s.viewLen = s.off.limit := rfl
  have h6 : s.offset = s.off.cur := rfl
  have hmod : usizeMod = 2 * (isizeMax + 1) := usizeMod_eq
  have hn' : n < usizeMod := hn
  obtain ⟨k, hk⟩ : ∃ k, k = s.viewLen - s.offset + usizeMod - n := ⟨_, rfl⟩
  have hk' : k < usizeMod := by omega
  have hrem : (MemoParser.ops .release).remainder s = .ok (s.viewLen - s.offset) s := by
    simp only [MemoParser.ops, MemoParser.remainder, usub_of_le (p := .release) (show s.offset ≤ s.viewLen from h1)]
  have hsub : usub .release (s.viewLen - s.offset) n = some k := by
    rw [usub_wrap (by omega), if_neg (by simp), ← hk, Nat.mod_eq_of_lt hk']
  have hparse : ∀ {β : Type} (c : Codec β), (vpadded cfg n c).parse (MemoParser.ops .release) s =
      (do (MemoParser.ops .release).setFit k; let a ← c.parse (MemoParser.ops .release)
          (MemoParser.ops .release).enforceTarget; pure a) s := by
    intro β c
    simp only [vpadded, hr]
    rw [M.bind_run, hrem, Out.bind_ok, if_neg (by simp), hsub]
  constructor
  · intro hle
    obtain ⟨t, ht1, ht2, hset⟩ := setFit_overflow_release hi hk' (by omega)
    have hset' : (MemoParser.ops .release).setFit k s =
        .ok () { s with off := { s.off with frames := t :: s.off.frames } } := by
      simp only [MemoParser.ops, MemoParser.liftOff, hset]
    have hv : ({ s with off := { s.off with frames := t :: s.off.frames } } : MemoParser).viewLen = t := rfl
    have ho : ({ s with off := { s.off with frames := t :: s.off.frames } } : MemoParser).offset = s.off.cur := rfl
    refine ⟨{ s with off := { s.off with frames := t :: s.off.frames } }, rfl, ?_, ?_, ?_, ?_⟩
    · rw [hv]; omega
    · rw [hv, ho]; omega
    · rw [hparse, M.bind_run, hset', Out.bind_ok]
    · rw [hparse, M.bind_run, hset', Out.bind_ok, M.bind_run]
      obtain ⟨m, hm⟩ : ∃ m, m = t + usizeMod - s.off.cur := ⟨_, rfl⟩
      have hrem2 : usub .release t s.off.cur = some m := by
        rw [usub_wrap (by omega), if_neg (by simp), ← hm, Nat.mod_eq_of_lt (by omega)]
      have hu : uadd .release s.off.cur m = some t := by
        have : s.off.cur + m - usizeMod = t := by omega
        rw [uadd_wrap (by omega) (by omega) (by omega), this]
      have hc : Codec.bytes.parse (MemoParser.ops .release)
          { s with off := { s.off with frames := t :: s.off.frames } } = .ub := by
        simp only [Codec.bytes, M.bind_run, MemoParser.ops, MemoParser.remainder, hv, ho, hrem2, Out.bind_ok,
          ParserOps.takeDynamic, MemoParser.consume, ContextOffset.advance, hu, ContextOffset.limit, List.head?_cons,
          Option.getD_some, Nat.le_refl, if_true, VecBuffer.getSliceUnchecked]
        rw [if_neg (by omega)]
      rw [hc]
      rfl
  · intro hlt
    have hset := setFit_short hi .release (n := k) (by omega) (by rw [hi.length_top]; omega)
    rw [← hk, hparse, M.bind_run]
    have hpos : s.off.cur + k = s.viewLen + usizeMod - n := by omega
    have hans : openAnswer .release buf.length s.off.cur s.off.limit k = some (.window
        (if buf.length < s.viewLen + usizeMod - n then
          .openWouldExceedBuffer ((buf.length + usizeMod - k) % usizeMod) k
        else .openWouldExceedWindow s.viewLen (s.viewLen + usizeMod - n))) := by
      simp only [openAnswer, hpos, h5]
      split
      · rw [if_neg (by simp)]
      · rfl
    rw [hans] at hset
    have hset' : (MemoParser.ops .release).setFit k s = .err (.window
        (if buf.length < s.viewLen + usizeMod - n then
          .openWouldExceedBuffer ((buf.length + usizeMod - k) % usizeMod) k
        else .openWouldExceedWindow s.viewLen (s.viewLen + usizeMod - n))) s := by
      simp only [MemoParser.ops, MemoParser.liftOff, hset]
    rw [hset']
    rfl

/-! ### examples -/

/-- After one byte, in a window of three: the prefix announces four bytes, two can be read there, three are in the input. -/
example : let buf : Bytes := [9, 4, 1, 2, 3]
    let ops : List Op := [.consumeByte, .setFit 3]
    Cursor.exec ops (Cursor.start buf) = ⟨1, [4] ++ [1, 2], [[3]]⟩ ∧ Announces .u8 [4] 4 ∧
    (∃ s, ((Backend.byte.ops .release).exec ops (Backend.byte.init buf)) = some s) := by
  refine ⟨by decide, ?_, ⟨_, rfl⟩⟩
  exact ⟨rfl, rfl, by decide⟩

example {σ : Type} (o : Out σ ParseError Bytes) (h : TooLong .release 5 2 2 3 o) :
    ∃ s, o = .err (.window (.openWouldExceedWindow 4 5)) s := by simpa [TooLong] using h

/-- Four of six bytes read, four more to be left over: a window opens that ends at the second byte. -/
example : ∃ s, (MemoParser.ops .release).exec [.consume 4] (MemoParser.fromBuffer [1, 2, 3, 4, 5, 6]) = some s ∧
    Cursor.Fits [.consume 4] (Cursor.start [1, 2, 3, 4, 5, 6]) ∧ s.viewLen < s.offset + 4 ∧ 4 ≤ s.viewLen := by
  have := usizeMod_ge
  refine ⟨⟨[1, 2, 3, 4, 5, 6], ⟨6, [], 4⟩, [4]⟩, ?_, ?_, ?_, ?_⟩
  · run_wide []
  · simp [Cursor.Fits, Cursor.Overflows, Cursor.start, Op.arg]; omega
  all_goals decide

end Verif.Props
