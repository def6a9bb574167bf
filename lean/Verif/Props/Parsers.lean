import Verif.Lemmas.Width
import Verif.Refine.Exact
/-
C01 – C07: the parsers as windowed cursors.
-/
namespace Verif.Props
open Verif

/-! ### C01 -/

/-- C01 to the letter, for every input, every list of operations and all arguments: the answers of a fresh
`ByteParser` begin with `Cursor.answers` – those of the abstract windowed cursor, with the numbers reported for
a window that does not fit and with the panics of debug builds (`C01_answers_are_the_cursors`).  Nothing
follows unless a sum left `usize` in a release build. -/
theorem C01_byteparser_exact (p : Profile) (buf : Bytes) (hb : buf.length ≤ isizeMax) (ops : List Op) :
    ∃ rest, (ByteParser.ops p).trace ops (ByteParser.fromBuffer buf) =
        Cursor.answers p buf.length ops (Cursor.start buf) ++ rest ∧
      (p = .debug ∨ Cursor.Fits ops (Cursor.start buf) → rest = []) :=
  trace_of_gives (fun op h ho => byte_gives p h op ho) ops (ByteRep.start hb)

/-- C01 (partial).  Every list of operations on a fresh `ByteParser` has the results of the abstract windowed
cursor (errors compared up to the numbers reported for a window that does not fit).
Missing: arguments above `isize::MAX + 1` and, in debug builds, windows larger than the whole buffer.  There the listed
property fails, see `C01_debug_oversized_window_panics` and `C04_release_wrapping_window_rewinds`; what happens
instead is in `C01_byteparser_exact`. -/
theorem C01_byteparser_is_windowed_cursor_partial (p : Profile) (buf : Bytes) (hb : buf.length ≤ isizeMax)
    (ops : List Op) (harg : ∀ op ∈ ops, op.arg ≤ isizeMax + 1)
    (hfit : p = .debug → ∀ n, Op.setFit n ∈ ops → n ≤ buf.length) :
    ((ByteParser.ops p).trace ops (ByteParser.fromBuffer buf)).map (Res.mapErr ParseError.eraseOpen) =
      Cursor.trace ops (Cursor.start buf) := by
  have key := trace_of_step (P := ByteParser.ops p) (A := ByteRep buf) (norm := ParseError.eraseOpen)
    (okOp := fun _ op => op ∈ ops) ?_ ops (ByteRep.start hb) ?_
  · rw [key]
    clear key harg hfit
    generalize Cursor.start buf = c
    induction ops generalizing c with
    | nil => rfl
    | cons op ops ih =>
      simp only [Cursor.trace]
      cases hc : c.step op with
      | mk r c' =>
        cases r with
        | ok o => simp only [List.map_cons, ih]; rfl
        | error e =>
          simp only [List.map_cons, ih, Res.mapErr]
          have : e.eraseOpen = e := by
            cases op <;> simp only [Cursor.step] at hc <;> (repeat' split at hc) <;>
              simp only [Prod.mk.injEq, Except.error.injEq, reduceCtorEq, false_and] at hc <;>
              (obtain ⟨rfl, _⟩ := hc; rfl)
          rw [this]
  · intro s c op h hmem
    refine (byte_step p h op (.inr (harg op hmem))).imp_pan ?_
    intro hp
    obtain ⟨hd, n, rfl⟩ := Op.mayPanic_setFit (harg op hmem) hp
    have := hfit hd n hmem
    simp only [Op.mayPanic] at hp
    omega
  · intro pre op post h
    rw [h]; simp

theorem C01_cursor_at (buf : Bytes) (ops : List Op) : ∀ (c : Cursor), c.At buf → (Cursor.exec ops c).At buf := by
  induction ops with
  | nil => exact fun c h => h
  | cons op ops ih =>
    intro c h
    apply ih
    obtain ⟨pos, top, outer⟩ := c
    obtain ⟨h1, h2⟩ := h
    simp only [Cursor.unread] at h1 h2
    have hlen : top.length + outer.flatten.length = buf.length - pos := by
      rw [← List.length_drop, ← h2, List.length_append]
    have hadv : ∀ n, n ≤ top.length →
        pos + n ≤ buf.length ∧ top.drop n ++ outer.flatten = buf.drop (pos + n) := by
      intro n hn
      refine ⟨by omega, ?_⟩
      rw [← List.drop_drop, ← h2, List.drop_append_of_le_length hn]
    cases op with
    | viewLen => exact ⟨h1, h2⟩
    | offset => exact ⟨h1, h2⟩
    | remainder => exact ⟨h1, h2⟩
    | testTarget => exact ⟨h1, h2⟩
    | consumeByte =>
      simp only [Cursor.step]
      cases htop : top with
      | nil => subst htop; exact ⟨h1, h2⟩
      | cons b t =>
        subst htop
        simpa [Cursor.At, Cursor.adv, Cursor.unread] using hadv 1 (by simp)
    | consume n =>
      simp only [Cursor.step]
      split
      · exact hadv n (by assumption)
      · exact ⟨h1, h2⟩
    | skipExactly n =>
      simp only [Cursor.step]
      split
      · exact hadv n (by assumption)
      · exact ⟨h1, h2⟩
    | skip n => exact hadv _ (Nat.min_le_left _ _)
    | setFit n =>
      simp only [Cursor.step]
      split
      · refine ⟨h1, ?_⟩
        simp only [Cursor.unread, List.flatten_cons]
        rw [← List.append_assoc, List.take_append_drop, h2]
      · exact ⟨h1, h2⟩
    | enforceTarget =>
      simp only [Cursor.step]
      cases outer with
      | nil => exact ⟨h1, h2⟩
      | cons v vs =>
        simp only
        split <;>
        · refine ⟨h1, ?_⟩
          simp only [Cursor.unread]
          rw [List.append_assoc, ← List.flatten_cons, h2]

/-- The abstract cursor stands at `pos` in the input whatever was done before: what is unread is the
input from `pos` on, hence bytes come out in input order, each at most once. -/
theorem C01_cursor_reads_input_in_order (buf : Bytes) (ops : List Op) :
    (Cursor.exec ops (Cursor.start buf)).At buf :=
  C01_cursor_at buf ops _ ⟨Nat.zero_le _, by simp [Cursor.unread, Cursor.start]⟩

theorem bound_of_at {buf : Bytes} (hb : buf.length ≤ isizeMax) {c : Cursor} (h : c.At buf) :
    c.pos + c.top.length ≤ buf.length ∧ c.pos + c.top.length < usizeMod := by
  obtain ⟨h1, h2⟩ := h
  have h3 : c.top.length + c.outer.flatten.length = buf.length - c.pos := by
    rw [← List.length_drop, ← h2, Cursor.unread, List.length_append]
  have := isizeMax_lt
  omega

theorem at_step {buf : Bytes} {c : Cursor} (h : c.At buf) (op : Op) : (c.step op).2.At buf :=
  C01_cursor_at buf [op] c h

/-- What `Cursor.answers` says: as long as it does not say "panic" it is what the abstract cursor answers, and
where it says "panic" the abstract cursor answers with an error. -/
theorem C01_answers_are_the_cursors (p : Profile) (buf : Bytes) (hb : buf.length ≤ isizeMax) (ops : List Op)
    (i : Nat) (r : Res) (h : (Cursor.answers p buf.length ops (Cursor.start buf))[i]? = some r) :
    (r ≠ .panic → (Cursor.trace ops (Cursor.start buf))[i]? = some (r.mapErr ParseError.eraseOpen)) ∧
    (r = .panic → ∃ e, (Cursor.trace ops (Cursor.start buf))[i]? = some (.err e)) := by
  suffices key : ∀ (ops : List Op) (i : Nat) (c : Cursor), c.At buf →
      (Cursor.answers p buf.length ops c)[i]? = some r →
      (r ≠ .panic → (Cursor.trace ops c)[i]? = some (r.mapErr ParseError.eraseOpen)) ∧
      (r = .panic → ∃ e, (Cursor.trace ops c)[i]? = some (.err e)) from
    key ops i _ (C01_cursor_reads_input_in_order buf []) h
  clear h ops i
  intro ops
  induction ops with
  | nil => intro i c _ h; simp [Cursor.answers] at h
  | cons op ops ih =>
    intro i c hc h
    have hstep := Cursor.answer_step p buf.length (bound_of_at hb hc).2 op
    have hc' := at_step hc op
    simp only [Cursor.answers] at h
    split at h
    · simp at h
    · simp only [Cursor.trace]
      revert h hstep hc'
      cases c.step op with
      | mk q c' =>
        cases c.answer p buf.length op with
        | ok o =>
          rintro ⟨rfl⟩ hc' h
          cases i with
          | zero => simp at h; subst h; simp [Res.mapErr]
          | succ i => simpa using ih i c' hc' (by simpa using h)
        | err e =>
          rintro ⟨rfl⟩ hc' h
          cases i with
          | zero => simp at h; subst h; simp [Res.mapErr]
          | succ i => simpa using ih i c' hc' (by simpa using h)
        | panic =>
          rintro ⟨⟨e, rfl⟩, _⟩ hc' h
          cases i with
          | zero => simp at h; subst h; simp
          | succ i => simp at h
        | ub => exact fun h => h.elim
        | diverge => exact fun h => h.elim

/-- The list of answers is as long as the list of operations, unless it ends with a panic (debug) or an operation
overflows (release). -/
theorem C01_answers_length (p : Profile) (len : Nat) (ops : List Op) (c : Cursor) :
    (Cursor.answers p len ops c).length = ops.length ∨
    (p = .debug ∧ (Cursor.answers p len ops c).getLast? = some .panic) ∨ (p = .release ∧ ¬ Cursor.Fits ops c) := by
  induction ops generalizing c with
  | nil => exact .inl rfl
  | cons op ops ih =>
    simp only [Cursor.answers]
    by_cases ho : p = .release ∧ c.Overflows op
    · exact .inr (.inr ⟨ho.1, fun h => h.1 ho.2⟩)
    · rw [if_neg ho]
      have hpan : c.answer p len op = .panic → p = .debug := by
        intro h
        cases p with
        | debug => rfl
        | release =>
          have ho' : ¬ c.Overflows op := fun h => ho ⟨rfl, h⟩
          simp only [Cursor.answer, if_neg ho'] at h
          revert h
          (repeat' split) <;> simp_all
      have hnot : c.answer p len op ≠ .ub ∧ c.answer p len op ≠ .diverge := by
        constructor <;>
        · simp only [Cursor.answer]
          (repeat' split) <;> simp_all
      have hcons : ∀ (r : Res) (l : List Res), l.getLast? = some .panic → (r :: l).getLast? = some .panic := by
        intro r l h
        cases l with
        | nil => simp at h
        | cons a l => rw [List.getLast?_cons_cons]; exact h
      revert hpan hnot
      cases c.answer p len op with
      | ok o =>
        intro _ _
        rcases ih (c.step op).2 with h | ⟨h1, h2⟩ | ⟨h1, h2⟩
        · exact .inl (by simp [h])
        · exact .inr (.inl ⟨h1, hcons _ _ h2⟩)
        · exact .inr (.inr ⟨h1, fun h => h2 h.2⟩)
      | err e =>
        intro _ _
        rcases ih (c.step op).2 with h | ⟨h1, h2⟩ | ⟨h1, h2⟩
        · exact .inl (by simp [h])
        · exact .inr (.inl ⟨h1, hcons _ _ h2⟩)
        · exact .inr (.inr ⟨h1, fun h => h2 h.2⟩)
      | panic => intro hp _; exact .inr (.inl ⟨hp rfl, rfl⟩)
      | ub => intro _ h; exact absurd rfl h.1
      | diverge => intro _ h; exact absurd rfl h.2

theorem release_no_panic {len : Nat} : ∀ (ops : List Op) (c : Cursor), Res.panic ∉ Cursor.answers .release len ops c
  | [], _ => by simp [Cursor.answers]
  | op :: ops, c => by
    have ih := release_no_panic (len := len) ops (c.step op).2
    simp only [Cursor.answers]
    by_cases ho : c.Overflows op
    · simp [ho]
    · have : c.answer .release len op ≠ .panic := by
        simp only [Cursor.answer, if_neg ho]
        (repeat' split) <;> simp_all
      revert this
      simp only [ho, and_false, if_false]
      cases c.answer .release len op <;> simp_all

/-- When a debug build panics: the end of the request is not a `usize`, or a window is opened that is larger than
the whole buffer. -/
theorem C01_debug_panics (buf : Bytes) (hb : buf.length ≤ isizeMax) (ops : List Op) (s : ByteParser)
    (hs : (ByteParser.ops .debug).exec ops (ByteParser.fromBuffer buf) = some s) (op : Op) :
    (ByteParser.ops .debug).run op s = .panic ↔
      usizeMod ≤ (ByteParser.ops .debug).offset s + op.arg ∨ ∃ n, op = .setFit n ∧ buf.length < n := by
  have hrep := byte_exec hb (.inl rfl) hs
  have hat := C01_cursor_reads_input_in_order buf ops
  generalize Cursor.exec ops (Cursor.start buf) = c at hrep hat
  have hpos : (ByteParser.ops .debug).offset s = c.pos := by rw [← hrep.2.2]; rfl
  rw [hpos]
  have hg := byte_gives .debug hrep op (.inl rfl)
  have ha := Cursor.answer_step .debug buf.length hrep.bound op
  have hbound := (bound_of_at hb hat).1
  constructor
  · intro h
    rw [h] at hg
    revert hg ha
    cases c.answer .debug buf.length op with
    | ok o => rintro ⟨_, h, _⟩; cases h
    | err e => rintro ⟨_, h, _⟩; cases h
    | panic => rintro _ ⟨_, _, h | ⟨_, h⟩⟩; exact .inl h; exact .inr h
    | ub => exact fun _ h => h.elim
    | diverge => exact fun _ h => h.elim
  · intro h
    have hans : c.answer .debug buf.length op = .panic := by
      by_cases ho : c.Overflows op
      · simp only [Cursor.answer, if_pos ho]
      · rcases h with h | ⟨n, rfl, hn⟩
        · exact absurd h ho
        · simp only [Cursor.answer, if_neg ho]
          rw [if_neg (by omega), if_pos (by omega), if_pos ⟨trivial, hn⟩]
    rw [hans] at hg
    exact hg

/-- Requests up to `isize::MAX + 1` – more than any buffer holds – never overflow. -/
theorem C01_fits {buf : Bytes} (hb : buf.length ≤ isizeMax) {ops : List Op} (harg : ∀ op ∈ ops, op.arg ≤ isizeMax + 1) :
    Cursor.Fits ops (Cursor.start buf) := by
  suffices key : ∀ c : Cursor, c.At buf → Cursor.Fits ops c from
    key _ (C01_cursor_reads_input_in_order buf [])
  induction ops with
  | nil => exact fun _ _ => trivial
  | cons op ops ih =>
    intro c hc
    refine ⟨?_, ih (fun o h => harg o (by simp [h])) _ (at_step hc op)⟩
    have h1 := harg op (by simp)
    have h2 := hc.1
    have h3 : isizeMax + isizeMax + 1 < usizeMod := by rw [usizeMod_eq]; omega
    show ¬ usizeMod ≤ c.pos + op.arg
    omega

/-- Non-vacuity of C01: windows, a failed read, a failed close and reads after them. -/
example : ((ByteParser.ops .debug).trace
      [.setFit 3, .consume 2, .consume 2, .enforceTarget, .remainder, .setFit 4, .consumeByte, .offset]
      (ByteParser.fromBuffer [1, 2, 3, 4, 5])).map (Res.mapErr ParseError.eraseOpen) =
    [.ok .unit, .ok (.bytes [1, 2]), .err (.window (.consumeWouldExceedLimit 2 2 3)),
      .err (.window (.closeWithResidue 1)), .ok (.nat 3), .err Cursor.openErr, .ok (.byte 3),
      .ok (.nat 3)] := by decide

/-- Non-vacuity of `C01_byteparser_exact`: numbers reported for windows that do not fit, and a final panic. -/
example : (ByteParser.ops .debug).trace
      [.setFit 3, .consume 2, .setFit 2, .setFit 4, .consume (usizeMod - 3), .consume (usizeMod - 1), .remainder]
      (ByteParser.fromBuffer [1, 2, 3, 4, 5]) =
    [.ok .unit, .ok (.bytes [1, 2]), .err (.window (.openWouldExceedWindow 3 4)),
      .err (.window (.openWouldExceedBuffer 1 4)),
      .err (.window (.consumeWouldExceedLimit 2 (usizeMod - 3) 3)), .panic] := by run_wide

/-- The property as listed fails in debug builds: an oversized window is a panic, not an error
(`bytes_left: self.abs - winsize` underflows, src/internal/offset.rs:296-300). -/
theorem C01_debug_oversized_window_panics :
    (ByteParser.ops .debug).trace [.setFit 1] (ByteParser.fromBuffer []) = [.panic] := by decide

/-- … and in release builds the reported number of bytes left is wrong. -/
theorem C01_release_oversized_window_misreports :
    (ByteParser.ops .release).trace [.setFit 1] (ByteParser.fromBuffer []) =
      [.err (.window (.openWouldExceedBuffer (usizeMod - 1) 1))] := by run_wide

/-! ### C02 -/

/-- C02.  `MemoParser` and `ByteParser` are observationally equal, for all inputs, all lists of operations and all
arguments: the results, errors included, are identical, or identical up to an error or panic of `ByteParser` in place
of which `MemoParser` dies printing its log. -/
theorem C02_memoparser_eq_byteparser (p : Profile) (buf : Bytes) (ops : List Op) :
    (MemoParser.ops p).trace ops (MemoParser.fromBuffer buf) =
      (ByteParser.ops p).trace ops (ByteParser.fromBuffer buf) ∨
    ∃ pre q rest r, (ByteParser.ops p).trace ops (ByteParser.fromBuffer buf) = pre ++ q :: rest ∧
      (MemoParser.ops p).trace ops (MemoParser.fromBuffer buf) = pre ++ [r] ∧
      ((∃ e, q = .err e) ∧ (r = .panic ∨ r = .ub) ∨ q = .panic ∧ r = .ub) := by
  suffices h : ∀ (m : MemoParser), (MemoParser.ops p).trace ops m = (ByteParser.ops p).trace ops m.toByte ∨
      ∃ pre q rest r, (ByteParser.ops p).trace ops m.toByte = pre ++ q :: rest ∧
        (MemoParser.ops p).trace ops m = pre ++ [r] ∧
        ((∃ e, q = .err e) ∧ (r = .panic ∨ r = .ub) ∨ q = .panic ∧ r = .ub) from h _
  induction ops with
  | nil => exact fun _ => .inl rfl
  | cons op ops ih =>
    intro m
    have ih' : ∀ (x : Res) (m' : MemoParser),
        x :: (MemoParser.ops p).trace ops m' = x :: (ByteParser.ops p).trace ops m'.toByte ∨
        ∃ pre q rest r, x :: (ByteParser.ops p).trace ops m'.toByte = pre ++ q :: rest ∧
          x :: (MemoParser.ops p).trace ops m' = pre ++ [r] ∧
          ((∃ e, q = .err e) ∧ (r = .panic ∨ r = .ub) ∨ q = .panic ∧ r = .ub) := by
      intro x m'
      rcases ih m' with h | ⟨pre, q, rest, r, h1, h2, h3⟩
      · exact .inl (by rw [h])
      · exact .inr ⟨x :: pre, q, rest, r, by rw [h1]; rfl, by rw [h2]; rfl, h3⟩
    simp only [ParserOps.trace]
    rcases memo_any p m op with h | ⟨⟨e, h1⟩, h2⟩ | ⟨h1, h2⟩
    · rw [← h]
      cases (MemoParser.ops p).run op m with
      | ok o m' => exact ih' _ m'
      | err e m' => exact ih' _ m'
      | panic => exact .inl rfl
      | ub => exact .inl rfl
      | diverge => exact .inl rfl
    · right
      rw [h1]
      rcases h2 with h2 | h2
      · exact ⟨[], .err e, _, .panic, rfl, by rw [h2]; rfl, .inl ⟨⟨e, rfl⟩, .inl rfl⟩⟩
      · exact ⟨[], .err e, _, .ub, rfl, by rw [h2]; rfl, .inl ⟨⟨e, rfl⟩, .inr rfl⟩⟩
    · right
      rw [h1, h2]
      exact ⟨[], .panic, _, .ub, rfl, rfl, .inr ⟨rfl, rfl⟩⟩

/-- The second case occurs, in release builds only (`C02_memoparser_same_trace`): after sizes that wrap around,
`skip` of a `ByteParser` panics where that of a `MemoParser` slices the buffer backwards to print its log. -/
example : (ByteParser.ops .release).trace [.consume 2, .setFit (usizeMod - 1), .skip (usizeMod - 1), .setFit (usizeMod - 1), .skip 5]
      (ByteParser.fromBuffer [7, 8]) = [.ok (.bytes [7, 8]), .ok .unit, .ok (.nat (usizeMod - 1)), .ok .unit, .panic] ∧
    (MemoParser.ops .release).trace [.consume 2, .setFit (usizeMod - 1), .skip (usizeMod - 1), .setFit (usizeMod - 1), .skip 5]
      (MemoParser.fromBuffer [7, 8]) = [.ok (.bytes [7, 8]), .ok .unit, .ok (.nat (usizeMod - 1)), .ok .unit, .ub] := by
  run_wide

/-- … and the log can always be printed unless a sum has left `usize` in a release build. -/
theorem C02_memoparser_same_trace (p : Profile) (buf : Bytes) (hb : buf.length ≤ isizeMax)
    (ops : List Op) (ha : p = .debug ∨ Cursor.Fits ops (Cursor.start buf)) :
    (MemoParser.ops p).trace ops (MemoParser.fromBuffer buf) =
      (ByteParser.ops p).trace ops (ByteParser.fromBuffer buf) := by
  obtain ⟨r1, h1, h1'⟩ := C01_byteparser_exact p buf hb ops
  obtain ⟨r2, h2, h2'⟩ := trace_of_gives (fun op h ho => memo_gives p h op ho) ops (MemoRep.start hb)
  rw [h1, h2, h1' ha, h2' ha]

/-- The exception is needed: two bytes are read, the cursor is made to wrap back to the start and they are read again,
so that the log holds three bytes where the input has two; the next error cannot be reported. -/
theorem C02_log_dies :
    (MemoParser.ops .release).trace [.consume 2, .skipExactly (usizeMod - 1), .consumeByte, .consumeByte]
      (MemoParser.fromBuffer [7, 8]) = [.ok (.bytes [7, 8]), .ok .unit, .ok (.byte 8), .panic] ∧
    (ByteParser.ops .release).trace [.consume 2, .skipExactly (usizeMod - 1), .consumeByte, .consumeByte]
      (ByteParser.fromBuffer [7, 8]) =
        [.ok (.bytes [7, 8]), .ok .unit, .ok (.byte 8), .err (.window (.consumeWouldExceedLimit 2 1 2))] := by
  run_wide

example : Cursor.Fits [.consume 1, .setFit 9, .skip 7, .consume (usizeMod - 5), .consumeByte] (Cursor.start [7, 8, 9]) := by
  have := usizeMod_ge
  simp [Cursor.Fits, Cursor.Overflows, Cursor.step, Cursor.start, Cursor.adv, Op.arg]
  rw [if_neg (by omega)]
  refine ⟨?_, ?_, ?_, ?_, ?_⟩ <;> (try simp only []) <;> omega

/-! ### C03 -/

/-- C03.  On well-bracketed use (`Cursor.WBs`) `SliceParser` has the results of the abstract cursor … -/
theorem C03_sliceparser_is_windowed_cursor (buf : Bytes) (ops : List Op) (hw : (Cursor.start buf).WBs ops) :
    (SliceParser.ops.trace ops (SliceParser.fromBuffer buf)).map (Res.mapErr ParseError.kind) =
      (Cursor.trace ops (Cursor.start buf)).map (Res.mapErr ParseError.kind) :=
  trace_of_step (okOp := fun c op => c.WB op) (fun op h ho => slice_step h op ho) ops (SliceRep.start buf) hw

/-- … and therefore those of `ByteParser`, up to position information in errors (partial: missing are arguments above
`isize::MAX + 1` and, in debug builds, windows larger than the buffer; see `C03_sliceparser_vs_byteparser`). -/
theorem C03_sliceparser_agrees_with_byteparser_partial (p : Profile) (buf : Bytes) (hb : buf.length ≤ isizeMax)
    (ops : List Op) (harg : ∀ op ∈ ops, op.arg ≤ isizeMax + 1)
    (hfit : p = .debug → ∀ n, Op.setFit n ∈ ops → n ≤ buf.length)
    (hw : (Cursor.start buf).WBs ops) :
    (SliceParser.ops.trace ops (SliceParser.fromBuffer buf)).map (Res.mapErr ParseError.kind) =
      ((ByteParser.ops p).trace ops (ByteParser.fromBuffer buf)).map (Res.mapErr ParseError.kind) := by
  rw [C03_sliceparser_is_windowed_cursor buf ops hw,
    ← C01_byteparser_is_windowed_cursor_partial p buf hb ops harg hfit, List.map_map]
  congr 1
  funext r
  cases r <;> simp [Res.mapErr, kind_eraseOpen]

/-- C03 for all arguments: after well-bracketed use the two give the same answers, up to position information in
errors, except that `ByteParser` may panic (debug) where `SliceParser` reports an error.  In release builds this
holds until a sum leaves `usize`. -/
theorem C03_sliceparser_vs_byteparser (p : Profile) (buf : Bytes) (hb : buf.length ≤ isizeMax)
    (ops : List Op) (ha : p = .debug ∨ Cursor.Fits ops (Cursor.start buf)) (hw : (Cursor.start buf).WBs ops)
    (i : Nat) (r : Res) (hr : ((ByteParser.ops p).trace ops (ByteParser.fromBuffer buf))[i]? = some r) :
    ∃ r', (SliceParser.ops.trace ops (SliceParser.fromBuffer buf))[i]? = some r' ∧
      (r ≠ .panic → r'.mapErr ParseError.kind = r.mapErr ParseError.kind) ∧
      (r = .panic → p = .debug ∧ ∃ e, r' = .err e) := by
  obtain ⟨rest, h1, h2⟩ := C01_byteparser_exact p buf hb ops
  rw [h1, h2 ha, List.append_nil] at hr
  obtain ⟨h3, h4⟩ := C01_answers_are_the_cursors p buf hb ops i r hr
  have hs := congrArg (fun l : List Res => l[i]?) (C03_sliceparser_is_windowed_cursor buf ops hw)
  simp only [List.getElem?_map] at hs
  by_cases hp : r = .panic
  · obtain ⟨e, he⟩ := h4 hp
    rw [he] at hs
    cases ht : (SliceParser.ops.trace ops (SliceParser.fromBuffer buf))[i]? with
    | none => rw [ht] at hs; simp at hs
    | some r' =>
      rw [ht] at hs
      refine ⟨r', rfl, fun h => absurd hp h, fun _ => ⟨?_, ?_⟩⟩
      · rcases ha with ha | ha
        · exact ha
        · cases p with
          | debug => rfl
          | release =>
            subst hp
            exact absurd (List.mem_of_getElem? hr) (release_no_panic ops _)
      · cases r' <;> simp [Res.mapErr] at hs
        exact ⟨_, rfl⟩
  · rw [h3 hp] at hs
    cases ht : (SliceParser.ops.trace ops (SliceParser.fromBuffer buf))[i]? with
    | none => rw [ht] at hs; simp at hs
    | some r' =>
      rw [ht] at hs
      refine ⟨r', rfl, fun _ => ?_, fun h => absurd h hp⟩
      simp only [Option.map_some, Option.some.injEq] at hs
      rw [hs]
      cases r <;> simp [Res.mapErr, kind_eraseOpen]

/-- Decidable form of `Cursor.WBs`, for examples. -/
def wbCheck (c : Cursor) : List Op → Bool
  | [] => true
  | op :: ops =>
    (match op with
      | .viewLen | .offset => false
      | .testTarget => !c.outer.isEmpty
      | .enforceTarget => !c.outer.isEmpty && c.top.isEmpty
      | _ => true) && wbCheck (c.step op).2 ops

theorem wbs_of_wbCheck {c : Cursor} {ops : List Op} (h : wbCheck c ops = true) : c.WBs ops := by
  induction ops generalizing c with
  | nil => intro pre op post he; simp at he
  | cons o ops ih =>
    simp only [wbCheck, Bool.and_eq_true] at h
    intro pre op post he
    cases pre with
    | nil =>
      simp only [List.nil_append, List.cons.injEq] at he
      obtain ⟨rfl, _⟩ := he
      have h1 := h.1
      cases o <;> simp_all [Cursor.WB, Cursor.exec]
    | cons q pre =>
      simp only [List.cons_append, List.cons.injEq] at he
      obtain ⟨rfl, rfl⟩ := he
      exact ih h.2 pre op post rfl

example : (Cursor.start [1, 2, 3, 4]).WBs
    [.setFit 3, .setFit 1, .consumeByte, .enforceTarget, .consume 5, .consume 2, .testTarget, .enforceTarget,
      .remainder] := wbs_of_wbCheck (by decide)

/-- Outside of well-bracketed use the two differ: `SliceParser` lets the root scope be closed … -/
theorem C03_slice_closes_root :
    SliceParser.ops.trace [.enforceTarget] (SliceParser.fromBuffer []) = [.ok .unit] ∧
    (ByteParser.ops .release).trace [.enforceTarget] (ByteParser.fromBuffer []) =
      [.err (.window .closeWithoutWindow)] := by decide

/-- … loses the unread bytes of a window that is closed too early … -/
theorem C03_slice_loses_residue :
    SliceParser.ops.trace [.setFit 1, .enforceTarget, .remainder] (SliceParser.fromBuffer [7]) =
      [.ok .unit, .err (.window (.closeWithResidue 1)), .ok (.nat 0)] ∧
    (ByteParser.ops .release).trace [.setFit 1, .enforceTarget, .remainder] (ByteParser.fromBuffer [7]) =
      [.ok .unit, .err (.window (.closeWithResidue 1)), .ok (.nat 1)] := by decide

/-- … and reports an exhausted root scope as a satisfied target. -/
theorem C03_slice_test_target_on_root :
    SliceParser.ops.trace [.testTarget] (SliceParser.fromBuffer []) = [.ok (.bool true)] ∧
    (ByteParser.ops .release).trace [.testTarget] (ByteParser.fromBuffer []) = [.ok (.bool false)] := by
  decide

/-- What every call of a `SliceParser` answers once its outermost scope is closed. -/
def closedAnswer : Op → Res
  | .viewLen | .offset | .remainder => .ok (.nat 0)
  | .consumeByte => .err (.window (.consumeWouldExceedLimit 0 1 0))
  | .consume n => .err (.window (.consumeWouldExceedLimit 0 n 0))
  | .setFit 0 => .ok .unit
  | .setFit n => .err (.window (.openWouldExceedBuffer 0 n))
  | .testTarget => .ok (.bool false)
  | .enforceTarget => .err (.window .closeWithoutWindow)
  | .skip _ => .ok (.nat 0)
  | .skipExactly n => .err (.window (.consumeWouldExceedLimit 0 n 0))

/-- Once the outermost scope is closed, whether or not everything had been read, a `SliceParser` stays closed: it gives no
bytes any more, opens no windows, and answers every call alike. -/
theorem C03_slice_closed (v : Bytes) (ops : List Op) :
    SliceParser.ops.trace (.enforceTarget :: ops) ⟨[v]⟩ =
      (if v = [] then .ok .unit else .err (.window (.closeWithResidue v.length))) :: ops.map closedAnswer := by
  have key : ∀ ops, SliceParser.ops.trace ops ⟨[]⟩ = ops.map closedAnswer := by
    intro ops
    induction ops with
    | nil => rfl
    | cons op ops ih =>
      have step : ∀ (r : Out SliceParser ParseError Obs) (a : Res), SliceParser.ops.run op ⟨[]⟩ = r →
          (r = .ok (match a with | .ok o => o | _ => .unit) ⟨[]⟩ ∧ (∃ o, a = .ok o) ∨
            ∃ e, r = .err e ⟨[]⟩ ∧ a = .err e) →
          SliceParser.ops.trace (op :: ops) ⟨[]⟩ = a :: ops.map closedAnswer := by
        intro r a hr h
        unfold ParserOps.trace
        rw [hr]
        rcases h with ⟨h, o, rfl⟩ | ⟨e, h, rfl⟩
        · rw [h]; exact congrArg _ ih
        · rw [h]; exact congrArg _ ih
      cases op with
      | setFit n =>
        cases n with
        | zero => exact step _ _ rfl (.inl ⟨rfl, _, rfl⟩)
        | succ n => exact step _ _ rfl (.inr ⟨_, rfl, rfl⟩)
      | viewLen => exact step _ _ rfl (.inl ⟨rfl, _, rfl⟩)
      | offset => exact step _ _ rfl (.inl ⟨rfl, _, rfl⟩)
      | remainder => exact step _ _ rfl (.inl ⟨rfl, _, rfl⟩)
      | testTarget => exact step _ _ rfl (.inl ⟨rfl, _, rfl⟩)
      | skip => exact step _ _ rfl (.inl ⟨rfl, _, rfl⟩)
      | _ => exact step _ _ rfl (.inr ⟨_, rfl, rfl⟩)
  cases v with
  | nil => rw [if_pos rfl, ← key]; rfl
  | cons a v => rw [if_neg nofun, ← key]; rfl

example : SliceParser.ops.trace [.enforceTarget, .consumeByte, .setFit 2] (SliceParser.fromBuffer [7, 8]) =
    [.err (.window (.closeWithResidue 2)), .err (.window (.consumeWouldExceedLimit 0 1 0)),
      .err (.window (.openWouldExceedBuffer 0 2))] := rfl

/-! ### C04 -/

theorem trace_no_ub {σ : Type} {P : ParserOps σ} {I : σ → Prop} {adm : Op → Prop}
    (h : ∀ s op, I s → adm op → P.run op s ≠ .ub ∧ (P.run op s).AllS I) :
    ∀ (ops : List Op) (s : σ), I s → (∀ op ∈ ops, adm op) → Res.ub ∉ P.trace ops s
  | [], _, _, _ => by simp [ParserOps.trace]
  | op :: ops, s, hi, ha => by
    obtain ⟨h1, h2⟩ := h s op hi (ha op (by simp))
    have ih := fun s' hi' => trace_no_ub h ops s' hi' (fun o ho => ha o (by simp [ho]))
    simp only [ParserOps.trace]
    revert h1 h2
    cases P.run op s with
    | ok o s' => intro _ h2; simpa using ih s' h2
    | err e s' => intro _ h2; simpa using ih s' h2
    | panic => intro _ _; simp
    | ub => intro h1; exact absurd rfl h1
    | diverge => intro _ _; simp

theorem answers_no_ub {p : Profile} {buf : Bytes} (hb : buf.length ≤ isizeMax) (ops : List Op) :
    Res.ub ∉ Cursor.answers p buf.length ops (Cursor.start buf) := by
  intro h
  obtain ⟨i, hi⟩ := List.mem_iff_getElem?.mp h
  have := (C01_answers_are_the_cursors p buf hb ops i _ hi).1 nofun
  have hno : ∀ (ops : List Op) (c : Cursor), Res.ub ∉ Cursor.trace ops c := by
    intro ops
    induction ops with
    | nil => intro c; simp [Cursor.trace]
    | cons op ops ih =>
      intro c
      simp only [Cursor.trace]
      split <;> simp [ih]
  exact hno _ _ (List.mem_of_getElem? this)

/-- C04 (partial).  `ByteParser` never reads outside of its buffer, whatever the operations and their arguments.
Missing with respect to the listed property: release builds after a sum has left `usize`
(`C04_release_overflowing_request_is_ub`, `C04_release_wrapping_request_is_ub`). -/
theorem C04_byteparser_no_ub_partial (p : Profile) (buf : Bytes) (hb : buf.length ≤ isizeMax)
    (ops : List Op) (ha : p = .debug ∨ Cursor.Fits ops (Cursor.start buf)) :
    Res.ub ∉ (ByteParser.ops p).trace ops (ByteParser.fromBuffer buf) := by
  obtain ⟨rest, h1, h2⟩ := C01_byteparser_exact p buf hb ops
  rw [h1, h2 ha, List.append_nil]
  exact answers_no_ub hb ops

/-- Same for `MemoParser`. -/
theorem C04_memoparser_no_ub_partial (p : Profile) (buf : Bytes) (hb : buf.length ≤ isizeMax)
    (ops : List Op) (ha : p = .debug ∨ Cursor.Fits ops (Cursor.start buf)) :
    Res.ub ∉ (MemoParser.ops p).trace ops (MemoParser.fromBuffer buf) := by
  rw [C02_memoparser_same_trace p buf hb ops ha]
  exact C04_byteparser_no_ub_partial p buf hb ops ha

/-- The listed property fails in release builds for *every* read whose end is not a `usize`: the bounds check passes
and an inverted range is read.  (`Fits` is about the operations before it.) -/
theorem C04_release_overflowing_request_is_ub (buf : Bytes) (hb : buf.length ≤ isizeMax) (ops : List Op)
    (ha : Cursor.Fits ops (Cursor.start buf)) (n : Nat) (hn : n < usizeMod) :
    (∀ s, (ByteParser.ops .release).exec ops (ByteParser.fromBuffer buf) = some s →
      usizeMod ≤ (ByteParser.ops .release).offset s + n → (ByteParser.ops .release).consume n s = .ub) ∧
    (∀ s, (MemoParser.ops .release).exec ops (MemoParser.fromBuffer buf) = some s →
      usizeMod ≤ (MemoParser.ops .release).offset s + n → (MemoParser.ops .release).consume n s = .ub) := by
  constructor
  · intro s hs ho
    have hrep := byte_exec hb (.inr ha) hs
    refine byte_consume_overflow hrep hn ?_
    rw [← hrep.2.2]
    exact ho
  · intro s hs ho
    have hrep := memo_exec hb (.inr ha) hs
    refine memo_consume_overflow hrep hn ?_
    rw [← hrep.2]
    exact ho

/-- `SliceParser` never does, for any arguments and any order of operations. -/
theorem C04_sliceparser_no_ub (buf : Bytes) (ops : List Op) :
    Res.ub ∉ SliceParser.ops.trace ops (SliceParser.fromBuffer buf) := by
  refine trace_no_ub (I := fun _ => True) (adm := fun _ => True) ?_ ops _ trivial (fun _ _ => trivial)
  intro s op _ _
  refine ⟨?_, ?_⟩
  · obtain ⟨views⟩ := s
    cases op <;> cases views with
    | nil => simp [ParserOps.run, SliceParser.ops, SliceParser.remainder, SliceParser.consumeByte,
        SliceParser.consume, SliceParser.setFit, SliceParser.testTarget, SliceParser.enforceTarget,
        SliceParser.skip, SliceParser.skipExactly] <;> try (split <;> simp)
    | cons v vs =>
      simp only [ParserOps.run, SliceParser.ops, SliceParser.remainder, SliceParser.consumeByte,
        SliceParser.consume, SliceParser.setFit, SliceParser.testTarget, SliceParser.enforceTarget,
        SliceParser.skip, SliceParser.skipExactly, SliceParser.splitUnchecked, M.map_run]
      first
        | simp; done
        | (repeat' split) <;> simp_all <;> omega
  · cases SliceParser.ops.run op s <;> trivial

/-- The listed property fails in release builds for requests that overflow `usize`: after one byte, asking
for `usize::MAX` bytes passes the bounds check (`index + n` wraps to 0) and reads an inverted range. -/
theorem C04_release_wrapping_request_is_ub :
    (ByteParser.ops .release).trace [.consumeByte, .consume (usizeMod - 1)] (ByteParser.fromBuffer [0]) =
      [.ok (.byte 0), .ub] := by run_wide

/-- A window whose end wraps below the cursor is accepted as well, and the cursor then moves backwards. -/
theorem C04_release_wrapping_window_rewinds :
    (ByteParser.ops .release).trace [.consume 2, .setFit (usizeMod - 1), .skip (usizeMod - 1), .offset]
      (ByteParser.fromBuffer [0, 0]) =
    [.ok (.bytes [0, 0]), .ok .unit, .ok (.nat (usizeMod - 1)), .ok (.nat 1)] := by run_wide

example : ∃ s, (ByteParser.ops .release).exec [.consumeByte] (ByteParser.fromBuffer [0]) = some s ∧
    (ByteParser.ops .release).offset s + (usizeMod - 1) = usizeMod :=
  ⟨_, rfl, by have := usizeMod_ge; show 1 + (usizeMod - 1) = usizeMod; omega⟩

/-! ### C05 -/

/-- C05 for `ByteParser`: a failing read or window opening leaves the state as it was.  Holds in every
state, for every argument, in both build profiles. -/
theorem C05_byteparser_failed_op_keeps_state (p : Profile) (op : Op) (hop : op ≠ .enforceTarget)
    (s s' : ByteParser) (e : ParseError) (h : (ByteParser.ops p).run op s = .err e s') : s' = s := by
  have hadv : ∀ n ix b o, s.off.advance p n = some ((ix, b), o) → ¬ b = true → o = s.off := by
    intro n ix b o h hb
    simp only [ContextOffset.advance] at h
    repeat' split at h
    all_goals simp_all
  cases op with
  | enforceTarget => exact absurd rfl hop
  | viewLen => simp [ParserOps.run] at h
  | offset => simp [ParserOps.run] at h
  | remainder =>
    have h := run_err_of_map h
    simp only [ByteParser.ops, ByteParser.remainder] at h
    split at h <;> cases h
  | consumeByte =>
    have h := run_err_of_map h
    simp only [ByteParser.ops, ByteParser.consumeByte] at h
    repeat' split at h
    all_goals simp only [reduceCtorEq, Out.err.injEq] at h
    obtain ⟨_, rfl⟩ := h
    rename_i ha hb _
    rw [hadv _ _ _ _ ha hb]
  | consume n =>
    have h := run_err_of_map h
    simp only [ByteParser.ops, ByteParser.consume] at h
    repeat' split at h
    all_goals simp only [reduceCtorEq, Out.err.injEq] at h
    obtain ⟨_, rfl⟩ := h
    rename_i ha hb _
    rw [hadv _ _ _ _ ha hb]
  | skipExactly n =>
    have h := run_err_of_map h
    simp only [ByteParser.ops, ByteParser.skipExactly] at h
    repeat' split at h
    all_goals simp only [reduceCtorEq, Out.err.injEq] at h
    obtain ⟨_, rfl⟩ := h
    rename_i ha hb _
    rw [hadv _ _ _ _ ha hb]
  | skip n =>
    have h := run_err_of_map h
    simp only [ByteParser.ops, ByteParser.skip] at h
    repeat' split at h
    all_goals cases h
  | setFit n =>
    have h := run_err_of_map h
    have hs : ∀ e o, ContextOffset.setFit p n s.off = .err e o → o = s.off := by
      intro e o h
      simp only [ContextOffset.setFit, ContextOffset.pushFrame] at h
      repeat' split at h
      all_goals simp_all
    simp only [ByteParser.ops, ByteParser.liftOff] at h
    split at h
    all_goals simp only [reduceCtorEq, Out.err.injEq] at h
    rename_i heq
    obtain ⟨_, rfl⟩ := h
    rw [hs _ _ heq]
  | testTarget =>
    have h := run_err_of_map h
    have hs : ∀ e o, ContextOffset.testTarget s.off = .err e o → o = s.off := by
      intro e o h
      simp only [ContextOffset.testTarget] at h
      repeat' split at h
      all_goals simp_all
    simp only [ByteParser.ops, ByteParser.liftOff] at h
    split at h
    all_goals simp only [reduceCtorEq, Out.err.injEq] at h
    rename_i heq
    obtain ⟨_, rfl⟩ := h
    rw [hs _ _ heq]

/-- C05 for `MemoParser`: the munch log is not touched either. -/
theorem C05_memoparser_failed_op_keeps_state (p : Profile) (op : Op) (hop : op ≠ .enforceTarget)
    (s s' : MemoParser) (e : ParseError) (h : (MemoParser.ops p).run op s = .err e s') : s' = s := by
  have hadv : ∀ n ix b o, s.off.advance p n = some ((ix, b), o) → ¬ b = true → o = s.off := by
    intro n ix b o h hb
    simp only [ContextOffset.advance] at h
    repeat' split at h
    all_goals simp_all
  cases op with
  | enforceTarget => exact absurd rfl hop
  | viewLen => simp [ParserOps.run] at h
  | offset => simp [ParserOps.run] at h
  | remainder =>
    have h := run_err_of_map h
    simp only [MemoParser.ops, MemoParser.remainder] at h
    split at h <;> cases h
  | consumeByte =>
    have h := run_err_of_map h
    simp only [MemoParser.ops, MemoParser.consumeByte, MemoParser.failDump] at h
    repeat' split at h
    all_goals simp only [reduceCtorEq, Out.err.injEq] at h
    obtain ⟨_, rfl⟩ := h
    rename_i ha hb _ _ _ _
    rw [hadv _ _ _ _ ha hb]
  | consume n =>
    have h := run_err_of_map h
    simp only [MemoParser.ops, MemoParser.consume, MemoParser.failDump] at h
    repeat' split at h
    all_goals simp only [reduceCtorEq, Out.err.injEq] at h
    obtain ⟨_, rfl⟩ := h
    rename_i ha hb _ _ _ _
    rw [hadv _ _ _ _ ha hb]
  | skipExactly n =>
    have h := run_err_of_map h
    simp only [MemoParser.ops, MemoParser.skipExactly, MemoParser.failDump] at h
    repeat' split at h
    all_goals simp only [reduceCtorEq, Out.err.injEq] at h
    obtain ⟨_, rfl⟩ := h
    rename_i ha hb _ _ _ _
    rw [hadv _ _ _ _ ha hb]
  | skip n =>
    have h := run_err_of_map h
    simp only [MemoParser.ops, MemoParser.skip] at h
    repeat' split at h
    all_goals cases h
  | setFit n =>
    have h := run_err_of_map h
    have hs : ∀ e o, ContextOffset.setFit p n s.off = .err e o → o = s.off := by
      intro e o h
      simp only [ContextOffset.setFit, ContextOffset.pushFrame] at h
      repeat' split at h
      all_goals simp_all
    simp only [MemoParser.ops, MemoParser.liftOff] at h
    split at h
    all_goals simp only [reduceCtorEq, Out.err.injEq] at h
    rename_i heq
    obtain ⟨_, rfl⟩ := h
    rw [hs _ _ heq]
  | testTarget =>
    have h := run_err_of_map h
    have hs : ∀ e o, ContextOffset.testTarget s.off = .err e o → o = s.off := by
      intro e o h
      simp only [ContextOffset.testTarget] at h
      repeat' split at h
      all_goals simp_all
    simp only [MemoParser.ops, MemoParser.liftOff] at h
    split at h
    all_goals simp only [reduceCtorEq, Out.err.injEq] at h
    rename_i heq
    obtain ⟨_, rfl⟩ := h
    rw [hs _ _ heq]

/-- C05 for `SliceParser`. -/
theorem C05_sliceparser_failed_op_keeps_state (op : Op) (hop : op ≠ .enforceTarget)
    (s s' : SliceParser) (e : ParseError) (h : SliceParser.ops.run op s = .err e s') : s' = s := by
  cases op with
  | enforceTarget => exact absurd rfl hop
  | viewLen => simp [ParserOps.run] at h
  | offset => simp [ParserOps.run] at h
  | remainder => simp [ParserOps.run, SliceParser.ops, SliceParser.remainder] at h
  | consumeByte =>
    have h := run_err_of_map h
    simp only [SliceParser.ops, SliceParser.consumeByte] at h
    repeat' split at h
    all_goals cases h
    all_goals rfl
  | consume n =>
    have h := run_err_of_map h
    simp only [SliceParser.ops, SliceParser.consume] at h
    repeat' split at h
    all_goals cases h
    all_goals rfl
  | setFit n =>
    have h := run_err_of_map h
    simp only [SliceParser.ops, SliceParser.setFit] at h
    repeat' split at h
    all_goals cases h
    all_goals rfl
  | testTarget =>
    have h := run_err_of_map h
    simp only [SliceParser.ops, SliceParser.testTarget] at h
    repeat' split at h
    all_goals cases h
  | skip n =>
    have h := run_err_of_map h
    simp only [SliceParser.ops, SliceParser.skip] at h
    repeat' split at h
    all_goals cases h
  | skipExactly n =>
    have h := run_err_of_map h
    simp only [SliceParser.ops, SliceParser.skipExactly] at h
    repeat' split at h
    all_goals cases h
    all_goals rfl

/-- `consume_arr` (and `take_fixed`) fails only if the underlying read fails: the slice it gets always has the
requested length. -/
theorem consumeArr_of_len {σ : Type} {P : ParserOps σ} {s : σ}
    (hlen : ∀ n bs s', P.consume n s = .ok bs s' → bs.length = n) (n : Nat) :
    P.consumeArr n s = P.consume n s := by
  simp only [ParserOps.consumeArr, M.bind_run]
  cases h : P.consume n s with
  | ok bs s' => simp [hlen n bs s' h]
  | err e s' => rfl
  | panic => rfl
  | ub => rfl
  | diverge => rfl

theorem slice_len {p : Profile} {n : Nat} (hn : n < usizeMod) {buf : Bytes} {ix : Nat} {bs : Bytes}
    (h : VecBuffer.getSliceUnchecked p buf ix n = .val bs) : bs.length = n := by
  simp only [VecBuffer.getSliceUnchecked] at h
  split at h
  · cases h
  rename_i t ht
  split at h
  · rename_i hle
    have hte : t = ix + n := by
      simp only [uadd] at ht
      by_cases hlt : ix + n < usizeMod
      · rw [if_pos hlt] at ht
        exact (Option.some.inj ht).symm
      · rw [if_neg hlt] at ht
        cases p with
        | debug => cases ht
        | release =>
          have := Option.some.inj ht
          have hm := Nat.mod_lt (ix + n) (y := usizeMod) (by omega)
          have hl := Nat.mod_le (ix + n - usizeMod) usizeMod
          rw [← Nat.mod_eq_sub_mod (by omega)] at hl
          omega
    cases h
    simp only [List.length_take, List.length_drop]
    omega
  · cases h

theorem byte_consume_len (p : Profile) (s : ByteParser) (n : Nat) (bs : Bytes) (s' : ByteParser)
    (hn : n < usizeMod) (h : (ByteParser.ops p).consume n s = .ok bs s') : bs.length = n := by
  simp only [ByteParser.ops, ByteParser.consume] at h
  repeat' split at h
  all_goals first | cases h; done | skip
  simp only [Out.ok.injEq] at h
  obtain ⟨rfl, _⟩ := h
  exact slice_len hn ‹_›

theorem memo_consume_len (p : Profile) (s : MemoParser) (n : Nat) (bs : Bytes) (s' : MemoParser)
    (hn : n < usizeMod) (h : (MemoParser.ops p).consume n s = .ok bs s') : bs.length = n := by
  simp only [MemoParser.ops, MemoParser.consume, MemoParser.failDump] at h
  repeat' split at h
  all_goals first | cases h; done | skip
  simp only [Out.ok.injEq] at h
  obtain ⟨rfl, _⟩ := h
  exact slice_len hn ‹_›

theorem slice_consume_len (s : SliceParser) (n : Nat) (bs : Bytes) (s' : SliceParser)
    (h : SliceParser.ops.consume n s = .ok bs s') : bs.length = n := by
  simp only [SliceParser.ops, SliceParser.consume] at h
  repeat' split at h
  all_goals first | cases h; done | skip
  rename_i hle _ _ _ hs
  rw [SliceParser.splitUnchecked, if_pos hle] at hs
  cases hs
  simp only [Out.ok.injEq] at h
  obtain ⟨rfl, _⟩ := h
  simp only [List.length_take]
  omega

theorem arr_err {σ : Type} {P : ParserOps σ} {n : Nat} {s s' : σ} {e : ParseError}
    (hlen : ∀ bs s', P.consume n s = .ok bs s' → bs.length = n) (h : P.consumeArr n s = .err e s') :
    P.run (.consume n) s = .err e s' := by
  have hc : P.consumeArr n s = P.consume n s := by
    simp only [ParserOps.consumeArr, M.bind_run]
    cases h : P.consume n s with
    | ok bs s' => simp [hlen bs s' h]
    | err e s' => rfl
    | panic => rfl
    | ub => rfl
    | diverge => rfl
  rw [hc] at h
  simp [ParserOps.run, h]

/-- C05 for `consume_arr` (a `usize` argument). -/
theorem C05_byteparser_failed_consume_arr_keeps_state (p : Profile) (n : Nat) (hn : n < usizeMod)
    (s s' : ByteParser) (e : ParseError) (h : (ByteParser.ops p).consumeArr n s = .err e s') : s' = s :=
  C05_byteparser_failed_op_keeps_state p (.consume n) (by simp) s s' e
    (arr_err (fun bs s' => byte_consume_len p s n bs s' hn) h)

theorem C05_memoparser_failed_consume_arr_keeps_state (p : Profile) (n : Nat) (hn : n < usizeMod)
    (s s' : MemoParser) (e : ParseError) (h : (MemoParser.ops p).consumeArr n s = .err e s') : s' = s :=
  C05_memoparser_failed_op_keeps_state p (.consume n) (by simp) s s' e
    (arr_err (fun bs s' => memo_consume_len p s n bs s' hn) h)

theorem C05_sliceparser_failed_consume_arr_keeps_state (n : Nat)
    (s s' : SliceParser) (e : ParseError) (h : SliceParser.ops.consumeArr n s = .err e s') : s' = s :=
  C05_sliceparser_failed_op_keeps_state (.consume n) (by simp) s s' e (arr_err (slice_consume_len s n) h)

/-- Non-vacuity of C05: a failing read in the middle of a window. -/
example : ∃ e s, (ByteParser.ops .debug).exec [.setFit 2, .consumeByte] (ByteParser.fromBuffer [1, 2, 3]) = some s ∧
    (ByteParser.ops .debug).run (.consume 2) s = .err e s :=
  ⟨.window (.consumeWouldExceedLimit 1 2 2), { buffer := [1, 2, 3], off := { abs := 3, frames := [2], cur := 1 } },
    by decide, rfl⟩

/-! ### C06 -/

/-- C06 for `ByteParser` in every reachable state.  `Cursor.exec ops (Cursor.start buf)` is what the
specification says about the windows: `outer ≠ []` – a window is open, `top` – its unread bytes.
(Partial: in release builds no request may have wrapped; see `C06_byteparser_any`.) -/
theorem C06_byteparser_enforce_target_partial (p : Profile) (buf : Bytes) (hb : buf.length ≤ isizeMax)
    (ops : List Op) (ha : p = .debug ∨ Cursor.Fits ops (Cursor.start buf)) (s : ByteParser)
    (hs : (ByteParser.ops p).exec ops (ByteParser.fromBuffer buf) = some s) :
    let c := Cursor.exec ops (Cursor.start buf)
    (c.outer = [] → (ByteParser.ops p).enforceTarget s = .err (.window .closeWithoutWindow) s) ∧
    (c.outer ≠ [] → c.top = [] → ∃ s', (ByteParser.ops p).enforceTarget s = .ok () s') ∧
    (c.outer ≠ [] → c.top ≠ [] →
      ∃ s', (ByteParser.ops p).enforceTarget s = .err (.window (.closeWithResidue c.top.length)) s') ∧
    (∃ b, (ByteParser.ops p).testTarget s = .ok b s ∧
      (b = true ↔ ∃ s', (ByteParser.ops p).enforceTarget s = .ok () s')) := by
  intro c
  have hrep : ByteRep buf s c := byte_exec hb ha hs
  have h1 : c.outer = [] → (ByteParser.ops p).enforceTarget s = .err (.window .closeWithoutWindow) s := by
    intro ho
    obtain ⟨rfl, hi, hc⟩ := hrep
    have hf : s.off.frames = [] := by
      rw [← hc] at ho
      cases hf : s.off.frames with
      | nil => rfl
      | cons f fs => simp [absCursor, hf, segOuter] at ho
    simp only [ByteParser.ops, ByteParser.liftOff, ContextOffset.enforceTarget, hf]
  have h2 : c.outer ≠ [] → c.top = [] → ∃ s', (ByteParser.ops p).enforceTarget s = .ok () s' := by
    intro ho ht
    have := byte_step p hrep .enforceTarget (.inr (Nat.zero_le _))
    simp only [Cursor.step] at this
    cases hv : c.outer with
    | nil => exact absurd hv ho
    | cons v vs =>
      rw [hv] at this
      simp only [if_pos ht] at this
      obtain ⟨s', he, _⟩ := this
      obtain ⟨_, hx, _⟩ := run_ok_of_map he
      exact ⟨s', hx⟩
  have h3 : c.outer ≠ [] → c.top ≠ [] →
      ∃ s', (ByteParser.ops p).enforceTarget s = .err (.window (.closeWithResidue c.top.length)) s' := by
    intro ho ht
    cases hv : c.outer with
    | nil => exact absurd hv ho
    | cons v vs =>
      have hR : ByteR buf c.top (v :: vs) s := ⟨c.pos, by rw [← hv]; exact hrep⟩
      exact (byteLawful p buf).enforce_err hR ht
  refine ⟨h1, h2, h3, ?_⟩
  have := byte_step p hrep .testTarget (.inr (Nat.zero_le _))
  obtain ⟨s', he, _⟩ := this
  obtain ⟨b, hx, hf⟩ := run_ok_of_map he
  cases hf
  have hss : s' = s := by
    simp only [ByteParser.ops, ByteParser.liftOff, ContextOffset.testTarget] at hx
    obtain ⟨buffer, off⟩ := s
    simp only at hx
    revert hx
    cases off.frames with
    | nil => intro hx; exact ((Out.ok.injEq ..).mp hx).2.symm
    | cons f fs =>
      simp only
      by_cases e1 : f = off.index
      · simp only [if_pos e1]; intro hx; exact ((Out.ok.injEq ..).mp hx).2.symm
      · by_cases e2 : f > off.index
        · simp only [if_neg e1, if_pos e2]; intro hx; exact ((Out.ok.injEq ..).mp hx).2.symm
        · simp only [if_neg e1, if_neg e2]; intro hx; cases hx
  subst hss
  refine ⟨_, hx, ?_⟩
  by_cases ho : c.outer = []
  · simp [ho, h1 ho]
  · by_cases ht : c.top = []
    · simp only [ho, ht, List.isEmpty_nil, Bool.and_true, Bool.not_eq_true', List.isEmpty_eq_false_iff,
        ne_eq, not_false_eq_true, true_iff]
      exact h2 ho ht
    · obtain ⟨s', h3'⟩ := h3 ho ht
      simp [ht, h3']

/-- C06 for `MemoParser`.  (Partial as before; see `C06_memoparser_any`.) -/
theorem C06_memoparser_enforce_target_partial (p : Profile) (buf : Bytes) (hb : buf.length ≤ isizeMax)
    (ops : List Op) (ha : p = .debug ∨ Cursor.Fits ops (Cursor.start buf)) (s : MemoParser)
    (hs : (MemoParser.ops p).exec ops (MemoParser.fromBuffer buf) = some s) :
    let c := Cursor.exec ops (Cursor.start buf)
    (c.outer = [] → (MemoParser.ops p).enforceTarget s = .err (.window .closeWithoutWindow) s) ∧
    (c.outer ≠ [] → c.top = [] → ∃ s', (MemoParser.ops p).enforceTarget s = .ok () s') ∧
    (c.outer ≠ [] → c.top ≠ [] →
      ∃ s', (MemoParser.ops p).enforceTarget s = .err (.window (.closeWithResidue c.top.length)) s') ∧
    (∃ b, (MemoParser.ops p).testTarget s = .ok b s ∧
      (b = true ↔ ∃ s', (MemoParser.ops p).enforceTarget s = .ok () s')) := by
  intro c
  have hrep : MemoRep buf s c := memo_exec hb ha hs
  have h1 : c.outer = [] → (MemoParser.ops p).enforceTarget s = .err (.window .closeWithoutWindow) s := by
    intro ho
    obtain ⟨hi, hc⟩ := hrep
    have hf : s.off.frames = [] := by
      rw [← hc] at ho
      cases hf : s.off.frames with
      | nil => rfl
      | cons f fs => simp [absCursor, hf, segOuter] at ho
    simp only [MemoParser.ops, MemoParser.liftOff, ContextOffset.enforceTarget, hf]
  have h2 : c.outer ≠ [] → c.top = [] → ∃ s', (MemoParser.ops p).enforceTarget s = .ok () s' := by
    intro ho ht
    have := memo_step p hrep .enforceTarget (.inr (Nat.zero_le _))
    simp only [Cursor.step] at this
    cases hv : c.outer with
    | nil => exact absurd hv ho
    | cons v vs =>
      rw [hv] at this
      simp only [if_pos ht] at this
      obtain ⟨s', he, _⟩ := this
      obtain ⟨_, hx, _⟩ := run_ok_of_map he
      exact ⟨s', hx⟩
  have h3 : c.outer ≠ [] → c.top ≠ [] →
      ∃ s', (MemoParser.ops p).enforceTarget s = .err (.window (.closeWithResidue c.top.length)) s' := by
    intro ho ht
    cases hv : c.outer with
    | nil => exact absurd hv ho
    | cons v vs =>
      have hR : MemoR buf c.top (v :: vs) s := ⟨c.pos, by rw [← hv]; exact hrep⟩
      exact (memoLawful p buf).enforce_err hR ht
  refine ⟨h1, h2, h3, ?_⟩
  have := memo_step p hrep .testTarget (.inr (Nat.zero_le _))
  obtain ⟨s', he, _⟩ := this
  obtain ⟨b, hx, hf⟩ := run_ok_of_map he
  cases hf
  have hss : s' = s := by
    simp only [MemoParser.ops, MemoParser.liftOff, ContextOffset.testTarget] at hx
    obtain ⟨buffer, off, munches⟩ := s
    simp only at hx
    revert hx
    cases off.frames with
    | nil => intro hx; exact ((Out.ok.injEq ..).mp hx).2.symm
    | cons f fs =>
      simp only
      by_cases e1 : f = off.index
      · simp only [if_pos e1]; intro hx; exact ((Out.ok.injEq ..).mp hx).2.symm
      · by_cases e2 : f > off.index
        · simp only [if_neg e1, if_pos e2]; intro hx; exact ((Out.ok.injEq ..).mp hx).2.symm
        · simp only [if_neg e1, if_neg e2]; intro hx; cases hx
  subst hss
  refine ⟨_, hx, ?_⟩
  by_cases ho : c.outer = []
  · simp [ho, h1 ho]
  · by_cases ht : c.top = []
    · simp only [ho, ht, List.isEmpty_nil, Bool.and_true, Bool.not_eq_true', List.isEmpty_eq_false_iff,
        ne_eq, not_false_eq_true, true_iff]
      exact h2 ho ht
    · obtain ⟨s', h3'⟩ := h3 ho ht
      simp [ht, h3']

/-- C06 for `SliceParser` (partial): with a window open, after well-bracketed use.  Missing: without an
open window the root scope is closed instead of reporting an error, see `C03_slice_closes_root`. -/
theorem C06_sliceparser_enforce_target_partial (buf : Bytes) (ops : List Op)
    (hw : (Cursor.start buf).WBs ops) (s : SliceParser)
    (hs : SliceParser.ops.exec ops (SliceParser.fromBuffer buf) = some s) :
    let c := Cursor.exec ops (Cursor.start buf)
    c.outer ≠ [] →
    (c.top = [] → ∃ s', SliceParser.ops.enforceTarget s = .ok () s') ∧
    (c.top ≠ [] → ∃ s', SliceParser.ops.enforceTarget s = .err (.window (.closeWithResidue c.top.length)) s') ∧
    (∃ b, SliceParser.ops.testTarget s = .ok b s ∧
      (b = true ↔ ∃ s', SliceParser.ops.enforceTarget s = .ok () s')) := by
  intro c ho
  have hrep : SliceRep s c := slice_exec hw hs
  obtain ⟨views⟩ := s
  simp only [SliceRep] at hrep
  subst hrep
  cases ht : c.top with
  | nil => simp [SliceParser.ops, SliceParser.enforceTarget, SliceParser.testTarget]
  | cons b t => simp [SliceParser.ops, SliceParser.enforceTarget, SliceParser.testTarget]

/-- Non-vacuity of C06: an open, partly consumed window. -/
example : ∃ s, (ByteParser.ops .debug).exec [.setFit 2, .consumeByte] (ByteParser.fromBuffer [1, 2, 3]) = some s ∧
    (Cursor.exec [.setFit 2, .consumeByte] (Cursor.start [1, 2, 3])).top = [2] := ⟨_, rfl, rfl⟩

/-! ### C07 -/

/-- What C07 says of a parser in state `s`. -/
structure RemainderSpec {σ : Type} (P : ParserOps σ) (p : Profile) (len : Nat) (s : σ) (r : Nat) : Prop where
  /-- `remainder()` is `r`, which the input covers … -/
  remainder : P.remainder s = .ok r s
  le : r ≤ len
  /-- … and it decides what can be read … -/
  consume_iff : ∀ n < usizeMod, (∃ bs s', P.consume n s = .ok bs s') ↔ n ≤ r
  consume : ∀ n, n ≤ r → ∃ bs s', P.consume n s = .ok bs s' ∧ bs.length = n ∧ P.remainder s' = .ok (r - n) s'
  /-- … and what windows can be opened, unless the sum of position and width wraps. -/
  setFit_iff : ∀ n < usizeMod, (∃ s', P.setFit n s = .ok () s') ↔ n ≤ r ∨ (p = .release ∧ usizeMod ≤ P.offset s + n)
  setFit : ∀ n < usizeMod, ∀ s', P.setFit n s = .ok () s' → P.remainder s' = .ok n s'

theorem remainderSpec {σ : Type} {P : ParserOps σ} {A : σ → Cursor → Prop} {p : Profile} {buf : Bytes}
    (hb : buf.length ≤ isizeMax)
    (hg : ∀ {s c} (op : Op), A s c → (p = .debug ∨ ¬ c.Overflows op) →
      Gives A (P.run op s) (c.step op).2 (c.answer p buf.length op))
    (hrem : ∀ {s c}, A s c → P.remainder s = .ok c.top.length s)
    (hoff : ∀ {s c}, A s c → P.offset s = c.pos)
    (hcon : ∀ {s c n}, p = .release → A s c → n < usizeMod → c.Overflows (.consume n) → P.consume n s = .ub)
    (hset : ∀ {s c n}, p = .release → A s c → n < usizeMod → c.Overflows (.setFit n) →
      ∃ s', P.setFit n s = .ok () s' ∧ P.remainder s' = .ok n s')
    {s : σ} {c : Cursor} (h : A s c) (hat : c.At buf) : RemainderSpec P p buf.length s c.top.length := by
  obtain ⟨hlen, hlt⟩ := bound_of_at hb hat
  have hfit : ∀ n, n ≤ c.top.length → ¬ usizeMod ≤ c.pos + n := fun n hn => by omega
  have hc : ∀ n, n ≤ c.top.length → ∃ bs s', P.consume n s = .ok bs s' ∧ bs.length = n ∧
      P.remainder s' = .ok (c.top.length - n) s' := by
    intro n hn
    have h1 := hg (.consume n) h (.inr (hfit n hn))
    simp only [Cursor.answer, if_neg (show ¬ c.Overflows (.consume n) from hfit n hn), Cursor.step, if_pos hn] at h1
    obtain ⟨s1, he1, hr1⟩ := h1
    obtain ⟨bs, hx1, hf1⟩ := run_ok_of_map he1
    cases hf1
    exact ⟨_, s1, hx1, by simp [hn], by rw [hrem hr1]; simp [Cursor.adv]⟩
  have hs : ∀ n, n ≤ c.top.length → ∃ s', P.setFit n s = .ok () s' ∧ P.remainder s' = .ok n s' := by
    intro n hn
    have h1 := hg (.setFit n) h (.inr (hfit n hn))
    simp only [Cursor.answer, if_neg (show ¬ c.Overflows (.setFit n) from hfit n hn), Cursor.step, if_pos hn] at h1
    obtain ⟨s1, he1, hr1⟩ := h1
    obtain ⟨_, hx1, _⟩ := run_ok_of_map he1
    exact ⟨s1, hx1, by rw [hrem hr1]; simp [hn]⟩
  -- beyond the remainder
  have hno : ∀ op, (∃ e, (c.step op).1 = .error e) → (p = .debug ∨ ¬ c.Overflows op) →
      ∀ o s', P.run op s ≠ .ok o s' := by
    rintro op ⟨e, he⟩ ho o s' hx
    have h1 := hg op h ho
    have h2 := Cursor.answer_step p buf.length hlt op
    rw [hx] at h1
    revert h1 h2
    cases c.answer p buf.length op with
    | ok o => rintro _ h2; rw [he] at h2; cases h2
    | err e => rintro ⟨_, h1, _⟩; cases h1
    | panic => intro h1; cases h1
    | ub => intro h1; cases h1
    | diverge => intro h1; cases h1
  refine ⟨hrem h, by omega, ?_, hc, ?_, ?_⟩
  · intro n hn
    refine ⟨?_, fun hle => ?_⟩
    · rintro ⟨bs, s', hx⟩
      apply Decidable.byContradiction
      intro hle
      by_cases ho : p = .debug ∨ ¬ c.Overflows (.consume n)
      · exact hno (.consume n) ⟨c.shortErr n, by simp only [Cursor.step, if_neg hle]⟩ ho (.bytes bs) s'
          (by simp [ParserOps.run, hx])
      · have : p = .release := by cases p <;> simp_all
        rw [hcon this h hn (Decidable.byContradiction fun h => ho (.inr h))] at hx
        cases hx
    · obtain ⟨bs, s', hx, _⟩ := hc n hle
      exact ⟨bs, s', hx⟩
  · intro n hn
    rw [hoff h]
    constructor
    · rintro ⟨s', hx⟩
      by_cases hle : n ≤ c.top.length
      · exact .inl hle
      · right
        apply Decidable.byContradiction
        intro ho
        refine hno (.setFit n) ⟨Cursor.openErr, by simp only [Cursor.step, if_neg hle]⟩ ?_ .unit s' (by simp [ParserOps.run, hx])
        cases p with
        | debug => exact .inl rfl
        | release => exact .inr fun h => ho ⟨rfl, h⟩
    · rintro (hle | ⟨hp, ho⟩)
      · obtain ⟨s', hx, _⟩ := hs n hle
        exact ⟨s', hx⟩
      · obtain ⟨s', hx, _⟩ := hset hp h hn ho
        exact ⟨s', hx⟩
  · intro n hn s' hx
    by_cases hle : n ≤ c.top.length
    · obtain ⟨s1, hx1, hr⟩ := hs n hle
      rw [hx] at hx1
      cases hx1
      exact hr
    · by_cases ho : p = .debug ∨ ¬ c.Overflows (.setFit n)
      · exact absurd (by simp [ParserOps.run, hx])
          (hno (.setFit n) ⟨Cursor.openErr, by simp only [Cursor.step, if_neg hle]⟩ ho .unit s')
      · have hp : p = .release := by cases p <;> simp_all
        obtain ⟨s1, hx1, hr⟩ := hset hp h hn (Decidable.byContradiction fun h => ho (.inr h))
        rw [hx] at hx1
        cases hx1
        exact hr

/-- C07 for `ByteParser`, all `usize` arguments, in every state reached without a sum leaving `usize`.  The listed
property fails where it says `usizeMod ≤ offset + n` (release builds only). -/
theorem C07_byteparser_remainder (p : Profile) (buf : Bytes) (hb : buf.length ≤ isizeMax)
    (ops : List Op) (ha : p = .debug ∨ Cursor.Fits ops (Cursor.start buf)) (s : ByteParser)
    (hs : (ByteParser.ops p).exec ops (ByteParser.fromBuffer buf) = some s) :
    ∃ r, RemainderSpec (ByteParser.ops p) p buf.length s r := by
  refine ⟨_, remainderSpec (A := ByteRep buf) hb (fun op h ho => byte_gives p h op ho) ?_ ?_ ?_ ?_
    (byte_exec hb ha hs) (C01_cursor_reads_input_in_order buf ops)⟩
  · rintro s c ⟨rfl, hi, rfl⟩
    simp [ByteParser.ops, ByteParser.remainder, ByteParser.viewLen, ByteParser.offset, ContextOffset.index,
      usub_of_le hi.cur_le_limit, hi.length_top]
  · rintro s c ⟨rfl, hi, rfl⟩
    rfl
  · rintro s c n rfl h hn ho
    exact byte_consume_overflow h hn ho
  · rintro s c n rfl h hn ho
    exact byte_setFit_overflow h hn ho

/-- C07 for `MemoParser`. -/
theorem C07_memoparser_remainder (p : Profile) (buf : Bytes) (hb : buf.length ≤ isizeMax)
    (ops : List Op) (ha : p = .debug ∨ Cursor.Fits ops (Cursor.start buf)) (s : MemoParser)
    (hs : (MemoParser.ops p).exec ops (MemoParser.fromBuffer buf) = some s) :
    ∃ r, RemainderSpec (MemoParser.ops p) p buf.length s r := by
  refine ⟨_, remainderSpec (A := MemoRep buf) hb (fun op h ho => memo_gives p h op ho) ?_ ?_ ?_ ?_
    (memo_exec hb ha hs) (C01_cursor_reads_input_in_order buf ops)⟩
  · rintro s c ⟨hi, rfl⟩
    simp [MemoParser.ops, MemoParser.remainder, MemoParser.viewLen, MemoParser.offset, ContextOffset.index,
      usub_of_le hi.off.cur_le_limit, hi.off.length_top]
  · rintro s c ⟨hi, rfl⟩
    rfl
  · rintro s c n rfl h hn ho
    exact memo_consume_overflow h hn ho
  · rintro s c n rfl h hn ho
    exact memo_setFit_overflow h hn ho

/-- C07 for `SliceParser`, in every state that has a view, for all `n`. -/
theorem C07_sliceparser_remainder (v : Bytes) (vs : List Bytes) (n : Nat) :
    let s : SliceParser := { views := v :: vs }
    ∃ r, SliceParser.ops.remainder s = .ok r s ∧
        ((∃ bs s', SliceParser.ops.consume n s = .ok bs s') ↔ n ≤ r) ∧
        (n ≤ r → ∃ bs s', SliceParser.ops.consume n s = .ok bs s' ∧ bs.length = n ∧
          SliceParser.ops.remainder s' = .ok (r - n) s') ∧
        ((∃ s', SliceParser.ops.setFit n s = .ok () s') ↔ n ≤ r) ∧
        (∀ s', SliceParser.ops.setFit n s = .ok () s' → SliceParser.ops.remainder s' = .ok n s') := by
  intro s
  refine ⟨v.length, rfl, ?_⟩
  by_cases h : n ≤ v.length
  · simp only [s, SliceParser.ops, SliceParser.consume, SliceParser.setFit, SliceParser.splitUnchecked,
      SliceParser.remainder, SliceParser.viewLen, h]
    refine ⟨by simp, fun _ => ⟨_, _, rfl, by simp [h], by simp⟩, by simp, ?_⟩
    intro s' h'
    simp at h'
    subst h'
    simp [h]
  · simp [s, SliceParser.ops, SliceParser.consume, SliceParser.setFit,
      SliceParser.remainder, SliceParser.viewLen, h]

example : ∃ s, (ByteParser.ops .release).exec [.setFit 2, .consumeByte, .setFit 5] (ByteParser.fromBuffer [1, 2, 3]) =
    some s ∧ (ByteParser.ops .release).remainder s = .ok 1 s := ⟨_, rfl, rfl⟩

end Verif.Props
