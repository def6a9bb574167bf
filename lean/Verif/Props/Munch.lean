import Verif.Munch
import Verif.Refine.Exact
import Verif.Refine.SplitVec
/-
C55: the log kept by `MemoParser`.
-/
namespace Verif.Props
open Verif

/-! Specification -/

/-- The piece of input an operation of the abstract cursor reads or skips, if it succeeds.  (`skip_exactly` does not
count, see `C55_skip_exactly_garbles`.) -/
def Cursor.piece (c : Cursor) (op : Op) : Option Bytes :=
  match op, (c.step op).1 with
  | .consumeByte, .ok (.byte b) => some [b]
  | .consume _, .ok (.bytes bs) => some bs
  | .skip _, .ok (.nat n) => some (c.top.take n)
  | _, _ => none

/-- All pieces in order. -/
def Cursor.pieces : List Op → Cursor → List Bytes
  | [], _ => []
  | op :: ops, c => (Cursor.piece c op).toList ++ Cursor.pieces ops (c.step op).2

/-- Two lower-case digits for each byte, `|` after each piece. -/
def showPieces (ps : List Bytes) : String :=
  "[|" ++ ps.foldr (fun l r => String.ofList (l.flatMap fmt02x) ++ "|" ++ r) "]"

/-! Proofs -/

/-- What an operation adds to the log, judged by its result. -/
def logged : Op → Obs → List Nat
  | .consumeByte, _ => [1]
  | .consume n, _ => [n]
  | .skip _, .nat k => [k]
  | _, _ => []

theorem failDump_cases (p : Profile) (e : ParseError) (m : MemoParser) {α : Type} :
    (MemoParser.failDump p e m : Out MemoParser ParseError α) = .err e m ∨
    (MemoParser.failDump p e m : Out MemoParser ParseError α) = .panic ∨
    (MemoParser.failDump p e m : Out MemoParser ParseError α) = .ub := by
  simp only [MemoParser.failDump]
  cases m.dump p
  · exact .inl rfl
  · exact .inr (.inl rfl)
  · exact .inr (.inr rfl)

theorem run_munches (p : Profile) (op : Op) (m : MemoParser) :
    (∀ o m', (MemoParser.ops p).run op m = .ok o m' → m'.munches = m.munches ++ logged op o) ∧
    (∀ e m', (MemoParser.ops p).run op m = .err e m' → m'.munches = m.munches) := by
  have hlift : ∀ {α : Type} (f : PM ContextOffset α) (g : α → Obs), (∀ a, logged op (g a) = []) →
      (∀ o m', (g <$> MemoParser.liftOff f) m = .ok o m' → m'.munches = m.munches ++ logged op o) ∧
      (∀ e m', (g <$> MemoParser.liftOff f) m = .err e m' → m'.munches = m.munches) := by
    intro α f g hg
    simp only [M.map_run, MemoParser.liftOff]
    cases f m.off with
    | ok a o => exact ⟨fun _ _ h => by cases h; simp [hg], nofun⟩
    | err e o => exact ⟨nofun, fun _ _ h => by cases h; rfl⟩
    | panic => exact ⟨nofun, nofun⟩
    | ub => exact ⟨nofun, nofun⟩
    | diverge => exact ⟨nofun, nofun⟩
  cases op with
  | viewLen => exact ⟨fun _ _ h => by cases h; simp [logged], nofun⟩
  | offset => exact ⟨fun _ _ h => by cases h; simp [logged], nofun⟩
  | remainder =>
    simp only [ParserOps.run, MemoParser.ops, M.map_run, MemoParser.remainder]
    cases usub p m.viewLen m.offset with
    | none => exact ⟨nofun, nofun⟩
    | some r => exact ⟨fun _ _ h => by cases h; simp [logged], nofun⟩
  | consumeByte =>
    simp only [ParserOps.run, MemoParser.ops, M.map_run, MemoParser.consumeByte]
    cases m.off.advance p 1 with
    | none => exact ⟨nofun, nofun⟩
    | some r =>
      obtain ⟨⟨ix, adv⟩, o⟩ := r
      cases adv with
      | true =>
        simp only [if_true]
        cases VecBuffer.getByte m.buffer ix with
        | val b => exact ⟨fun _ _ h => by cases h; simp [logged], nofun⟩
        | panic => exact ⟨nofun, nofun⟩
        | ub => exact ⟨nofun, nofun⟩
      | false =>
        simp only [Bool.false_eq_true, if_false]
        rcases failDump_cases p _ _ with h | h | h <;> rw [h]
        · exact ⟨nofun, fun _ _ h => by cases h; rfl⟩
        · exact ⟨nofun, nofun⟩
        · exact ⟨nofun, nofun⟩
  | consume n =>
    simp only [ParserOps.run, MemoParser.ops, M.map_run, MemoParser.consume]
    cases m.off.advance p n with
    | none => exact ⟨nofun, nofun⟩
    | some r =>
      obtain ⟨⟨ix, adv⟩, o⟩ := r
      cases adv with
      | true =>
        simp only [if_true]
        cases VecBuffer.getSliceUnchecked p m.buffer ix n with
        | val b => exact ⟨fun _ _ h => by cases h; simp [logged], nofun⟩
        | panic => exact ⟨nofun, nofun⟩
        | ub => exact ⟨nofun, nofun⟩
      | false =>
        simp only [Bool.false_eq_true, if_false]
        rcases failDump_cases p _ _ with h | h | h <;> rw [h]
        · exact ⟨nofun, fun _ _ h => by cases h; rfl⟩
        · exact ⟨nofun, nofun⟩
        · exact ⟨nofun, nofun⟩
  | setFit n => exact hlift _ _ (fun _ => rfl)
  | testTarget => exact hlift _ _ (fun _ => rfl)
  | enforceTarget => exact hlift _ _ (fun _ => rfl)
  | skip n =>
    simp only [ParserOps.run, MemoParser.ops, M.map_run, MemoParser.skip]
    cases m.off.rem p with
    | none => exact ⟨nofun, nofun⟩
    | some r =>
      simp only
      cases m.off.advance p (min r n) with
      | none => exact ⟨nofun, nofun⟩
      | some q =>
        obtain ⟨⟨ix, adv⟩, o⟩ := q
        cases adv with
        | true => exact ⟨fun _ _ h => by cases h; rfl, nofun⟩
        | false =>
          simp only [Bool.false_eq_true, if_false]
          cases MemoParser.dump p m <;> exact ⟨nofun, nofun⟩
  | skipExactly n =>
    simp only [ParserOps.run, MemoParser.ops, M.map_run, MemoParser.skipExactly]
    cases m.off.advance p n with
    | none => exact ⟨nofun, nofun⟩
    | some r =>
      obtain ⟨⟨ix, adv⟩, o⟩ := r
      cases adv with
      | true => exact ⟨fun _ _ h => by cases h; simp [logged], nofun⟩
      | false =>
        simp only [Bool.false_eq_true, if_false]
        rcases failDump_cases p _ _ with h | h | h <;> rw [h]
        · exact ⟨nofun, fun _ _ h => by cases h; rfl⟩
        · exact ⟨nofun, nofun⟩
        · exact ⟨nofun, nofun⟩

/-- The log entry is the length of the piece. -/
theorem logged_piece (c : Cursor) (op : Op) :
    (∀ o c', c.step op = (.ok o, c') → logged op o = (Cursor.piece c op).toList.map List.length) ∧
    (∀ e c', c.step op = (.error e, c') → Cursor.piece c op = none) := by
  cases op with
  | consumeByte =>
    cases h : c.top with
    | nil => constructor <;> intro o c' hc <;> simp [Cursor.step, Cursor.piece, h] at hc ⊢
    | cons b t => constructor <;> intro o c' hc <;> simp [Cursor.step, Cursor.piece, h, logged] at hc ⊢
  | consume n =>
    by_cases h : n ≤ c.top.length
    · constructor <;> intro o c' hc <;> simp [Cursor.step, Cursor.piece, h, logged] at hc ⊢
    · constructor <;> intro o c' hc <;> simp [Cursor.step, Cursor.piece, h, logged] at hc ⊢
  | skip n =>
    constructor <;> intro o c' hc <;> simp [Cursor.step, Cursor.piece, logged] at hc ⊢
    rw [← hc.1]
  | _ => exact ⟨fun _ _ _ => by simp [Cursor.piece, logged], fun _ _ _ => by simp [Cursor.piece]⟩

/-- The log after any operations. -/
theorem exec_munches {p : Profile} {buf : Bytes} : ∀ (ops : List Op) {m m' : MemoParser} {c : Cursor},
    MemoRep buf m c → (p = .debug ∨ Cursor.Fits ops c) → (MemoParser.ops p).exec ops m = some m' →
    m'.munches = m.munches ++ (Cursor.pieces ops c).map List.length
  | [], m, m', c, _, _, he => by cases he; simp [Cursor.pieces]
  | op :: ops, m, m', c, hr, ha, he => by
    have hs := (memo_gives p hr op (ha.imp_right And.left)).step hr.toByte.bound
    have hm := run_munches p op m
    have hl := logged_piece c op
    have ha' : p = .debug ∨ Cursor.Fits ops (c.step op).2 := ha.imp_right And.right
    simp only [ParserOps.exec, Cursor.pieces] at he ⊢
    revert hs hl ha'
    cases hc : c.step op with
    | mk r c' =>
      cases r with
      | ok o =>
        rintro ⟨s', hx, hr'⟩ hl ha'
        rw [hx] at he
        rw [exec_munches ops hr' ha' he, hm.1 _ _ hx, hl.1 _ _ rfl]
        simp
      | error e =>
        rintro (⟨e', s', hx, _, hr'⟩ | ⟨_, hx⟩) hl ha'
        · rw [hx] at he
          rw [exec_munches ops hr' ha' he, hm.2 _ _ hx, hl.2 _ _ rfl]
          simp
        · rw [hx] at he; cases he

/-- Without `skip_exactly` the pieces make up all that lies behind the cursor. -/
theorem pieces_flatten (buf : Bytes) : ∀ (ops : List Op) (c : Cursor) (pre : Bytes),
    (∀ n, Op.skipExactly n ∉ ops) → buf = pre ++ c.unread → pre.length = c.pos →
    ∃ post, buf = pre ++ (Cursor.pieces ops c).flatten ++ post ∧
      (pre ++ (Cursor.pieces ops c).flatten).length = (Cursor.exec ops c).pos
  | [], c, pre, _, h, hl => ⟨c.unread, by simpa [Cursor.pieces] using h, by simpa [Cursor.pieces, Cursor.exec] using hl⟩
  | op :: ops, c, pre, hn, h, hl => by
    have key : buf = (pre ++ (Cursor.piece c op).toList.flatten) ++ (c.step op).2.unread ∧
        (pre ++ (Cursor.piece c op).toList.flatten).length = (c.step op).2.pos := by
      cases op with
      | consumeByte =>
        cases ht : c.top with
        | nil => simp [Cursor.step, Cursor.piece, ht]; exact ⟨h, hl⟩
        | cons b t => simp [Cursor.step, Cursor.piece, ht, Cursor.unread, Cursor.adv, hl, h]
      | consume n =>
        by_cases hc : n ≤ c.top.length
        · simp [Cursor.step, Cursor.piece, hc, Cursor.unread, Cursor.adv, hl, h]
          rw [← List.append_assoc (c.top.take n), List.take_append_drop]
        · simp [Cursor.step, Cursor.piece, hc]; exact ⟨h, hl⟩
      | skip n =>
        simp [Cursor.step, Cursor.piece, Cursor.unread, Cursor.adv, hl, h]
        rw [← List.append_assoc (c.top.take _), List.take_append_drop]
      | skipExactly n => exact absurd (by simp) (hn n)
      | setFit n =>
        by_cases hc : n ≤ c.top.length
        · simp [Cursor.step, Cursor.piece, hc, Cursor.unread, hl, h]
          rw [← List.append_assoc (c.top.take n), List.take_append_drop]
        · simp [Cursor.step, Cursor.piece, hc]; exact ⟨h, hl⟩
      | enforceTarget =>
        simp only [Cursor.step, Cursor.piece]
        cases ho : c.outer with
        | nil => simp; exact ⟨h, hl⟩
        | cons v vs =>
          by_cases ht : c.top = []
          · simp [ht, Cursor.unread, ho, hl, h]
          · simp [ht, Cursor.unread, ho, hl, h]
      | _ => simp [Cursor.step, Cursor.piece]; exact ⟨h, hl⟩
    obtain ⟨post, h1, h2⟩ := pieces_flatten buf ops (c.step op).2 _ (fun n h => hn n (by simp [h])) key.1 key.2
    refine ⟨post, ?_, ?_⟩
    · simpa [Cursor.pieces] using h1
    · simpa [Cursor.pieces, Cursor.exec] using h2

theorem dumpGo_eq (p : Profile) {buf : Bytes} (hb : buf.length ≤ isizeMax) :
    ∀ (ps : List Bytes) (pre post : Bytes), buf = pre ++ ps.flatten ++ post →
      MemoParser.dumpGo p buf pre.length (ps.map List.length) = .val ps
  | [], _, _, _ => rfl
  | l :: ps, pre, post, h => by
    have hlen : pre.length + l.length ≤ buf.length := by rw [h]; simp
    have hu : uadd p pre.length l.length = some (pre.length + l.length) :=
      uadd_of_lt (by simp only [usizeMod_eq] at *; omega)
    have ih := dumpGo_eq p hb ps (pre ++ l) post (by rw [h]; simp)
    rw [List.length_append] at ih
    have hsl : (buf.drop pre.length).take l.length = l := by rw [h]; simp
    simp [MemoParser.dumpGo, VecBuffer.getSlice, VecBuffer.getSliceUnchecked, hu, hlen, ih, hsl]

theorem dumpText_eq {p : Profile} {m : MemoParser} {ps : List Bytes} (hd : m.dump p = .val ps) :
    m.dumpText p = .val (showPieces ps) := by
  have hf := SplitVec.Rep.fromIter ps
  simp only [MemoParser.dumpText, hd]
  have : (List.foldl (fun r seg => (SplitVec.extendCurrent r seg).split) SplitVec.new ps) = SplitVec.fromIter ps := rfl
  rw [this]
  simp only [SplitVec.render, hf.iter, hf.buffer, Segs.contents, SplitVec.renderGo_eq, Option.map_some, Segs.segments,
    Option.toList_none, List.append_nil, showPieces]

/-- C55, the log of the memoizing parser: `dump_state` – and every error message, which includes the same line –
shows what has been read and skipped so far, from the start of the input up to the cursor, one piece per successful
operation.  Missing: runs that use `skip_exactly`, which is not logged; see `C55_skip_exactly_garbles` and
`C55_dump_any`. -/
theorem C55_dump_partial (p : Profile) (buf : Bytes) (hb : buf.length ≤ isizeMax) (ops : List Op)
    (ha : p = .debug ∨ Cursor.Fits ops (Cursor.start buf)) (hs : ∀ n, Op.skipExactly n ∉ ops) (m : MemoParser)
    (he : (MemoParser.ops p).exec ops (MemoParser.fromBuffer buf) = some m) :
    m.dump p = .val (Cursor.pieces ops (Cursor.start buf)) ∧
    m.dumpText p = .val (showPieces (Cursor.pieces ops (Cursor.start buf))) ∧
    (Cursor.pieces ops (Cursor.start buf)).flatten = buf.take m.offset := by
  have hr := memo_exec hb ha he
  have hm := exec_munches ops (MemoRep.start hb) ha he
  obtain ⟨post, h1, h2⟩ := pieces_flatten buf ops (Cursor.start buf) [] hs (by simp [Cursor.unread, Cursor.start]) rfl
  have hd : m.dump p = .val (Cursor.pieces ops (Cursor.start buf)) := by
    rw [MemoParser.dump, hr.1.buf_eq, hm]
    exact dumpGo_eq p hb _ [] post h1
  refine ⟨hd, ?_, ?_⟩
  · exact dumpText_eq hd
  · have hp : m.offset = (Cursor.exec ops (Cursor.start buf)).pos := by rw [← hr.2]; rfl
    rw [hp, ← h2]
    rw [List.nil_append] at h1 ⊢
    calc _ = (List.take (Cursor.pieces ops (Cursor.start buf)).flatten.length
          ((Cursor.pieces ops (Cursor.start buf)).flatten ++ post)) := by simp
      _ = _ := by rw [← h1]

/-- C55 for all runs: the line always has one piece per successful operation (other than `skip_exactly`), of the
right length, and printing it never panics. -/
theorem C55_dump_any (p : Profile) (buf : Bytes) (hb : buf.length ≤ isizeMax) (ops : List Op)
    (ha : p = .debug ∨ Cursor.Fits ops (Cursor.start buf)) (m : MemoParser)
    (he : (MemoParser.ops p).exec ops (MemoParser.fromBuffer buf) = some m) :
    ∃ ps, m.dump p = .val ps ∧ m.dumpText p = .val (showPieces ps) ∧
      ps.map List.length = (Cursor.pieces ops (Cursor.start buf)).map List.length ∧ ps.flatten <+: buf := by
  have hr := memo_exec hb ha he
  have hm := exec_munches ops (MemoRep.start hb) ha he
  have h0 : (MemoParser.fromBuffer buf).munches = [] := rfl
  rw [h0, List.nil_append] at hm
  have hcut : ∀ (ls : List Nat) (b : Bytes), ls.sum ≤ b.length →
      ∃ (ps : List Bytes) (post : Bytes), ps.map List.length = ls ∧ b = ps.flatten ++ post := by
    intro ls
    induction ls with
    | nil => exact fun b _ => ⟨[], b, rfl, rfl⟩
    | cons l ls ih =>
      intro b h
      rw [List.sum_cons] at h
      obtain ⟨ps, post, h1, h2⟩ := ih (b.drop l) (by rw [List.length_drop]; omega)
      refine ⟨b.take l :: ps, post, ?_, ?_⟩
      · rw [List.map_cons, h1, List.length_take, Nat.min_eq_left (by omega)]
      · rw [List.flatten_cons, List.append_assoc, ← h2, List.take_append_drop]
  have h1 := hr.1.off.cur_le_limit
  have h2 := hr.1.off.limit_le
  have h3 := hr.1.log
  obtain ⟨ps, post, hl, hbuf⟩ := hcut m.munches buf (by omega)
  have hd : m.dump p = .val ps := by
    rw [MemoParser.dump, hr.1.buf_eq, ← hl]
    exact dumpGo_eq p hb ps [] post hbuf
  exact ⟨ps, hd, dumpText_eq hd, by rw [hl, hm], ⟨post, hbuf.symm⟩⟩

/-- The complete statement is false: after `skip_exactly(1)` and `consume_byte()` on 01 02 the byte read is 02, but the
line shows 01. -/
theorem C55_skip_exactly_garbles (p : Profile) :
    ∃ m, (MemoParser.ops p).exec [.skipExactly 1, .consumeByte] (MemoParser.fromBuffer [1, 2]) = some m ∧
      (MemoParser.ops p).trace [.skipExactly 1, .consumeByte] (MemoParser.fromBuffer [1, 2]) = [.ok .unit, .ok (.byte 2)] ∧
      m.dumpText p = .val "[|01|]" := by
  cases p <;> exact ⟨_, rfl, rfl, by decide +kernel⟩

/-- Non-vacuity: windows, a failed read and a skip. -/
example : (Cursor.pieces [.consumeByte, .setFit 2, .consume 5, .skip 9, .enforceTarget] (Cursor.start [1, 2, 3, 4])) =
    [[1], [2, 3]] ∧
    (((MemoParser.ops .debug).exec [.consumeByte, .setFit 2, .consume 1, .skip 9, .enforceTarget]
      (MemoParser.fromBuffer [1, 2, 3, 4])).map fun m => m.dumpText .debug) = some (.val "[|01|02|03|]") := by
  decide +kernel

end Verif.Props
