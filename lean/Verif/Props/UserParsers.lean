import Verif.Props.Parsers
import Verif.Props.Recursive
/-
C74: every parser – user-defined ones included – that answers all well-bracketed calls as the windowed cursor does decodes
every type as the parsers of the library do.
-/
namespace Verif

/-- Parser `P` in state `s` cannot be told from the windowed cursor `c` by well-bracketed calls, the last of which may be
the closing of a window that is not fully read; errors are compared up to the positions reported with them. -/
def ParserOps.ActsAs {σ : Type} (P : ParserOps σ) (s : σ) (c : Cursor) : Prop :=
  ∀ (ops : List Op) (last : Op), c.WBs ops →
    ((Cursor.exec ops c).WB last ∨ (last = .enforceTarget ∧ (Cursor.exec ops c).outer ≠ [])) →
    (∀ op ∈ ops ++ [last], op.arg ≤ isizeMax + 1) →
    (P.trace (ops ++ [last]) s).map (Res.mapErr ParseError.kind) =
      (Cursor.trace (ops ++ [last]) c).map (Res.mapErr ParseError.kind)

namespace Props

open Codec

variable {σ : Type} {P : ParserOps σ}

theorem wbs_cons {c : Cursor} {op : Op} {ops : List Op} (h : c.WB op) (hs : (c.step op).2.WBs ops) : c.WBs (op :: ops) := by
  intro pre op' post he
  cases pre with
  | nil =>
    simp only [List.nil_append, List.cons.injEq] at he
    rw [← he.1]; exact h
  | cons q pre =>
    simp only [List.cons_append, List.cons.injEq] at he
    obtain ⟨rfl, he⟩ := he
    exact hs pre op' post he

/-- What is observed of one more call determines what is observed of later ones. -/
theorem acts_step {s : σ} {c : Cursor} (h : P.ActsAs s c) (op : Op) (hw : c.WB op) (ha : op.arg ≤ isizeMax + 1) :
    StepRefines (fun s c => P.ActsAs s c) ParseError.kind False (P.run op s) (c.step op) := by
  have h1 := h [] op (by intro pre op post he; simp at he) (.inl hw) (by simpa using ha)
  have h2 : ∀ (ops : List Op) (last : Op), (c.step op).2.WBs ops →
      ((Cursor.exec ops (c.step op).2).WB last ∨ (last = .enforceTarget ∧ (Cursor.exec ops (c.step op).2).outer ≠ [])) →
      (∀ op ∈ ops ++ [last], op.arg ≤ isizeMax + 1) →
      (P.trace (op :: (ops ++ [last])) s).map (Res.mapErr ParseError.kind) =
        (Cursor.trace (op :: (ops ++ [last])) c).map (Res.mapErr ParseError.kind) := by
    intro ops last h3 h4 h5
    refine h (op :: ops) last (wbs_cons hw h3) h4 ?_
    intro q hq
    simp only [List.cons_append, List.mem_cons] at hq
    rcases hq with rfl | hq
    · exact ha
    · exact h5 q hq
  simp only [List.nil_append, ParserOps.trace, Cursor.trace] at h1 h2
  rcases hc : c.step op with ⟨r, c'⟩
  rw [hc] at h1 h2
  cases r with
  | ok o =>
    cases hr : P.run op s with
    | ok o' s' =>
      rw [hr] at h1 h2
      simp only [List.map_cons, List.map_nil, Res.mapErr, List.cons.injEq, and_true, Res.ok.injEq] at h1
      subst h1
      refine ⟨s', rfl, ?_⟩
      intro ops last h3 h4 h5
      have := h2 ops last h3 h4 h5
      simp only [List.map_cons, List.cons.injEq] at this
      exact this.2
    | err e s' => rw [hr] at h1; simp [Res.mapErr] at h1
    | panic => rw [hr] at h1; simp [Res.mapErr] at h1
    | ub => rw [hr] at h1; simp [Res.mapErr] at h1
    | diverge => rw [hr] at h1; simp [Res.mapErr] at h1
  | error e =>
    cases hr : P.run op s with
    | err e' s' =>
      rw [hr] at h1 h2
      simp only [List.map_cons, List.map_nil, Res.mapErr, List.cons.injEq, and_true, Res.err.injEq] at h1
      refine .inl ⟨e', s', rfl, h1, ?_⟩
      intro ops last h3 h4 h5
      have := h2 ops last h3 h4 h5
      simp only [List.map_cons, List.cons.injEq] at this
      exact this.2
    | ok o s' => rw [hr] at h1; simp [Res.mapErr] at h1
    | panic => rw [hr] at h1; simp [Res.mapErr] at h1
    | ub => rw [hr] at h1; simp [Res.mapErr] at h1
    | diverge => rw [hr] at h1; simp [Res.mapErr] at h1

theorem unread_step (c : Cursor) (op : Op) : (c.step op).2.unread.length ≤ c.unread.length := by
  obtain ⟨pos, top, outer⟩ := c
  cases op with
  | consumeByte => cases top <;> simp [Cursor.step, Cursor.adv, Cursor.unread]
  | consume n =>
    simp only [Cursor.step]
    split <;> simp only [Cursor.adv, Cursor.unread, List.length_append, List.length_drop] <;> omega
  | setFit n =>
    simp only [Cursor.step]
    split
    · simp only [Cursor.unread, List.flatten_cons, ← List.append_assoc, List.take_append_drop]; exact Nat.le_refl _
    · exact Nat.le_refl _
  | enforceTarget =>
    cases outer with
    | nil => exact Nat.le_refl _
    | cons v vs => simp only [Cursor.step]; split <;> simp [Cursor.unread]
  | skip n => simp only [Cursor.step, Cursor.adv, Cursor.unread, List.length_append, List.length_drop]; omega
  | skipExactly n =>
    simp only [Cursor.step]
    split <;> simp only [Cursor.adv, Cursor.unread, List.length_append, List.length_drop] <;> omega
  | _ => exact Nat.le_refl _

theorem kind_residue {e : ParseError} {n : Nat} (h : e.kind = ParseError.kind (.window (.closeWithResidue n))) :
    e = .window (.closeWithResidue n) := by
  unfold ParseError.kind at h
  split at h <;> first | exact h | (simp [Cursor.openErr] at h)

theorem acts_lawful : Lawful P False (fun v vs s => ∃ pos, P.ActsAs s ⟨pos, v, vs⟩ ∧ (Cursor.mk pos v vs).unread.length ≤ isizeMax) := by
  apply Lawful.of_step (A := fun s c => P.ActsAs s c ∧ c.unread.length ≤ isizeMax)
  · rintro s c ⟨_, h⟩
    simp only [Cursor.unread, List.length_append] at h
    omega
  · rintro s c op ⟨h, hl⟩ hw ha
    have h1 := acts_step h op hw ha
    have h2 := Nat.le_trans (unread_step c op) hl
    revert h1 h2
    cases c.step op with
    | mk r c' =>
      cases r with
      | ok o => rintro ⟨s', e, h1⟩ h2; exact ⟨s', e, h1, h2⟩
      | error e =>
        rintro (⟨e', s', h0, hk, h1⟩ | ⟨hf, _⟩) h2
        · exact .inl ⟨e', s', h0, hk, h1, h2⟩
        · exact hf.elim
  · rintro s c v vs ⟨h, _⟩ ho ht
    have h1 := h [] .enforceTarget (by intro pre op post he; simp at he) (.inr ⟨rfl, by simp [Cursor.exec, ho]⟩)
      (by simp [Op.arg])
    simp only [List.nil_append, ParserOps.trace, Cursor.trace, Cursor.step, ho, if_neg ht] at h1
    cases hr : P.run .enforceTarget s with
    | err e s' =>
      rw [hr] at h1
      simp only [List.map_cons, List.map_nil, Res.mapErr, List.cons.injEq, and_true, Res.err.injEq] at h1
      exact ⟨s', by rw [← kind_residue h1]; exact run_err_of_map hr⟩
    | ok o s' => rw [hr] at h1; simp [Res.mapErr] at h1
    | panic => rw [hr] at h1; simp [Res.mapErr] at h1
    | ub => rw [hr] at h1; simp [Res.mapErr] at h1
    | diverge => rw [hr] at h1; simp [Res.mapErr] at h1

/-- The position of a `ByteParser` and what it has left. -/
theorem byteR_position {buf rest : Bytes} {s : ByteParser} (p : Profile) (h : ByteR buf rest [] s) :
    rest = buf.drop ((ByteParser.ops p).offset s) := by
  obtain ⟨pos, hb, hi, hc⟩ := h
  simp only [absCursor, Cursor.mk.injEq] at hc
  obtain ⟨h1, h2, h3⟩ := hc
  show rest = buf.drop s.off.cur
  rw [← h2]
  cases hf : s.off.frames with
  | nil => simp only [segTop, List.head?_nil, Option.getD_none]; rw [← List.length_drop, List.take_length]
  | cons f fs => rw [hf] at h3; simp [segOuter] at h3

/-- C74: on every parser that acts like the windowed cursor on the input, decoding any type comes out as on `ByteParser`:
the same value, with the same bytes left to read; or errors of the same class (in debug builds `ByteParser` may panic
instead of failing); or neither comes back.  (Missing: `VPadded` in release builds and arrays of more than `isize::MAX + 1` bytes, where
`ByteParser` itself misbehaves, see `C09_fails`.) -/
theorem C74_user_parsers (cfg : Cfg) (s : Schema) (ht : s.tame cfg.prof = true) (buf : Bytes) (hb : buf.length ≤ isizeMax)
    (st : σ) (hP : P.ActsAs st (Cursor.start buf)) :
    let r := (s.codec cfg).parse P st
    let r' := (s.codec cfg).parse (ByteParser.ops cfg.prof) (ByteParser.fromBuffer buf)
    (∃ a st' b', r = .ok a st' ∧ r' = .ok a b' ∧
      ∃ c, P.ActsAs st' c ∧ c.outer = [] ∧ c.top = buf.drop ((ByteParser.ops cfg.prof).offset b')) ∨
    (∃ e st', r = .err e st' ∧ ((∃ e' b', r' = .err e' b' ∧ e.kind = e'.kind) ∨ (cfg.prof = .debug ∧ r' = .panic))) ∨
    (r = .panic ∧ r' = .panic) ∨ (r = .diverge ∧ r' = .diverge) := by
  intro r r'
  have h := s.parses cfg (acts_lawful (P := P)) buf [] st ⟨0, hP, by simpa [Cursor.unread] using hb⟩
  have h' := s.parses cfg (byteLawful cfg.prof buf) buf [] _ ⟨0, ByteRep.start hb⟩
  cases hd : s.dec cfg buf with
  | ok a rest =>
    rw [hd] at h h'
    obtain ⟨st', e1, pos, h2, _⟩ := h
    obtain ⟨b', e1', h2'⟩ := h'
    exact .inl ⟨a, st', b', e1, e1', _, h2, rfl, byteR_position cfg.prof h2'⟩
  | err e =>
    rw [hd] at h h'
    rcases h with ⟨e1, st', e2, hk⟩ | ⟨⟨_, hf⟩, _⟩
    · refine .inr (.inl ⟨e1, st', e2, ?_⟩)
      rcases h' with ⟨e1', b', e2', hk'⟩ | ⟨⟨_, hp⟩, e2'⟩
      · exact .inl ⟨e1', b', e2', hk.trans hk'.symm⟩
      · exact .inr ⟨hp, e2'⟩
    · exact hf.elim
  | panic => rw [hd] at h h'; exact .inr (.inr (.inl ⟨h, h'⟩))
  | diverge => rw [hd] at h h'; exact .inr (.inr (.inr ⟨h, h'⟩))
  | wild => exact absurd hd (s.tame_dec cfg ht buf)

/-- C74: such a parser gets back every well-formed value from its encoding and then stands behind it. -/
theorem C74_round_trip (cfg : Cfg) (s : Schema) (ht : s.tagsOk) {tl : Tail} (htl : s.tail = some tl) (x : s.Val) (hv : s.Valid x)
    (he : cfg.encLenOverride = false ∨ s.PrefixOk x) (b : Bytes) (hb : (s.codec cfg).toBytes x = some b) (rest : Bytes)
    (hr : tl.Allows rest) (hl : (b ++ rest).length ≤ isizeMax) (st : σ) (hP : P.ActsAs st (Cursor.start (b ++ rest))) :
    ∃ st' c, (s.codec cfg).parse P st = .ok x st' ∧ P.ActsAs st' c ∧ c.outer = [] ∧ c.top = rest := by
  rw [toBytes_wire (he.imp id fun h => ⟨hv, h⟩)] at hb
  have h := s.parses cfg (acts_lawful (P := P)) (b ++ rest) [] st ⟨0, hP, by simpa [Cursor.unread] using hl⟩
  rw [s.roundTrips cfg ht htl x b rest hv hb hr] at h
  obtain ⟨st', h1, pos, h2, _⟩ := h
  exact ⟨st', _, h1, h2, rfl, rfl⟩

/-- C74 for recursive type definitions in which recursion happens only after something has been read: decoding comes back
on every such parser, with the value `ByteParser` finds or with an error where `ByteParser` fails. -/
theorem C74_recursive (cfg : Cfg) (d : Decls) (i : Nat) (hst : d.Stable) (hg : d.Guarded) (buf : Bytes)
    (hb : buf.length ≤ isizeMax) (st : σ) (hP : P.ActsAs st (Cursor.start buf)) :
    let r := (d.codec cfg i).parse P st
    let r' := (d.codec cfg i).parse (ByteParser.ops cfg.prof) (ByteParser.fromBuffer buf)
    (∃ a st' b', r = .ok a st' ∧ r' = .ok a b' ∧
      ∃ c, P.ActsAs st' c ∧ c.outer = [] ∧ c.top = buf.drop ((ByteParser.ops cfg.prof).offset b')) ∨
    (∃ e st', r = .err e st' ∧ ((∃ e' b', r' = .err e' b' ∧ e.kind = e'.kind) ∨ (cfg.prof = .debug ∧ r' = .panic))) := by
  intro r r'
  have h := (d.unfold (buf.length + 1) i).parses cfg (acts_lawful (P := P)) buf [] st
    ⟨0, hP, by simpa [Cursor.unread] using hb⟩
  have h' := (d.unfold (buf.length + 1) i).parses cfg (byteLawful cfg.prof buf) buf [] _ ⟨0, ByteRep.start hb⟩
  have herr : ∀ {τ : Type} {Q : ParserOps τ} {t : τ} {o : Out τ ParseError (d.Val i)},
      (∀ x t', o ≠ .ok x t') → o ≠ .diverge →
      (d.val (buf.length + 1) <$> ((d.unfold (buf.length + 1) i).codec cfg).parse Q) t = o →
      (d.codec cfg i).parse Q t = o := by
    intro τ Q t o h1 h2 h3
    rw [d.parse_eq (n := buf.length + 1), h3]
    intro hd
    rw [M.map_run, hd] at h3
    exact h2 h3.symm
  rcases d.totalBelow cfg hst hg (buf.length + 1) i buf (Nat.lt_succ_self _) with ⟨x, rest, hd⟩ | ⟨e, hd⟩
  · rw [hd] at h h'
    obtain ⟨st', e1, pos, h2, _⟩ := h
    obtain ⟨b', e1', h2'⟩ := h'
    exact .inl ⟨_, st', b', d.parse_ok e1, d.parse_ok e1', _, h2, rfl, byteR_position cfg.prof h2'⟩
  · rw [hd] at h h'
    rcases h with ⟨e1, st', e2, hk⟩ | ⟨⟨_, hf⟩, _⟩
    · refine .inr ⟨e1, st', herr (by nofun) (by nofun) (by rw [M.map_run, e2]; rfl), ?_⟩
      rcases h' with ⟨e1', b', e2', hk'⟩ | ⟨⟨_, hp⟩, e2'⟩
      · exact .inl ⟨e1', b', herr (by nofun) (by nofun) (by rw [M.map_run, e2']; rfl), hk.trans hk'.symm⟩
      · exact .inr ⟨hp, herr (by nofun) (by nofun) (by rw [M.map_run, e2']; rfl)⟩
    · exact hf.elim

/-! ### examples -/

/-- One call to a user-defined parser that is the cursor itself and also counts the calls made to it. -/
def countedCall {α : Type} (op : Op) (f : Obs → Option α) : PM (Cursor × Nat) α := fun s =>
  match s.1.step op with
  | (.ok o, c) => match f o with
    | some a => .ok a (c, s.2 + 1)
    | none => .panic
  | (.error e, c) => .err e (c, s.2 + 1)

def countingParser : ParserOps (Cursor × Nat) where
  viewLen := fun s => s.1.pos + s.1.top.length
  offset := fun s => s.1.pos
  remainder := countedCall .remainder fun | .nat n => some n | _ => none
  consumeByte := countedCall .consumeByte fun | .byte b => some b | _ => none
  consume := fun n => countedCall (.consume n) fun | .bytes b => some b | _ => none
  setFit := fun n => countedCall (.setFit n) fun _ => some ()
  testTarget := countedCall .testTarget fun | .bool b => some b | _ => none
  enforceTarget := countedCall .enforceTarget fun _ => some ()
  skip := fun n => countedCall (.skip n) fun | .nat n => some n | _ => none
  skipExactly := fun n => countedCall (.skipExactly n) fun _ => some ()

theorem countedCall_ok {α : Type} {op : Op} {f : Obs → Option α} {g : α → Obs} {c c' : Cursor} {n : Nat} {o : Obs} {a : α}
    (h : c.step op = (.ok o, c')) (hf : f o = some a) (hg : g a = o) : (g <$> countedCall op f) (c, n) = .ok o (c', n + 1) := by
  simp only [M.map_run, countedCall, h, hf, Out.bind_ok, hg]

theorem countedCall_err {α : Type} {op : Op} {f : Obs → Option α} {g : α → Obs} {c c' : Cursor} {n : Nat} {e : ParseError}
    (h : c.step op = (.error e, c')) : (g <$> countedCall op f) (c, n) = .err e (c', n + 1) := by
  simp only [M.map_run, countedCall, h]
  rfl

/-- It acts like the cursor. -/
theorem countingParser_acts (c : Cursor) (n : Nat) : countingParser.ActsAs (c, n) c := by
  intro ops last _ _ _
  have key : ∀ (ops : List Op) (c : Cursor) (n : Nat), countingParser.trace ops (c, n) = Cursor.trace ops c := by
    intro ops
    induction ops with
    | nil => exact fun _ _ => rfl
    | cons op ops ih =>
      intro c n
      have hs : (∃ o c' n', c.step op = (.ok o, c') ∧ countingParser.run op (c, n) = .ok o (c', n')) ∨
          ∃ e c' n', c.step op = (.error e, c') ∧ countingParser.run op (c, n) = .err e (c', n') := by
        cases op with
        | viewLen => exact .inl ⟨_, _, _, rfl, rfl⟩
        | offset => exact .inl ⟨_, _, _, rfl, rfl⟩
        | remainder => exact .inl ⟨_, _, _, rfl, rfl⟩
        | testTarget => exact .inl ⟨_, _, _, rfl, rfl⟩
        | skip k => exact .inl ⟨_, _, _, rfl, rfl⟩
        | consumeByte =>
          obtain ⟨pos, top, outer⟩ := c
          cases top with
          | nil => exact .inr ⟨_, _, _, rfl, rfl⟩
          | cons b t => exact .inl ⟨_, _, _, rfl, rfl⟩
        | consume k =>
          by_cases hk : k ≤ c.top.length
          · have e : c.step (.consume k) = (.ok (.bytes (c.top.take k)), c.adv k) := by simp only [Cursor.step, if_pos hk]
            refine .inl ⟨_, _, n + 1, e, ?_⟩; simp only [ParserOps.run, countingParser]; exact countedCall_ok e rfl rfl
          · have e : c.step (.consume k) = (.error (c.shortErr k), c) := by simp only [Cursor.step, if_neg hk]
            refine .inr ⟨_, _, n + 1, e, ?_⟩; simp only [ParserOps.run, countingParser]; exact countedCall_err e
        | setFit k =>
          by_cases hk : k ≤ c.top.length
          · have e : c.step (.setFit k) = (.ok .unit, { c with top := c.top.take k, outer := c.top.drop k :: c.outer }) := by
              simp only [Cursor.step, if_pos hk]
            refine .inl ⟨_, _, n + 1, e, ?_⟩; simp only [ParserOps.run, countingParser]; exact countedCall_ok e rfl rfl
          · have e : c.step (.setFit k) = (.error Cursor.openErr, c) := by simp only [Cursor.step, if_neg hk]
            refine .inr ⟨_, _, n + 1, e, ?_⟩; simp only [ParserOps.run, countingParser]; exact countedCall_err e
        | skipExactly k =>
          by_cases hk : k ≤ c.top.length
          · have e : c.step (.skipExactly k) = (.ok .unit, c.adv k) := by simp only [Cursor.step, if_pos hk]
            refine .inl ⟨_, _, n + 1, e, ?_⟩; simp only [ParserOps.run, countingParser]; exact countedCall_ok e rfl rfl
          · have e : c.step (.skipExactly k) = (.error (c.shortErr k), c) := by simp only [Cursor.step, if_neg hk]
            refine .inr ⟨_, _, n + 1, e, ?_⟩; simp only [ParserOps.run, countingParser]; exact countedCall_err e
        | enforceTarget =>
          obtain ⟨pos, top, outer⟩ := c
          cases outer with
          | nil => exact .inr ⟨_, _, _, rfl, rfl⟩
          | cons v vs =>
            cases top with
            | nil => exact .inl ⟨_, _, _, rfl, rfl⟩
            | cons b t => exact .inr ⟨_, _, _, rfl, rfl⟩
      simp only [ParserOps.trace, Cursor.trace]
      rcases hs with ⟨o, c', n', e1, e2⟩ | ⟨e, c', n', e1, e2⟩
      · rw [e1, e2]; simp only [ih]
      · rw [e1, e2]; simp only [ih]
  rw [key]

/-- `ByteParser` (release build) acts like the cursor as well, so the hypothesis is met by it and by whatever wraps it. -/
theorem byteParser_acts (buf : Bytes) (hb : buf.length ≤ isizeMax) :
    (ByteParser.ops .release).ActsAs (ByteParser.fromBuffer buf) (Cursor.start buf) := by
  intro ops last _ _ ha
  have h := C01_byteparser_is_windowed_cursor_partial .release buf hb (ops ++ [last]) ha (by nofun)
  have h2 := congrArg (List.map (Res.mapErr ParseError.kind)) h
  rw [List.map_map] at h2
  rw [← h2]
  refine List.map_congr_left fun r _ => ?_
  cases r with
  | err e => simp only [Function.comp, Res.mapErr, kind_eraseOpen]
  | _ => rfl

/-- `U8Seq(5, Some(U8Seq(7, None)))` and two more bytes on the counting parser: the value, and the two bytes left. -/
example (cfg : Cfg) : ∃ a st' b', (u8Seq.codec cfg 0).parse countingParser (Cursor.start [5, 0xff, 7, 0, 8, 9], 0) = .ok a st' ∧
    (u8Seq.codec cfg 0).parse (ByteParser.ops cfg.prof) (ByteParser.fromBuffer [5, 0xff, 7, 0, 8, 9]) = .ok a b' := by
  rcases C74_recursive cfg u8Seq 0 (fun _ => ⟨rfl, rfl⟩) (fun _ => rfl) [5, 0xff, 7, 0, 8, 9] (by decide) _
    (countingParser_acts _ 0) with ⟨a, st', b', h1, h2, _⟩ | ⟨e, st', h1, h2⟩
  · exact ⟨a, st', b', h1, h2⟩
  · exfalso
    have h := (u8Seq.unfold 3 0).parses cfg (acts_lawful (P := countingParser)) [5, 0xff, 7, 0, 8, 9] [] _
      ⟨0, countingParser_acts _ 0, by decide⟩
    have hd : ∃ x, (u8Seq.unfold 3 0).dec cfg [5, 0xff, 7, 0, 8, 9] = .ok x [8, 9] := ⟨_, rfl⟩
    obtain ⟨x, hd⟩ := hd
    rw [hd] at h
    obtain ⟨s', h3, _⟩ := h
    cases (u8Seq.parse_ok h3).symm.trans h1

end Props
end Verif
