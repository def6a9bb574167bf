import Verif.Refine.Segments
import Verif.RecCodec
import Verif.Builder
import Verif.Refine.Backend
/-
C61: how a `MemoBuilder` partitions the encoding of a value.
-/
namespace Verif.Props
open Codec

/-- The pieces of a finalized builder: its bytes cut at the recorded lengths. -/
def pieces : Bytes → List Nat → List Bytes
  | _, [] => []
  | buf, l :: ls => buf.take l :: pieces (buf.drop l) ls

/-- The pieces one gets by writing `x` to the builder `t`; `none` is a panic. -/
def piecesOn {α : Type} (c : Codec α) (t : MemoBuilder) (x : α) : Option (List Bytes) :=
  (c.write memoTarget x t).map fun r => let m := MemoBuilder.ops.finalize r.2; pieces m.buf m.lens

/-- `x.encode::<MemoBuilder>().finalize()`, as pieces. -/
def piecesOf {α : Type} (c : Codec α) (x : α) : Option (List Bytes) :=
  (c.encode memoTarget x).map fun t => let m := MemoBuilder.ops.finalize t; pieces m.buf m.lens

theorem pieces_lengths : ∀ l : List Bytes, pieces l.flatten (l.map List.length) = l
  | [] => rfl
  | a :: l => by simp [pieces, pieces_lengths l]

theorem finalize_rep {t : MemoBuilder} {g : Segs Byte} (h : t.segs.Rep g) :
    pieces (MemoBuilder.ops.finalize t).buf (MemoBuilder.ops.finalize t).lens = g.segments := by
  have h2 : t.segs.spans.intoVec = g.segments.map List.length := by
    rw [← h.iter]
    obtain ⟨segs⟩ := t
    obtain ⟨_, spans⟩ := segs
    obtain ⟨stable, active, cache⟩ := spans
    cases active <;> simp [SpanBuffer.intoVec, SpanBuffer.iter]
  show pieces t.segs.buffer t.segs.spans.intoVec = g.segments
  rw [h2, h.buffer]
  exact pieces_lengths _

variable {cfg : Cfg}

theorem piecesOn_eq (s : Schema) (x : s.Val) {t : MemoBuilder} {g : Segs Byte} (h : t.segs.Rep g) :
    piecesOn (s.codec cfg) t x = (s.marks cfg x).map fun ms => (g.marks ms).segments := by
  have hm := s.codec_marks cfg x g t h
  unfold piecesOn
  cases hs : s.marks cfg x with
  | none => rw [hs] at hm; simp only at hm; rw [hm]; rfl
  | some ms =>
    rw [hs] at hm
    obtain ⟨n, t', hw, hr⟩ := hm
    rw [hw]
    exact congrArg some (finalize_rep hr)

theorem piecesOf_on {α : Type} (c : Codec α) (x : α) : piecesOf c x = piecesOn c MemoBuilder.new x := by
  simp only [piecesOf, piecesOn, Codec.encode]
  have hc : memoTarget.create = MemoBuilder.new := rfl
  rw [hc]
  cases c.write memoTarget x MemoBuilder.new <;> rfl

theorem piecesOf_eq (s : Schema) (x : s.Val) : piecesOf (s.codec cfg) x = (s.marks cfg x).map Mark.segments := by
  rw [piecesOf_on]
  exact piecesOn_eq s x SplitVec.Rep.new

theorem marks_of_pieces {s : Schema} {x : s.Val} {ps : List Bytes} (h : piecesOf (s.codec cfg) x = some ps) :
    ∃ ms, s.marks cfg x = some ms ∧ Mark.Closed ms ∧ Mark.segments ms = ps := by
  rw [piecesOf_eq] at h
  obtain ⟨ms, hm, rfl⟩ := Option.map_eq_some_iff.mp h
  exact ⟨ms, hm, s.marks_closed cfg x ms hm, rfl⟩

/-- All or nothing, one after the other. -/
def catAll (l : List (Option (List Bytes))) : Option (List Bytes) := (l.mapM id).map List.flatten

theorem catAll_cons (a : Option (List Bytes)) (l : List (Option (List Bytes))) :
    catAll (a :: l) = (do let x ← a; let y ← catAll l; some (x ++ y)) := by
  unfold catAll
  rw [List.mapM_cons]
  cases a with
  | none => rfl
  | some x =>
    show Option.map List.flatten ((l.mapM id).bind fun y => some (x :: y)) = (Option.map List.flatten (l.mapM id)).bind fun y => some (x ++ y)
    cases l.mapM id <;> simp

/-! ### the property -/

/-- A value of some type. -/
abbrev Item : Type := Σ s : Schema, s.Val

/-- Write values one after the other. -/
noncomputable def writeAll (cfg : Cfg) : List Item → W MemoBuilder
  | [] => W.zero
  | ⟨s, x⟩ :: l => W.add ((s.codec cfg).write memoTarget x) (writeAll cfg l)

theorem writeAll_marks (cfg : Cfg) : ∀ l : List Item,
    Marks (writeAll cfg l) ((l.mapM fun i : Item => i.1.marks cfg i.2).map List.flatten)
  | [] => Marks.zero
  | ⟨s, x⟩ :: l => ((s.codec_marks cfg x).add (writeAll_marks cfg l)).cast (by
      rw [List.mapM_cons]
      cases s.marks cfg x with
      | none => rfl
      | some a => cases l.mapM (fun i : Item => i.1.marks cfg i.2) <;> rfl)

theorem items_pieces (cfg : Cfg) : ∀ l : List Item,
    (∀ ms, (l.mapM fun i : Item => i.1.marks cfg i.2) = some ms → Mark.Closed ms.flatten) ∧
    (l.mapM fun i : Item => i.1.marks cfg i.2).map (fun m => Mark.segments m.flatten) =
      catAll (l.map fun i : Item => piecesOf (i.1.codec cfg) i.2)
  | [] => ⟨fun ms h => by cases h; rfl, rfl⟩
  | ⟨s, x⟩ :: l => by
    obtain ⟨h1, h2⟩ := items_pieces cfg l
    rw [List.map_cons, catAll_cons, ← h2, piecesOf_eq, List.mapM_cons]
    show (∀ ms, ((s.marks cfg x).bind fun a => (l.mapM fun i : Item => i.1.marks cfg i.2).bind fun b => some (a :: b)) = some ms → _) ∧ _
    cases hs : s.marks cfg x with
    | none => exact ⟨fun ms h => by (cases h), rfl⟩
    | some a =>
      have ha := s.marks_closed cfg x a hs
      generalize hl : (l.mapM fun i : Item => i.1.marks cfg i.2) = o at h1 ⊢
      cases o with
      | none => exact ⟨fun ms h => by (cases h), rfl⟩
      | some b =>
        refine ⟨fun ms h => ?_, ?_⟩
        · cases h
          exact Mark.closed_append ha (h1 b rfl)
        · show some (Mark.segments (a :: b).flatten) = some (Mark.segments a ++ Mark.segments b.flatten)
          rw [List.flatten_cons, Mark.segments_append ha]

/-- C61: values written to one builder one after the other do not share pieces: its pieces are those of the first
value, then those of the second, and so on. -/
theorem C61_sequence (cfg : Cfg) (l : List Item) :
    ((writeAll cfg l MemoBuilder.new).map fun r =>
      pieces (MemoBuilder.ops.finalize r.2).buf (MemoBuilder.ops.finalize r.2).lens) =
    catAll (l.map fun i : Item => piecesOf (i.1.codec cfg) i.2) := by
  rw [← (items_pieces cfg l).2]
  have hm := writeAll_marks cfg l .empty MemoBuilder.new SplitVec.Rep.new
  cases hs : (l.mapM fun i : Item => i.1.marks cfg i.2) with
  | none => rw [hs] at hm; simp only [Option.map_none] at hm; rw [hm]; rfl
  | some ms =>
    rw [hs] at hm
    obtain ⟨n, t', hw, hr⟩ := hm
    rw [hw]
    exact congrArg some (finalize_rep hr)

/-- C61: the pieces make up the encoding. -/
theorem C61_whole (cfg : Cfg) (s : Schema) (x : s.Val) :
    (piecesOf (s.codec cfg) x).map List.flatten = (s.codec cfg).toBytes x := by
  have h1 := s.writes_out cfg memoTargetLawful x [] MemoBuilder.new ⟨_, SplitVec.Rep.new, rfl⟩
  rw [Writes.toBytes (s.writes_out cfg), piecesOf_on]
  unfold piecesOn
  cases he : s.out cfg x with
  | none => rw [he] at h1; simp only at h1; rw [h1]; rfl
  | some e =>
    rw [he] at h1
    obtain ⟨t', hw, g, hr, hc⟩ := h1
    rw [hw]
    show some (pieces (MemoBuilder.ops.finalize t').buf (MemoBuilder.ops.finalize t').lens).flatten = some e
    rw [finalize_rep hr]
    exact congrArg some hc

/-- Types whose values are written in one go. -/
def isLeaf : Schema → Bool
  | .bool | .int _ | .f64 | .rangedInt _ _ _ | .rangedFloat _ _ | .zarithN | .zarithZ | .bytes | .vecU8 | .string
  | .fixedBytes _ | .fixedString _ | .cstyle _ _ => true
  | _ => false

/-- C61: a number, text, byte string or plain tag is one piece (also if it is empty). -/
theorem C61_leaf (cfg : Cfg) (s : Schema) (hs : isLeaf s = true) (x : s.Val) :
    piecesOf (s.codec cfg) x = ((s.codec cfg).toBytes x).map fun b => [b] := by
  have key : ∀ e : Option Bytes, (∀ ms, s.marks cfg x = some ms → ∃ b, Mark.segments ms = [b]) →
      (piecesOf (s.codec cfg) x) = ((piecesOf (s.codec cfg) x).map List.flatten).map fun b => [b] := by
    intro _ h
    rw [piecesOf_eq]
    cases hm : s.marks cfg x with
    | none => rfl
    | some ms =>
      obtain ⟨b, hb⟩ := h ms hm
      simp [hb]
  rw [← C61_whole]
  refine key none fun ms hm => ?_
  cases s <;> simp only [isLeaf, Bool.false_eq_true] at hs <;> try (cases hm; exact ⟨_, Mark.segments_put _⟩)
  obtain ⟨b, _, rfl⟩ := Option.map_eq_some_iff.mp hm
  exact ⟨b, by rw [Mark.segments_cut]; exact Mark.segments_put b⟩

/-- C61: the unit value leaves no piece. -/
theorem C61_unit (cfg : Cfg) (x : Schema.unit.Val) : piecesOf (Schema.unit.codec cfg) x = some [] := by
  rw [piecesOf_eq]
  rfl

/-- The fields of a record with their types. -/
def fieldItems : (fs : Fields) → fs.Val → List Item
  | .nil, _ => []
  | .cons s fs, x => ⟨s, x.1⟩ :: fieldItems fs x.2

theorem fields_marks (cfg : Cfg) : ∀ (fs : Fields) (x : fs.Val),
    fs.marks cfg x = ((fieldItems fs x).mapM fun i : Item => i.1.marks cfg i.2).map List.flatten
  | .nil, _ => rfl
  | .cons s fs, x => by
    show (do let a ← s.marks cfg x.1; let b ← fs.marks cfg x.2; pure (a ++ b)) = _
    show _ = (((⟨s, x.1⟩ :: fieldItems fs x.2 : List Item)).mapM fun i : Item => i.1.marks cfg i.2).map List.flatten
    rw [List.mapM_cons, fields_marks cfg fs x.2]
    cases s.marks cfg x.1 with
    | none => rfl
    | some a => cases (fieldItems fs x.2).mapM (fun i : Item => i.1.marks cfg i.2) <;> rfl

/-- C61: the pieces of a record are those of its fields, in order. -/
theorem C61_record (cfg : Cfg) (fs : Fields) (x : (Schema.record fs).Val) :
    piecesOf ((Schema.record fs).codec cfg) x = catAll ((fieldItems fs x).map fun i : Item => piecesOf (i.1.codec cfg) i.2) := by
  rw [piecesOf_eq, ← (items_pieces cfg _).2]
  refine (congrArg (fun o => Option.map Mark.segments (Option.map (· ++ [Mark.cut]) o)) (fields_marks cfg fs x)).trans ?_
  cases (fieldItems fs x).mapM (fun i : Item => i.1.marks cfg i.2) with
  | none => rfl
  | some ms => simp [Mark.segments_cut]

theorem list_pieces (cfg : Cfg) (s : Schema) (xs : List s.Val) :
    ((xs.mapM (s.marks cfg)).map (·.flatten ++ [Mark.cut])).map Mark.segments =
      catAll (xs.map (piecesOf (s.codec cfg))) := by
  have h := (items_pieces cfg (xs.map fun x => ⟨s, x⟩)).2
  rw [List.map_map] at h
  have e : ∀ ys : List s.Val, ((ys.map fun x => (⟨s, x⟩ : Item)).mapM fun i : Item => i.1.marks cfg i.2) = ys.mapM (s.marks cfg) := by
    intro ys
    induction ys with
    | nil => rfl
    | cons y ys ih => rw [List.map_cons, List.mapM_cons, List.mapM_cons, ih]
  rw [e] at h
  refine Eq.trans ?_ h
  cases xs.mapM (s.marks cfg) with
  | none => rfl
  | some ms => simp [Mark.segments_cut]

/-- C61: the pieces of a sequence are those of its elements, in order. -/
theorem C61_list (cfg : Cfg) (s : Schema) (xs : List s.Val) (n : Nat) :
    piecesOf ((Schema.seq s).codec cfg) xs = catAll (xs.map (piecesOf (s.codec cfg))) ∧
    piecesOf ((Schema.fixSeq n s).codec cfg) xs = catAll (xs.map (piecesOf (s.codec cfg))) ∧
    piecesOf ((Schema.limSeq n s).codec cfg) xs = catAll (xs.map (piecesOf (s.codec cfg))) :=
  ⟨(piecesOf_eq (.seq s) xs).trans (list_pieces cfg s xs), (piecesOf_eq (.fixSeq n s) xs).trans (list_pieces cfg s xs),
    (piecesOf_eq (.limSeq n s) xs).trans (list_pieces cfg s xs)⟩

/-- C61: a length prefix is a piece of its own in front of those of the payload. -/
theorem C61_dynamic (cfg : Cfg) (S : LenPref) (s : Schema) (x : s.Val) (out : Bytes)
    (ho : ((Schema.dynamic S s).codec cfg).toBytes x = some out) :
    ∃ ps, piecesOf (s.codec cfg) x = some ps ∧
      piecesOf ((Schema.dynamic S s).codec cfg) x = some (out.take S.len :: ps) := by
  have hw := C61_whole cfg (.dynamic S s) x
  rw [ho] at hw
  obtain ⟨qs, hq, hf⟩ := Option.map_eq_some_iff.mp hw
  obtain ⟨ms, hm, _, hseg⟩ := marks_of_pieces hq
  obtain ⟨l, _, hm⟩ := Option.bind_eq_some_iff.mp hm
  split at hm
  · obtain ⟨m, hm', hm⟩ := Option.bind_eq_some_iff.mp hm
    cases hm
    refine ⟨Mark.segments m, ?_, ?_⟩
    · rw [piecesOf_eq, hm']; rfl
    · have hlen : (toBe S.len l).length = S.len := by simp
      have h1 : qs = toBe S.len l :: Mark.segments m := by
        rw [← hseg]
        have hcl : Mark.Closed (Mark.leaf (toBe S.len l) ++ if S = LenPref.u30 then [Mark.cut] else []) := by
          split
          · exact Mark.closed_cut _
          · rw [List.append_nil]; exact Mark.closed_leaf _
        rw [Mark.segments_append hcl, Mark.segments_cut]
        have : Mark.segments (Mark.leaf (toBe S.len l) ++ if S = LenPref.u30 then [Mark.cut] else []) = [toBe S.len l] := by
          split
          · rw [Mark.segments_cut]; exact Mark.segments_put _
          · rw [List.append_nil]; exact Mark.segments_put _
        rw [this]
        rfl
      have h2 : out.take S.len = toBe S.len l := by
        rw [← hf, h1, List.flatten_cons, List.take_left' hlen]
      rw [h2, hq, h1]
  · cases hm

/-- The arm of an enum value: its tag, and the payload with its type. -/
def armItem : (vs : Variants) → vs.Val → Nat × Item
  | .nil, x => nomatch x
  | .cons tag s _, .inl x => (tag, ⟨s, x⟩)
  | .cons _ _ vs, .inr y => armItem vs y

theorem arm_pieces (cfg : Cfg) (w : TagWidth) : ∀ (vs : Variants) (x : vs.Val), (vs.marks cfg w x).map Mark.segments =
    (piecesOf ((armItem vs x).2.1.codec cfg) (armItem vs x).2.2).map (toBe w.len (armItem vs x).1 :: ·)
  | .nil, x => nomatch x
  | .cons _ _ vs, .inr y => arm_pieces cfg w vs y
  | .cons tag s vs, .inl x => by
    show Option.map _ ((s.marks cfg x).map fun m => Mark.leaf (toBe w.len tag) ++ (m ++ [.cut])) =
      (piecesOf (s.codec cfg) x).map (toBe w.len tag :: ·)
    rw [piecesOf_eq]
    cases s.marks cfg x with
    | none => rfl
    | some m =>
      simp only [Option.map_some, Option.some.injEq]
      rw [Mark.segments_append (Mark.closed_leaf _), Mark.segments_cut]
      exact congrArg (· ++ Mark.segments m) (Mark.segments_put _)

/-- C61: the tag of an enum is a piece of its own in front of those of the payload. -/
theorem C61_data (cfg : Cfg) (w : TagWidth) (vs : Variants) (x : (Schema.data w vs).Val) :
    piecesOf ((Schema.data w vs).codec cfg) x =
      (piecesOf ((armItem vs x).2.1.codec cfg) (armItem vs x).2.2).map (toBe w.len (armItem vs x).1 :: ·) := by
  rw [piecesOf_eq]
  show Option.map Mark.segments (vs.marks cfg w x) = _
  revert x
  show ∀ x : vs.Val, _
  exact arm_pieces cfg w vs

/-- C61: the padding is a piece of its own behind those of the payload. -/
theorem C61_padded (cfg : Cfg) (n : Nat) (s : Schema) (x : s.Val) :
    piecesOf ((Schema.padded n s).codec cfg) x = (piecesOf (s.codec cfg) x).map (· ++ [List.replicate n 0]) := by
  rw [piecesOf_eq (.padded n s) x, piecesOf_eq]
  show Option.map _ ((s.marks cfg x).map (· ++ Mark.leaf (List.replicate n 0))) = _
  cases hm : s.marks cfg x with
  | none => rfl
  | some m =>
    simp only [Option.map_some, Option.some.injEq]
    rw [Mark.segments_append (s.marks_closed cfg x m hm)]
    exact congrArg (Mark.segments m ++ ·) (Mark.segments_put _)

/-- C61: boxes, virtual padding and present fields without tag add nothing; an absent field leaves no piece. -/
theorem C61_transparent (cfg : Cfg) (n : Nat) (s : Schema) (x : s.Val) :
    piecesOf ((Schema.autobox s).codec cfg) x = piecesOf (s.codec cfg) x ∧
    piecesOf ((Schema.vpadded n s).codec cfg) x = piecesOf (s.codec cfg) x ∧
    piecesOf ((Schema.nullable s).codec cfg) (some x : Option s.Val) = piecesOf (s.codec cfg) x ∧
    piecesOf ((Schema.nullable s).codec cfg) (none : Option s.Val) = some [] := by
  refine ⟨rfl, rfl, ?_, ?_⟩
  · rw [piecesOf_eq (.nullable s) (some x : Option s.Val), piecesOf_eq]
    show Option.map _ ((s.marks cfg x).map (· ++ [.cut])) = _
    cases s.marks cfg x with
    | none => rfl
    | some m => simp [Mark.segments_cut]
  · rw [piecesOf_eq (.nullable s) (none : Option s.Val)]
    rfl

theorem segments_open_put (b : Byte) : ∀ (ms : List Mark) (bs : Bytes), ∃ p ps,
    Mark.segments (.put bs :: ms) = p :: ps ∧ Mark.segments ([.put [b]] ++ .put bs :: ms) = (b :: p) :: ps := by
  suffices gen : ∀ (ms : List Mark) (bs : Bytes), ∃ p ps,
      (Segs.marks { closed := [], cur := some bs } ms).segments = p :: ps ∧
      (Segs.marks { closed := [], cur := some (b :: bs) } ms).segments = (b :: p) :: ps from fun ms bs => gen ms bs
  intro ms
  induction ms with
  | nil => intro bs; exact ⟨bs, [], rfl, rfl⟩
  | cons m ms ih =>
    intro bs
    cases m with
    | put cs => exact ih (bs ++ cs)
    | cut =>
      refine ⟨bs, (Segs.empty.marks ms).segments, ?_, ?_⟩
      · show ((Segs.behind [bs] Segs.empty).marks ms).segments = _
        rw [Segs.marks_behind]
        rfl
      · show ((Segs.behind [b :: bs] Segs.empty).marks ms).segments = _
        rw [Segs.marks_behind]
        rfl

theorem segments_open (b : Byte) : ∀ ms : List Mark, Mark.Closed ms →
    (∃ p ps, Mark.segments ms = p :: ps ∧ Mark.segments ([.put [b]] ++ ms) = (b :: p) :: ps) ∨
    Mark.segments ([.put [b]] ++ ms) = [b] :: Mark.segments ms := by
  intro ms
  cases ms with
  | nil => intro _; exact .inr rfl
  | cons m ms =>
    intro _
    cases m with
    | cut =>
      right
      show ((Segs.behind [[b]] Segs.empty).marks ms).segments = _
      rw [Segs.marks_behind]
      rfl
    | put bs => exact .inl (segments_open_put b ms bs)

/-- C61: the tag of `Some` is put in front of the first piece of the payload, or is a piece of its own; that of `None`
is a piece. -/
theorem C61_option (cfg : Cfg) (s : Schema) (x : s.Val) :
    piecesOf ((Schema.option s).codec cfg) (none : Option s.Val) = some [[0x00]] ∧
    (piecesOf (s.codec cfg) x = none → piecesOf ((Schema.option s).codec cfg) (some x : Option s.Val) = none) ∧
    (∀ ps, piecesOf (s.codec cfg) x = some ps →
      (∃ p qs, ps = p :: qs ∧
        piecesOf ((Schema.option s).codec cfg) (some x : Option s.Val) = some ((0xff :: p) :: qs)) ∨
      piecesOf ((Schema.option s).codec cfg) (some x : Option s.Val) = some ([0xff] :: ps)) := by
  have hsome : piecesOf ((Schema.option s).codec cfg) (some x : Option s.Val) =
      (s.marks cfg x).map fun m => Mark.segments ([.put [0xff]] ++ m) := by
    rw [piecesOf_eq (.option s) (some x : Option s.Val)]
    show Option.map _ ((s.marks cfg x).map fun m => [Mark.put [0xff]] ++ m ++ [.cut]) = _
    rw [Option.map_map]
    congr 1
    funext m
    exact Mark.segments_cut
  refine ⟨?_, fun h => ?_, fun ps h => ?_⟩
  · rw [piecesOf_eq (.option s) (none : Option s.Val)]
    exact congrArg some (Mark.segments_put _)
  · rw [piecesOf_eq, Option.map_eq_none_iff] at h
    rw [hsome, h]
    rfl
  · obtain ⟨ms, hm, hc, rfl⟩ := marks_of_pieces h
    rw [hsome, hm]
    rcases segments_open 0xff ms hc with ⟨p, qs, h1, h2⟩ | h2
    · exact .inl ⟨p, qs, h1, congrArg some h2⟩
    · exact .inr (congrArg some h2)

/-- Types whose values are written starting with bytes. -/
def startsWithBytes : Schema → Bool
  | .dynamic _ _ | .data _ _ => true
  | .autobox s => startsWithBytes s
  | .vpadded _ s => startsWithBytes s
  | .padded _ s => startsWithBytes s
  | s => isLeaf s

theorem arm_put (cfg : Cfg) (w : TagWidth) : ∀ (vs : Variants) (x : vs.Val) (ms : List Mark),
    vs.marks cfg w x = some ms → ∃ b ms', ms = .put b :: ms'
  | .nil, x, _, _ => nomatch x
  | .cons _ _ vs, .inr y, ms, hm => arm_put cfg w vs y ms hm
  | .cons _ _ _, .inl _, _, hm => by
    obtain ⟨m, _, rfl⟩ := Option.map_eq_some_iff.mp hm
    exact ⟨_, _, rfl⟩

theorem starts_put (cfg : Cfg) : ∀ (s : Schema), startsWithBytes s = true → ∀ (x : s.Val) (ms : List Mark),
    s.marks cfg x = some ms → ∃ b ms', ms = .put b :: ms'
  | .autobox s, hs, x, ms, hm => starts_put cfg s hs x ms hm
  | .vpadded _ s, hs, x, ms, hm => starts_put cfg s hs x ms hm
  | .padded n s, hs, x, ms, hm => by
    obtain ⟨m, hm', rfl⟩ := Option.map_eq_some_iff.mp hm
    obtain ⟨b, m', rfl⟩ := starts_put cfg s hs x m hm'
    exact ⟨b, _, rfl⟩
  | .dynamic S s, _, x, ms, hm => by
    obtain ⟨l, _, hm⟩ := Option.bind_eq_some_iff.mp hm
    split at hm
    · obtain ⟨m, _, hm⟩ := Option.bind_eq_some_iff.mp hm
      cases hm
      exact ⟨_, _, rfl⟩
    · cases hm
  | .data w vs, _, x, ms, hm => by
    exact arm_put cfg w vs x ms hm
  | .rangedInt _ _ _, _, x, ms, hm => by
    obtain ⟨m, _, rfl⟩ := Option.map_eq_some_iff.mp hm
    exact ⟨_, _, rfl⟩
  | .bool, _, x, ms, hm | .int _, _, x, ms, hm | .f64, _, x, ms, hm | .rangedFloat _ _, _, x, ms, hm
  | .zarithN, _, x, ms, hm | .zarithZ, _, x, ms, hm | .bytes, _, x, ms, hm | .vecU8, _, x, ms, hm
  | .string, _, x, ms, hm | .fixedBytes _, _, x, ms, hm | .fixedString _, _, x, ms, hm | .cstyle _ _, _, x, ms, hm => by
    cases hm
    exact ⟨_, _, rfl⟩

/-- C61: in front of a payload that starts with bytes, the tag of `Some` is never a piece of its own. -/
theorem C61_option_glued (cfg : Cfg) (s : Schema) (hs : startsWithBytes s = true) (x : s.Val) :
    ∀ ps, piecesOf (s.codec cfg) x = some ps → ∃ p qs, ps = p :: qs ∧
      piecesOf ((Schema.option s).codec cfg) (some x : Option s.Val) = some ((0xff :: p) :: qs) := by
  intro ps h
  obtain ⟨ms, hm, hc, rfl⟩ := marks_of_pieces h
  obtain ⟨b, ms', rfl⟩ := starts_put cfg s hs x ms hm
  rw [piecesOf_eq (.option s) (some x : Option s.Val)]
  show ∃ p qs, _ ∧ Option.map _ ((s.marks cfg x).map fun m => [Mark.put [0xff]] ++ m ++ [.cut]) = _
  rw [hm]
  obtain ⟨p, qs, h1, h2⟩ := segments_open_put 0xff ms' b
  refine ⟨p, qs, h1, congrArg some ?_⟩
  exact Mark.segments_cut.trans h2

/-- C61: in front of a payload that starts with something empty it is. -/
theorem C61_option_alone (cfg : Cfg) :
    piecesOf ((Schema.option (.record (.cons (.nullable (.int .u8)) (.cons (.int .u8) .nil)))).codec cfg)
      (some ((none : Option (BitVec 8)), (5 : BitVec 8), ()) : Option (Option (BitVec 8) × BitVec 8 × Unit)) = some [[0xff], [5]] ∧
    piecesOf ((Schema.option .unit).codec cfg) (some () : Option Unit) = some [[0xff]] ∧
    piecesOf ((Schema.option (.seq (.int .u8))).codec cfg) (some [(7 : BitVec 8)] : Option (List (BitVec 8))) = some [[0xff, 7]] ∧
    piecesOf ((Schema.option (.seq (.int .u8))).codec cfg) (some ([] : List (BitVec 8)) : Option (List (BitVec 8))) = some [[0xff]] :=
  ⟨(piecesOf_eq _ _).trans rfl, (piecesOf_eq _ _).trans rfl, (piecesOf_eq _ _).trans rfl, (piecesOf_eq _ _).trans rfl⟩

/-- C61 for recursive types: the pieces of a value are those of the value as one of any unfolding that has it. -/
theorem C61_recursive (cfg : Cfg) (d : Decls) (i n : Nat) (x : (d.unfold n i).Val) :
    piecesOf (d.codec cfg i) (d.val n x) = piecesOf ((d.unfold n i).codec cfg) x := rfl

/-- Non-vacuity of `C61_dynamic` and `C61_leaf`, and all the rules at once: a record of a number, a byte string with a
length prefix, an optional enum and a padded Boolean. -/
example : ∀ cfg : Cfg, cfg.encLenOverride = false →
    ((Schema.dynamic .u30 (.seq (.int .u16))).codec cfg).toBytes [(0x0102 : BitVec 16), (0x0304 : BitVec 16)] =
      some [0, 0, 0, 4, 1, 2, 3, 4] ∧
    piecesOf ((Schema.dynamic .u30 (.seq (.int .u16))).codec cfg) [(0x0102 : BitVec 16), (0x0304 : BitVec 16)] =
      some [[0, 0, 0, 4], [1, 2], [3, 4]] ∧
    piecesOf ((Schema.record (.cons (.int .u8) (.cons (.dynamic .u8 .bytes)
        (.cons (.option (.data .u8 (.cons 3 (.int .u16) .nil))) (.cons (.padded 2 .bool) .nil))))).codec cfg)
      ((7 : BitVec 8), ([8, 9] : Bytes), (some (.inl (0x0102 : BitVec 16)) : Option (BitVec 16 ⊕ Empty)), true, ()) =
      some [[7], [2], [8, 9], [0xff, 3], [1, 2], [0xff], [0, 0]] ∧
    isLeaf .bytes = true := by
  rintro ⟨_, _, _, _⟩ rfl
  exact ⟨(Writes.toBytes (Schema.writes_out _ _) _).trans rfl, (piecesOf_eq _ _).trans rfl, (piecesOf_eq _ _).trans rfl, rfl⟩

/-- Two values in a row. -/
example (cfg : Cfg) :
    ((writeAll cfg [⟨.bool, true⟩, ⟨.option (.int .u8), (some (1 : BitVec 8) : Option (BitVec 8))⟩] MemoBuilder.new).map
      fun r => pieces (MemoBuilder.ops.finalize r.2).buf (MemoBuilder.ops.finalize r.2).lens) =
      some [[0xff], [0xff, 1]] :=
  (C61_sequence cfg _).trans (congr (congrArg (fun a b => catAll [a, b]) ((piecesOf_eq (cfg := cfg) .bool true).trans rfl))
    ((piecesOf_eq (.option (.int .u8)) (some (1 : BitVec 8) : Option (BitVec 8))).trans rfl))

end Verif.Props
