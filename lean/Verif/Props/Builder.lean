import Verif.Builder
import Verif.Spec.Building
import Verif.Refine.Target
import Verif.Lemmas.Utf8
import Verif.Props.Hex
/-
C40 and the builder part of C35.
-/
namespace Verif

/-- The operations as methods of the builder types; the first component is the returned count (0 if there is none). -/
def MemoBuilder.step (m : MemoBuilder) : BuildOp → Nat × MemoBuilder
  | .pushOne b => memoTarget.pushOne b m
  | .pushMany a => memoTarget.pushMany a m
  | .pushAll a => memoTarget.pushAll a m
  | .ioWrite a => m.write a
  | .resolve => (0, memoTarget.resolve m)
  | .ioFlush => (0, m.flush)
  | .anticipate n => (0, memoTarget.anticipate n m)

def StrictBuilder.step (m : StrictBuilder) : BuildOp → Nat × StrictBuilder
  | .pushOne b => strictTarget.pushOne b m
  | .pushMany a => strictTarget.pushMany a m
  | .pushAll a => strictTarget.pushAll a m
  | .ioWrite a => m.write a
  | .resolve => (0, strictTarget.resolve m)
  | .ioFlush => (0, m.flush)
  | .anticipate n => (0, strictTarget.anticipate n m)

def MemoBuilder.start : BuildStart → MemoBuilder
  | .create => memoTarget.create
  | .new => .new
  | .empty => ops.empty
  | .fromVec a => .fromVec a
  | .promote a => ops.promote a
  | .word b => ops.word b
  | .words a => ops.words a

def StrictBuilder.start : BuildStart → StrictBuilder
  | .create => strictTarget.create
  | .new => strictTarget.create
  | .empty => ops.empty
  | .fromVec a => .fromVec a
  | .promote a => ops.promote (.fromVec a)
  | .word b => ops.word b
  | .words a => ops.words a

/-- All operations in turn; the counts they return are collected. -/
def MemoBuilder.runOps : MemoBuilder → List BuildOp → List Nat × MemoBuilder
  | m, [] => ([], m)
  | m, op :: ops => let r := m.step op; let q := runOps r.2 ops; (r.1 :: q.1, q.2)

def StrictBuilder.runOps : StrictBuilder → List BuildOp → List Nat × StrictBuilder
  | m, [] => ([], m)
  | m, op :: ops => let r := m.step op; let q := runOps r.2 ops; (r.1 :: q.1, q.2)

namespace Props

theorem memo_start (st : BuildStart) : (MemoBuilder.start st).segs.Rep { closed := [], cur := st.run } := by
  cases st with
  | create => exact .new
  | new => exact .new
  | empty => exact .fromVec []
  | fromVec a => exact .fromVec a
  | promote a => exact .fromVec a
  | word b => exact .fromVec [b]
  | words a => exact .fromVec a

theorem memo_runOps : ∀ (ops : List BuildOp) {m : MemoBuilder} {closed : List Bytes} {cur : Option Bytes},
    m.segs.Rep { closed, cur } →
    (m.runOps ops).1 = ops.map (fun op => op.bytes.length) ∧
    ∃ g, (m.runOps ops).2.segs.Rep g ∧ g.segments = closed ++ BuildOp.runs cur ops
  | [], m, closed, cur, h => ⟨rfl, _, h, by simp [Segs.segments, BuildOp.runs]⟩
  | op :: ops, m, closed, cur, h => by
    have push : ∀ a, (BuildOp.runs cur (op :: ops) = BuildOp.runs (some (cur.getD [] ++ a)) ops) → op.bytes = a →
        (m.step op).1 = a.length → (m.step op).2.segs = m.segs.extendCurrentFromSlice a →
        (m.runOps (op :: ops)).1 = (op :: ops).map (fun op => op.bytes.length) ∧
        ∃ g, (m.runOps (op :: ops)).2.segs.Rep g ∧ g.segments = closed ++ BuildOp.runs cur (op :: ops) := by
      intro a hr hb h1 h2
      obtain ⟨e1, g, e2, e3⟩ := memo_runOps ops (m := (m.step op).2) (closed := closed) (cur := some (cur.getD [] ++ a))
        (by rw [h2]; exact h.extendFromSlice a)
      exact ⟨by simp only [MemoBuilder.runOps, h1, e1, List.map_cons, hb], g, e2, by rw [e3, hr]⟩
    have cut : BuildOp.runs cur (op :: ops) = cur.toList ++ BuildOp.runs none ops → op.bytes = [] → (m.step op).1 = 0 →
        (m.step op).2.segs = m.segs.split →
        (m.runOps (op :: ops)).1 = (op :: ops).map (fun op => op.bytes.length) ∧
        ∃ g, (m.runOps (op :: ops)).2.segs.Rep g ∧ g.segments = closed ++ BuildOp.runs cur (op :: ops) := by
      intro hr hb h1 h2
      obtain ⟨e1, g, e2, e3⟩ := memo_runOps ops (m := (m.step op).2) (closed := closed ++ cur.toList) (cur := none)
        (by rw [h2]; exact h.split)
      exact ⟨by simp only [MemoBuilder.runOps, h1, e1, List.map_cons, hb, List.length_nil], g, e2,
        by rw [e3, hr, List.append_assoc]⟩
    cases op with
    | pushOne b => exact push [b] rfl rfl rfl rfl
    | pushMany a => exact push a rfl rfl rfl rfl
    | pushAll a => exact push a rfl rfl rfl rfl
    | ioWrite a => exact push a rfl rfl rfl rfl
    | resolve => exact cut rfl rfl rfl rfl
    | ioFlush => exact cut rfl rfl rfl rfl
    | anticipate n =>
      obtain ⟨e1, g, e2, e3⟩ := memo_runOps ops (m := m) h
      exact ⟨by rw [List.map_cons, ← e1]; rfl, g, e2, e3⟩

theorem runs_flatten : ∀ (ops : List BuildOp) (cur : Option Bytes),
    (BuildOp.runs cur ops).flatten = cur.getD [] ++ ops.flatMap BuildOp.bytes
  | [], cur => by cases cur <;> simp [BuildOp.runs]
  | op :: ops, cur => by
    cases op <;> cases cur <;> simp [BuildOp.runs, runs_flatten ops, BuildOp.bytes]

theorem start_run (st : BuildStart) : st.run.getD [] = st.bytes := by cases st <;> rfl

theorem memo_displayGo : ∀ (l : List Bytes) (pre : Bytes),
    MemoBuffer.displayGo (pre ++ l.flatten) (l.map List.length) pre.length =
      some (l.flatten.flatMap fun b => fmt02x b ++ ['|'])
  | [], pre => rfl
  | a :: l, pre => by
    have ih := memo_displayGo l (pre ++ a)
    simp only [List.flatten_cons, List.map_cons, MemoBuffer.displayGo, List.length_append] at ih ⊢
    rw [if_pos (by omega), ← List.append_assoc, ih]
    simp [List.flatMap_append]

theorem builder_displayGo : ∀ (l : List Bytes) (pre : Bytes),
    MemoBuilder.displayGo (pre ++ l.flatten) (l.map List.length) pre.length =
      some (l.flatMap fun a => a.flatMap fmt02x ++ ['|'])
  | [], pre => rfl
  | a :: l, pre => by
    have ih := builder_displayGo l (pre ++ a)
    simp only [List.flatten_cons, List.map_cons, MemoBuilder.displayGo, List.length_append] at ih ⊢
    rw [if_pos (by omega), ← List.append_assoc, ih]
    simp

/-- C40: however a `MemoBuilder` is made and used, its finalized buffer holds exactly the written bytes in order,
segmented into the runs between `resolve`/`flush` calls (whose lengths thus add up); every operation returns the
number of bytes it added; `len` and the conversions agree; `Display` never fails and shows the segments, and
`Display` of the finalized buffer shows the bytes. -/
theorem C40_memo_builder (st : BuildStart) (ops : List BuildOp) :
    let r := (MemoBuilder.start st).runOps ops
    let written := st.bytes ++ ops.flatMap BuildOp.bytes
    let runs := BuildOp.runs st.run ops
    r.1 = ops.map (fun op => op.bytes.length) ∧
    MemoBuilder.ops.finalize r.2 = { buf := written, lens := runs.map List.length } ∧
    runs.flatten = written ∧
    r.2.intoVec = written ∧
    MemoBuilder.ops.len r.2 = written.length ∧
    r.2.display = some (['[', '|'] ++ runs.flatMap (fun a => a.flatMap fmt02x ++ ['|']) ++ [']']) ∧
    (MemoBuilder.ops.finalize r.2).display = some (['[', '|'] ++ written.flatMap (fun b => fmt02x b ++ ['|']) ++ [']']) := by
  intro r written runs
  obtain ⟨h1, g, h2, h3⟩ := memo_runOps ops (memo_start st)
  change r.2.segs.Rep g at h2
  have hruns : runs.flatten = written := by rw [runs_flatten, start_run]
  have hg : g.segments = runs := by rw [h3]; rfl
  have hc : r.2.segs.buffer = written := by rw [h2.buffer, Segs.contents, hg, hruns]
  have hl : r.2.segs.spans.intoVec = runs.map List.length := by
    rw [← hg, ← h2.iter]
    unfold SpanBuffer.intoVec SpanBuffer.iter
    split <;> rename_i h <;> rw [h] <;> simp
  have hfin : MemoBuilder.ops.finalize r.2 = { buf := written, lens := runs.map List.length } := by
    show MemoBuffer.mk _ _ = _
    rw [← hc, ← hl]
    rfl
  refine ⟨h1, hfin, hruns, hc, by rw [← hc]; rfl, ?_, ?_⟩
  · unfold MemoBuilder.display
    rw [h2.iter, hg, hc, ← hruns]
    have := builder_displayGo runs []
    rw [List.nil_append] at this
    rw [show (0 : Nat) = ([] : Bytes).length from rfl, this]
    rfl
  · rw [hfin]
    unfold MemoBuffer.display
    have := memo_displayGo runs []
    rw [List.nil_append, hruns] at this
    rw [show (0 : Nat) = ([] : Bytes).length from rfl, this]
    rfl

theorem strict_runOps : ∀ (ops : List BuildOp) (m : StrictBuilder),
    m.runOps ops = (ops.map (fun op => op.bytes.length), ⟨m.vec ++ ops.flatMap BuildOp.bytes⟩)
  | [], m => by simp [StrictBuilder.runOps]
  | op :: ops, m => by
    cases op <;>
      simp [StrictBuilder.runOps, StrictBuilder.step, strict_runOps ops, BuildOp.bytes, strictTarget, vecTarget,
        StrictBuilder.write, StrictBuilder.flush]

/-- C40: with the same calls, `StrictBuilder` and `MemoBuilder` hold the same bytes and return the same counts. -/
theorem C40_strict_builder (st : BuildStart) (ops : List BuildOp) :
    let r := (StrictBuilder.start st).runOps ops
    let q := (MemoBuilder.start st).runOps ops
    r.1 = q.1 ∧ r.2.intoVec = q.2.intoVec ∧ StrictBuilder.ops.intoVec r.2 = MemoBuilder.ops.intoVec q.2 ∧
      StrictBuilder.ops.len r.2 = MemoBuilder.ops.len q.2 ∧ r.2.intoVec = st.bytes ++ ops.flatMap BuildOp.bytes := by
  intro r q
  obtain ⟨h1, h2, _, h4, h5, _, _⟩ := C40_memo_builder st ops
  have hr : r = (ops.map (fun op => op.bytes.length), ⟨st.bytes ++ ops.flatMap BuildOp.bytes⟩) := by
    show StrictBuilder.runOps _ _ = _
    rw [strict_runOps]
    cases st <;> rfl
  rw [hr]
  refine ⟨h1.symm, h4.symm, ?_, h5.symm, rfl⟩
  show _ = (MemoBuilder.ops.finalize q.2).buf
  rw [h2]
  rfl

/-- C40: the derived methods of both builders, in terms of the bytes held. -/
theorem C40_derived {β seg fin : Type} (B : BuilderOps β seg fin) (b : β) :
    B.intoHex b = (B.intoVec b).flatMap fmt02x ∧
    (∀ cs, B.intoBin b = some cs ↔ utf8 cs = B.intoVec b) ∧
    (B.intoBin b = none ↔ ¬ ∃ cs, utf8 cs = B.intoVec b) ∧
    (B.isEmpty b = true ↔ B.len b = 0) := by
  have hb : ∀ cs, B.intoBin b = some cs ↔ utf8 cs = B.intoVec b := by
    intro cs
    unfold BuilderOps.intoBin
    constructor
    · intro h
      simp only at h
      split at h
      · rename_i hok
        obtain ⟨cs', h'⟩ := (fromUtf8Ok_iff _).mp hok
        rw [h', lossy_utf8] at h
        cases h
        exact h'.symm
      · cases h
    · intro h
      simp only
      rw [if_pos ((fromUtf8Ok_iff _).mpr ⟨cs, h.symm⟩), ← h, lossy_utf8]
  refine ⟨hexOfBytes_flatMap _, hb, ?_, by simp [BuilderOps.isEmpty]⟩
  constructor
  · rintro h ⟨cs, hc⟩
    rw [(hb cs).mpr hc] at h
    cases h
  · intro h
    cases hx : B.intoBin b with
    | none => rfl
    | some cs => exact absurd ⟨cs, (hb cs).mp hx⟩ h

/-- C40: the documentation says that bytes "written in a single method call" are kept apart from those of other
calls; in fact consecutive calls share a segment until `resolve`/`flush`, and `Display` of the finalized buffer
does not show segments at all. -/
theorem C40_calls_not_separated : ∃ a b : List BuildOp, a.length = 1 ∧ b.length = 2 ∧
    MemoBuilder.ops.finalize ((MemoBuilder.start .create).runOps a).2 =
      MemoBuilder.ops.finalize ((MemoBuilder.start .create).runOps b).2 ∧
    (MemoBuilder.ops.finalize ((MemoBuilder.start .create).runOps [.pushOne 1, .resolve, .pushOne 2]).2).display =
      (MemoBuilder.ops.finalize ((MemoBuilder.start .create).runOps [.pushOne 1, .pushOne 2]).2).display :=
  ⟨[.pushAll [1, 2]], [.pushOne 1, .pushOne 2], by decide⟩

example : ((MemoBuilder.start (.word 7)).runOps [.resolve, .resolve, .pushAll [], .ioFlush, .pushOne 1, .pushMany [2, 3]]).2.display =
    some "[|07||010203|]".toList := by decide +kernel
example : BuildOp.runs (some [7]) [.resolve, .resolve, .pushAll [], .ioFlush, .pushOne 1, .pushMany [2, 3]] = [[7], [], [1, 2, 3]] := by
  decide

end Props

end Verif
