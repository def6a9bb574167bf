import Verif.StateText
import Verif.Lemmas.ErrorText
import Verif.Props.CompareBuilders
/-
C91: `{:?}` of parsers and builders.
-/
namespace Verif.Props

/-! ### cutting texts -/

private theorem bytes_cut {a b : Bytes} {x y : Text} (h : DebugOf.bytes a ++ x = DebugOf.bytes b ++ y) : a = b ∧ x = y := by
  obtain ⟨h₁, h₂⟩ := debugList_cut h
  exact ⟨toNat_inj h₁, h₂⟩

private theorem offset_cut {a b : ContextOffset} {x y : Text} (h : a.debug ++ x = b.debug ++ y) : a = b ∧ x = y := by
  obtain ⟨abs, fr, cur⟩ := a
  obtain ⟨abs', fr', cur'⟩ := b
  simp only [ContextOffset.debug, DebugOf.usize, DebugOf.frames, DebugOf.index, DebugOf.tuple, List.append_assoc,
    List.append_cancel_left_eq] at h
  obtain ⟨rfl, h⟩ := decimal_cut (by rfl) (by rfl) h
  simp only [List.append_cancel_left_eq] at h
  obtain ⟨h₁, h⟩ := debugList_cut h
  simp only [List.append_cancel_left_eq] at h
  obtain ⟨rfl, h⟩ := decimal_cut (by rfl) (by rfl) h
  simp only [List.append_cancel_left_eq] at h
  exact ⟨by rw [List.reverse_inj.mp h₁], h⟩

private theorem view_cut {a b : Bytes} {x y : Text} (h : DebugOf.sliceBuffer a ++ x = DebugOf.sliceBuffer b ++ y) :
    a = b ∧ x = y := by
  simp only [DebugOf.sliceBuffer, DebugOf.tuple, List.append_assoc, List.append_cancel_left_eq] at h
  obtain ⟨rfl, h⟩ := bytes_cut h
  simp only [List.append_cancel_left_eq] at h
  exact ⟨rfl, h⟩

private theorem commas_cons (t t' : Text) (ts : List Text) :
    DebugOf.commas (t :: t' :: ts) = t ++ [',', ' '] ++ DebugOf.commas (t' :: ts) := rfl

private theorem sliceBuffer_head (b : Bytes) : ∃ r, DebugOf.sliceBuffer b = 'S' :: r := ⟨_, rfl⟩

private theorem views_cut : ∀ {a b : List Bytes} {x y : Text},
    DebugOf.commas (a.map DebugOf.sliceBuffer) ++ ']' :: x = DebugOf.commas (b.map DebugOf.sliceBuffer) ++ ']' :: y →
    a = b ∧ x = y
  | [], [], _, _, h => by simpa [DebugOf.commas] using h
  | [], b :: bs, _, _, h => by
    obtain ⟨r, hr⟩ := sliceBuffer_head b
    cases bs <;> simp [DebugOf.commas, hr] at h
  | a :: as, [], _, _, h => by
    obtain ⟨r, hr⟩ := sliceBuffer_head a
    cases as <;> simp [DebugOf.commas, hr] at h
  | [a], [b], _, _, h => by
    obtain ⟨e, h⟩ := view_cut (a := a) (b := b) h
    exact ⟨by rw [e], (List.cons.inj h).2⟩
  | [a], b :: b' :: bs, x, y, h => by
    simp only [List.map_cons, commas_cons, List.map_nil, DebugOf.commas, List.append_assoc] at h
    have := (view_cut h).2
    simp at this
  | a :: a' :: as, [b], x, y, h => by
    simp only [List.map_cons, commas_cons, List.map_nil, DebugOf.commas, List.append_assoc] at h
    have := (view_cut h).2
    simp at this
  | a :: a' :: as, b :: b' :: bs, x, y, h => by
    simp only [List.map_cons, commas_cons, List.append_assoc] at h
    obtain ⟨rfl, h⟩ := view_cut h
    simp only [List.append_cancel_left_eq] at h
    obtain ⟨e, h⟩ := views_cut (a := a' :: as) (b := b' :: bs) (by simpa using h)
    exact ⟨by rw [e], h⟩

/-! ### parsers -/

/-- C91: `ByteParser`s print alike exactly if they have the same bytes, position and windows; so calls to them have the
same results. -/
theorem C91_byteparser (a b : ByteParser) :
    a.debug = b.debug ↔ a.buffer = b.buffer ∧ a.off.cur = b.off.cur ∧ a.off.frames = b.off.frames ∧ a.off.abs = b.off.abs := by
  obtain ⟨buf, o⟩ := a
  obtain ⟨buf', o'⟩ := b
  constructor
  · intro h
    simp only [ByteParser.debug, List.append_assoc, List.append_cancel_left_eq] at h
    obtain ⟨rfl, h⟩ := bytes_cut h
    simp only [List.append_cancel_left_eq] at h
    obtain ⟨rfl, -⟩ := offset_cut h
    exact ⟨rfl, rfl, rfl, rfl⟩
  · rintro ⟨h1, h2, h3, h4⟩
    obtain ⟨_, _, _⟩ := o
    obtain ⟨_, _, _⟩ := o'
    simp only at h1 h2 h3 h4
    subst h1 h2 h3 h4
    rfl

/-- C91: the same for `MemoParser`s, and their logs are the same. -/
theorem C91_memoparser (a b : MemoParser) :
    a.debug = b.debug ↔ a.toByte.debug = b.toByte.debug ∧ a.munches = b.munches := by
  obtain ⟨buf, o, m⟩ := a
  obtain ⟨buf', o', m'⟩ := b
  constructor
  · intro h
    simp only [MemoParser.debug, List.append_assoc, List.append_cancel_left_eq] at h
    obtain ⟨rfl, h⟩ := bytes_cut h
    simp only [List.append_cancel_left_eq] at h
    obtain ⟨rfl, h⟩ := offset_cut h
    simp only [List.append_cancel_left_eq] at h
    obtain ⟨rfl, -⟩ := debugList_cut h
    exact ⟨rfl, rfl⟩
  · rintro ⟨h, e⟩
    simp only [MemoParser.toByte, ByteParser.debug, List.append_assoc, List.append_cancel_left_eq] at h e
    obtain ⟨rfl, h⟩ := bytes_cut h
    simp only [List.append_cancel_left_eq] at h
    obtain ⟨rfl, -⟩ := offset_cut h
    rw [e]

/-- C91: `SliceParser`s print alike exactly if the bytes left in each of their windows are the same. -/
theorem C91_sliceparser (a b : SliceParser) : a.debug = b.debug ↔ a.views = b.views := by
  constructor
  · intro h
    simp only [SliceParser.debug, List.append_assoc, List.append_cancel_left_eq] at h
    exact List.reverse_inj.mp (views_cut h).1
  · intro h
    rw [SliceParser.debug, SliceParser.debug, h]

/-- C91: parsers that print alike behave alike from then on. -/
theorem C91_same_future (α : Type) :
    (∀ (a b : ByteParser) (m : M ByteParser ParseError α), a.debug = b.debug → m a = m b) ∧
    (∀ (a b : MemoParser) (m : M MemoParser ParseError α), a.debug = b.debug → m a = m b) ∧
    (∀ (a b : SliceParser) (m : M SliceParser ParseError α), a.debug = b.debug → m a = m b) := by
  have hb : ∀ a b : ByteParser, a.debug = b.debug → a = b := by
    rintro ⟨_, _, _, _⟩ ⟨_, _, _, _⟩ h
    obtain ⟨h1, h2, h3, h4⟩ := (C91_byteparser _ _).mp h
    simp only at h1 h2 h3 h4
    subst h1 h2 h3 h4; rfl
  refine ⟨fun a b m h => by rw [hb a b h], fun a b m h => ?_, fun a b m h => ?_⟩
  · obtain ⟨h1, h2⟩ := (C91_memoparser a b).mp h
    have h1 := hb _ _ h1
    obtain ⟨_, _, _⟩ := a
    obtain ⟨_, _, _⟩ := b
    simp only [MemoParser.toByte, ByteParser.mk.injEq] at h1 h2
    rw [h1.1, h1.2, h2]
  · have h := (C91_sliceparser a b).mp h
    obtain ⟨_⟩ := a
    obtain ⟨_⟩ := b
    simp only at h
    rw [h]

/-- C91: a new parser prints its bytes, no windows and position 0. -/
theorem C91_fresh (buf : Bytes) :
    (ByteParser.fromBuffer buf).debug = text! "ByteParser { buffer: " ++ debugList (buf.map (·.toNat)) ++
      text! ", offset: ContextOffset { abs: " ++ decimal buf.length ++
      text! ", frames: FrameStack([]), cur: Index(0) } }" ∧
    (MemoParser.fromBuffer buf).debug = text! "MemoParser { buffer: " ++ debugList (buf.map (·.toNat)) ++
      text! ", offset: ContextOffset { abs: " ++ decimal buf.length ++
      text! ", frames: FrameStack([]), cur: Index(0) }, munches: [] }" ∧
    (SliceParser.fromBuffer buf).debug = text! "SliceParser { view_stack: [SliceBuffer(" ++
      debugList (buf.map (·.toNat)) ++ text! ")] }" := by
  have h0 : decimal 0 = ['0'] := by rw [decimal]; rfl
  refine ⟨?_, ?_, ?_⟩
  · simp [ByteParser.debug, ContextOffset.debug, ByteParser.fromBuffer, ContextOffset.withLimit, DebugOf.frames,
      DebugOf.index, DebugOf.usize, DebugOf.tuple, DebugOf.bytes, debugList, debugItems, h0]
  · simp [MemoParser.debug, ContextOffset.debug, MemoParser.fromBuffer, ContextOffset.withLimit, DebugOf.frames,
      DebugOf.index, DebugOf.usize, DebugOf.tuple, DebugOf.bytes, debugList, debugItems, h0]
  · simp [SliceParser.debug, SliceParser.fromBuffer, DebugOf.commas, DebugOf.sliceBuffer, DebugOf.tuple, DebugOf.bytes]

/-! ### segments -/

private def segText (segs : List Bytes) : Text := segs.flatMap (fun s => debugList (s.map (·.toNat)) ++ ['|']) ++ [']']

private theorem segText_eq : ∀ segs : List Bytes, debugSpans segs.flatten (segs.map List.length) = some (segText segs)
  | [] => rfl
  | s :: segs => by simp [debugSpans, segText_eq segs, segText]

private theorem segText_cut : ∀ {a b : List Bytes} {x y : Text}, segText a ++ x = segText b ++ y → a = b
  | [], [], _, _, _ => rfl
  | [], b :: bs, x, y, h => by simp [segText, debugList] at h
  | a :: as, [], x, y, h => by simp [segText, debugList] at h
  | a :: as, b :: bs, x, y, h => by
    have h' : debugList (a.map (·.toNat)) ++ ('|' :: (segText as ++ x)) =
        debugList (b.map (·.toNat)) ++ ('|' :: (segText bs ++ y)) := by
      simpa [segText] using h
    obtain ⟨h₁, h₂⟩ := debugList_cut h'
    rw [toNat_inj h₁, segText_cut (List.cons.inj h₂).2]

private theorem rep_text {s : SplitVec Byte} {g : Segs Byte} (h : s.Rep g) :
    s.debug = some (text! "[|" ++ segText g.segments) := by
  rw [SplitVec.debug, h.iter, h.buffer, Segs.contents, segText_eq]
  rfl

/-- C91: however segmented buffers came about, printing them does not fail, and they print alike exactly if their
segments are the same. -/
theorem C91_segments (p q : Profile) (ops ops' : List (SegOp Byte)) (m m' : Nat → SplitVec Byte)
    (h : SplitVec.run p ops (fun _ => .new) = some m) (h' : SplitVec.run q ops' (fun _ => .new) = some m') (i j : Nat) :
    (m i).debug = some (text! "[|" ++ ((Segs.run ops (fun _ => .empty) i).segments.flatMap fun s =>
      debugList (s.map (·.toNat)) ++ ['|']) ++ [']']) ∧
    ((m i).debug = (m' j).debug ↔
      (Segs.run ops (fun _ => .empty) i).segments = (Segs.run ops' (fun _ => .empty) j).segments) := by
  obtain ⟨n, hn, hr⟩ := SplitVec.run_rep p ops (m := fun _ => .new) (g := fun _ => .empty) (fun _ => .new)
  obtain ⟨n', hn', hr'⟩ := SplitVec.run_rep q ops' (m := fun _ => .new) (g := fun _ => .empty) (fun _ => .new)
  rw [h] at hn; rw [h'] at hn'
  cases hn; cases hn'
  rw [rep_text (hr i), rep_text (hr' j)]
  refine ⟨by simp [segText], ?_, fun e => by rw [e]⟩
  intro e
  simp only [Option.some.injEq, List.append_cancel_left_eq] at e
  exact segText_cut (x := []) (y := []) (by rw [e])

/-- C91: lists of segments' lengths print alike exactly if the lengths of the closed segments and of the open segment
are the same, with `{:?}` and with `{}`. -/
theorem C91_spans (s t : SpanBuffer) :
    (s.debug = t.debug ↔ s.stable = t.stable ∧ s.active = t.active) ∧
    (s.display = t.display ↔ s.stable = t.stable ∧ s.active = t.active) := by
  obtain ⟨st, a, c⟩ := s
  obtain ⟨st', a', c'⟩ := t
  refine ⟨⟨fun h => ?_, fun h => ?_⟩, ⟨fun h => ?_, fun h => ?_⟩⟩
  · simp only [SpanBuffer.debug, List.append_assoc, List.append_cancel_left_eq] at h
    obtain ⟨rfl, h⟩ := debugList_cut h
    simp only [List.append_cancel_left_eq] at h
    refine ⟨rfl, ?_⟩
    cases a <;> cases a' <;> simp only [List.append_assoc] at h
    · rfl
    · exact absurd h (clash_ne (by decide))
    · exact absurd h (clash_ne (by decide))
    · simp only [List.append_cancel_left_eq] at h
      simp only
      rw [(decimal_cut (by rfl) (by rfl) h).1]
  · simp only at h
    simp only [SpanBuffer.debug, h.1, h.2]
  · simp only [SpanBuffer.display] at h
    obtain ⟨rfl, h⟩ := debugList_cut h
    refine ⟨rfl, ?_⟩
    cases a <;> cases a'
    · rfl
    · simp at h
    · simp at h
    · simp only [List.append_cancel_left_eq] at h
      simp only
      rw [decimal_inj h]
  · simp only at h
    simp only [SpanBuffer.display, h.1, h.2]

/-! ### builders -/

/-- C91: printing a `MemoBuilder` does not fail and shows the runs of bytes written to it; two of them print alike
exactly if the runs are the same. -/
theorem C91_memo_builder (st st' : BuildStart) (ops ops' : List BuildOp) :
    let b := ((MemoBuilder.start st).runOps ops).2
    let c := ((MemoBuilder.start st').runOps ops').2
    let runs := BuildOp.runs st.run ops
    let runs' := BuildOp.runs st'.run ops'
    b.debug = some (text! "MemoBuilder { segs: [|" ++ (runs.flatMap fun r => debugList (r.map (·.toNat)) ++ ['|']) ++
      text! "] }") ∧
    (b.debug = c.debug ↔ runs = runs') := by
  intro b c runs runs'
  obtain ⟨_, g, h1, h2⟩ := memo_runOps ops (memo_start st)
  obtain ⟨_, g', h1', h2'⟩ := memo_runOps ops' (memo_start st')
  rw [List.nil_append] at h2 h2'
  have e : b.debug = some (text! "MemoBuilder { segs: " ++ (text! "[|" ++ segText runs) ++ text! " }") := by
    show (SplitVec.debug _).map _ = _
    rw [rep_text h1, h2]; rfl
  have e' : c.debug = some (text! "MemoBuilder { segs: " ++ (text! "[|" ++ segText runs') ++ text! " }") := by
    show (SplitVec.debug _).map _ = _
    rw [rep_text h1', h2']; rfl
  rw [e, e']
  refine ⟨by simp [segText], ?_, fun h => by rw [h]⟩
  intro h
  simp only [Option.some.injEq, List.append_assoc, List.append_cancel_left_eq] at h
  exact segText_cut h

/-- C91: finalized builders print alike exactly if they are `==`. -/
theorem C91_memo_buffer (m n : MemoBuffer) : m.debug = n.debug ↔ m.eqv n = true := by
  obtain ⟨b, l⟩ := m
  obtain ⟨b', l'⟩ := n
  rw [MemoBuffer.eqv, Bool.and_eq_true, beq_iff_eq, beq_iff_eq]
  constructor
  · intro h
    simp only [MemoBuffer.debug, List.append_assoc, List.append_cancel_left_eq] at h
    obtain ⟨rfl, h⟩ := bytes_cut h
    simp only [List.append_cancel_left_eq] at h
    exact ⟨rfl, (debugList_cut h).1⟩
  · rintro ⟨h1, h2⟩
    simp only at h1 h2
    rw [h1, h2]

/-- C91: builders of which one has an open run and the other has closed it are not `==` but print alike. -/
theorem C91_open_not_shown :
    ∃ (st : BuildStart) (ops ops' : List BuildOp),
      let b := ((MemoBuilder.start st).runOps ops).2
      let c := ((MemoBuilder.start st).runOps ops').2
      b.debug = c.debug ∧ b.eqv c = false := by
  refine ⟨.new, [.pushOne 1], [.pushOne 1, .resolve], ?_, ?_⟩
  · exact (C91_memo_builder .new .new [.pushOne 1] [.pushOne 1, .resolve]).2.mpr rfl
  · rfl

/-! ### examples -/

example : (ByteParser.mk [7, 10, 255] ⟨3, [2, 3], 1⟩).debug =
    text! "ByteParser { buffer: [7, 10, 255], offset: ContextOffset { abs: 3, frames: FrameStack([3, 2]), cur: Index(1) } }" := by
  decide +kernel
example : (MemoParser.mk [7] ⟨1, [], 1⟩ [1, 0]).debug =
    text! "MemoParser { buffer: [7], offset: ContextOffset { abs: 1, frames: FrameStack([]), cur: Index(1) }, munches: [1, 0] }" := by
  decide +kernel
example : (SliceParser.mk [[1], [2, 3]]).debug =
    text! "SliceParser { view_stack: [SliceBuffer([2, 3]), SliceBuffer([1])] }" := by
  decide +kernel
example : (SpanBuffer.mk [1, 2] (some 3) 3).debug = text! "SpanBuffer([1, 2] >| Some(3))" := by decide +kernel
example : (SpanBuffer.mk [1, 2] none 3).debug = text! "SpanBuffer([1, 2] >| None)" := by decide +kernel
example : (SpanBuffer.mk [1, 2] (some 3) 3).display = text! "[1, 2] + ~3" := by decide +kernel
example : (MemoBuffer.mk [1, 2] [1, 1]).debug = text! "MemoBuffer { buf: [1, 2], lens: [1, 1] }" := by decide +kernel
example : ((MemoBuilder.start .new).runOps [.pushOne 1, .resolve, .pushMany [2, 30]]).2.debug =
    some text! "MemoBuilder { segs: [|[1]|[2, 30]|] }" := by decide +kernel
example : (ByteParser.fromBuffer [1]).debug ≠ (ByteParser.fromBuffer [2]).debug := by decide +kernel
example : ∃ m, SplitVec.run (α := Byte) .debug [] (fun _ => .new) = some m := ⟨_, rfl⟩

end Verif.Props
