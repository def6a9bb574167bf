import Verif.Refine.Offset
/-
`ByteParser` refines the windowed cursor, operation by operation.
-/
namespace Verif

/-- The outcome of one operation of an implementation against the outcome of the specification.
`A` relates implementation states to cursors, `norm` is the error information that is compared, and
`pan` says when a panic is admitted in place of an error. -/
def StepRefines {σ : Type} (A : σ → Cursor → Prop) (norm : ParseError → ParseError) (pan : Prop)
    (out : Out σ ParseError Obs) : Except ParseError Obs × Cursor → Prop
  | (.ok o, c') => ∃ s', out = .ok o s' ∧ A s' c'
  | (.error e, c') => (∃ e' s', out = .err e' s' ∧ norm e' = norm e ∧ A s' c') ∨ (pan ∧ out = .panic)

/-- Representation relation of `ByteParser` over a fixed input. -/
def ByteRep (buf : Bytes) (s : ByteParser) (c : Cursor) : Prop :=
  s.buffer = buf ∧ OffInv buf s.off ∧ absCursor buf s.off = c

theorem ByteRep.start {buf : Bytes} (hb : buf.length ≤ isizeMax) :
    ByteRep buf (ByteParser.fromBuffer buf) (Cursor.start buf) :=
  ⟨rfl, OffInv.withLimit hb, absCursor_withLimit⟩

/-- The only panics, in debug builds: opening a window wider than the whole buffer (underflow while the
error is put together), and requests so large that `offset + n` overflows `usize`. -/
def Op.mayPanic (p : Profile) (buf : Bytes) : Op → Prop
  | .setFit n => p = .debug ∧ buf.length < n
  | .consume n | .skipExactly n => p = .debug ∧ isizeMax + 1 < n
  | _ => False

theorem byte_step (p : Profile) {buf : Bytes} {s : ByteParser} {c : Cursor} (h : ByteRep buf s c)
    (op : Op) (ha : op.Adm p) :
    StepRefines (ByteRep buf) ParseError.eraseOpen (op.mayPanic p buf)
      ((ByteParser.ops p).run op s) (c.step op) := by
  obtain ⟨rfl, hi, rfl⟩ := h
  have hl := hi.length_top
  have h1 := hi.cur_le_limit
  have hv := hi.viewLen
  cases op with
  | viewLen =>
    exact ⟨s, by simp only [ParserOps.run, ByteParser.ops, ByteParser.viewLen, hv], rfl, hi, rfl⟩
  | offset => exact ⟨s, rfl, rfl, hi, rfl⟩
  | remainder =>
    refine ⟨s, ?_, rfl, hi, rfl⟩
    simp [ParserOps.run, ByteParser.ops, ByteParser.remainder, ByteParser.viewLen, ByteParser.offset,
      ContextOffset.index, usub_of_le h1, hl]
  | consumeByte =>
    simp only [Cursor.step]
    cases ht : (absCursor s.buffer s.off).top with
    | nil =>
      left
      refine ⟨.window (.consumeWouldExceedLimit s.off.cur 1 s.off.limit), s, ?_, ?_, rfl, hi, rfl⟩
      · simp only [ParserOps.run, ByteParser.ops, M.map_run, ByteParser.consumeByte]
        rcases advance_err hi p (n := 1) (.inr (by decide)) (by rw [ht]; decide) with h' | ⟨_, h', _⟩
        · rw [h']; rfl
        · exact absurd h' (by decide)
      · simp only [ParseError.eraseOpen, Cursor.shortErr, hv]
        rfl
    | cons b t =>
      have h1' : 1 ≤ (absCursor s.buffer s.off).top.length := by rw [ht]; simp
      refine ⟨{ s with off := { s.off with cur := s.off.cur + 1 } }, ?_, rfl, hi.advanced h1',
        absCursor_advanced 1⟩
      simp only [ParserOps.run, ByteParser.ops, M.map_run, ByteParser.consumeByte]
      rw [advance_ok hi p h1']
      have hb := byte_of_inv ht
      have hlt : s.off.cur < s.buffer.length := (List.getElem?_eq_some_iff.mp hb).1
      simp [VecBuffer.getByte, VecBuffer.getByteUnchecked, hb, Nat.le_of_lt hlt]
  | consume n =>
    replace ha : p = .debug ∨ n ≤ isizeMax + 1 := ha
    simp only [Cursor.step]
    by_cases hn : n ≤ (absCursor s.buffer s.off).top.length
    · rw [if_pos hn]
      refine ⟨{ s with off := { s.off with cur := s.off.cur + n } }, ?_, rfl, hi.advanced hn,
        absCursor_advanced n⟩
      simp only [ParserOps.run, ByteParser.ops, M.map_run, ByteParser.consume]
      rw [advance_ok hi p hn]
      simp [slice_of_inv hi p hn]
    · rw [if_neg hn]
      rcases advance_err hi p ha (by omega) with h' | ⟨hp, hn', h'⟩
      · left
        refine ⟨.window (.consumeWouldExceedLimit s.off.cur n s.off.limit), s, ?_, ?_, rfl, hi, rfl⟩
        · simp only [ParserOps.run, ByteParser.ops, M.map_run, ByteParser.consume]
          rw [h']
          rfl
        · simp only [ParseError.eraseOpen, Cursor.shortErr, hv]
          rfl
      · right
        refine ⟨⟨hp, hn'⟩, ?_⟩
        simp only [ParserOps.run, ByteParser.ops, M.map_run, ByteParser.consume]
        rw [h']
        rfl
  | setFit n =>
    replace ha : p = .debug ∨ n ≤ isizeMax + 1 := ha
    simp only [Cursor.step]
    by_cases hn : n ≤ (absCursor s.buffer s.off).top.length
    · rw [if_pos hn]
      refine ⟨{ s with off := { s.off with frames := (s.off.cur + n) :: s.off.frames } }, ?_, rfl,
        hi.opened hn, absCursor_opened hi hn⟩
      simp [ParserOps.run, ByteParser.ops, ByteParser.liftOff, setFit_ok hi p hn]
    · rw [if_neg hn]
      rcases setFit_err hi p ha (by omega) with ⟨e, he, hk⟩ | ⟨hp, hn', he⟩
      · left
        refine ⟨e, s, ?_, hk, rfl, hi, rfl⟩
        simp [ParserOps.run, ByteParser.ops, ByteParser.liftOff, he]
      · right
        refine ⟨⟨hp, hn'⟩, ?_⟩
        simp [ParserOps.run, ByteParser.ops, ByteParser.liftOff, he]
  | testTarget =>
    refine ⟨s, ?_, rfl, hi, rfl⟩
    simp only [ParserOps.run, ByteParser.ops, M.map_run, ByteParser.liftOff, ContextOffset.testTarget]
    cases hf : s.off.frames with
    | nil => simp [absCursor, hf, segOuter]
    | cons f fs =>
      have hlt := length_top_cons hi hf
      have hle := cur_le_cons hi hf
      by_cases he : f = s.off.cur
      · have : (absCursor s.buffer s.off).top = [] := List.eq_nil_of_length_eq_zero (by omega)
        simp [ContextOffset.index, he, this]
        simp [absCursor, hf, segOuter]
      · have hne : (absCursor s.buffer s.off).top ≠ [] := by
          intro h0; rw [h0] at hlt; simp at hlt; omega
        have hgt : f > s.off.cur := by omega
        simp [ContextOffset.index, he, hgt, hne]
  | enforceTarget =>
    simp only [Cursor.step]
    cases hf : s.off.frames with
    | nil =>
      have ho : (absCursor s.buffer s.off).outer = [] := by simp [absCursor, hf, segOuter]
      rw [ho]
      left
      refine ⟨.window .closeWithoutWindow, s, ?_, ?_, rfl, hi, rfl⟩
      · simp only [ParserOps.run, ByteParser.ops, M.map_run, ByteParser.liftOff,
          ContextOffset.enforceTarget, hf]
        rfl
      · rfl
    | cons f fs =>
      have hlt := length_top_cons hi hf
      have hle := cur_le_cons hi hf
      have ho : (absCursor s.buffer s.off).outer = segTop s.buffer f fs :: segOuter s.buffer fs := by
        simp [absCursor, hf, segOuter]
      rw [ho]
      have hrep : ByteRep s.buffer { s with off := { s.off with frames := fs } }
          { absCursor s.buffer s.off with
            top := (absCursor s.buffer s.off).top ++ segTop s.buffer f fs
            outer := segOuter s.buffer fs } :=
        ⟨rfl, hi.closed hf, absCursor_closed hi hf⟩
      by_cases he : f = s.off.cur
      · have ht : (absCursor s.buffer s.off).top = [] := List.eq_nil_of_length_eq_zero (by omega)
        simp only [if_pos ht]
        refine ⟨_, ?_, hrep⟩
        simp [ParserOps.run, ByteParser.ops, ByteParser.liftOff, ContextOffset.enforceTarget, hf,
          ContextOffset.index, he]
      · have hne : (absCursor s.buffer s.off).top ≠ [] := by
          intro h0; rw [h0] at hlt; simp at hlt; omega
        have hgt : f > s.off.cur := by omega
        simp only [if_neg hne]
        left
        refine ⟨.window (.closeWithResidue (f - s.off.cur)), _, ?_, ?_, hrep⟩
        · simp [ParserOps.run, ByteParser.ops, ByteParser.liftOff, ContextOffset.enforceTarget, hf,
            ContextOffset.index, he, hgt]
        · rw [hlt]
  | skip n =>
    simp only [Cursor.step]
    have hm : min (absCursor s.buffer s.off).top.length n ≤ (absCursor s.buffer s.off).top.length :=
      Nat.min_le_left _ _
    refine ⟨{ s with off := { s.off with
        cur := s.off.cur + min (absCursor s.buffer s.off).top.length n } }, ?_, rfl, hi.advanced hm,
        absCursor_advanced _⟩
    have hr : s.off.rem p = some (absCursor s.buffer s.off).top.length := by
      cases p <;> simp [ContextOffset.rem, ContextOffset.index, h1, usub_of_le h1, hl]
    simp only [ParserOps.run, ByteParser.ops, M.map_run, ByteParser.skip, hr]
    rw [advance_ok hi p hm]
    rfl
  | skipExactly n =>
    replace ha : p = .debug ∨ n ≤ isizeMax + 1 := ha
    simp only [Cursor.step]
    by_cases hn : n ≤ (absCursor s.buffer s.off).top.length
    · rw [if_pos hn]
      refine ⟨{ s with off := { s.off with cur := s.off.cur + n } }, ?_, rfl, hi.advanced hn,
        absCursor_advanced n⟩
      simp only [ParserOps.run, ByteParser.ops, M.map_run, ByteParser.skipExactly]
      rw [advance_ok hi p hn]
      rfl
    · rw [if_neg hn]
      rcases advance_err hi p ha (by omega) with h' | ⟨hp, hn', h'⟩
      · left
        refine ⟨.window (.consumeWouldExceedLimit s.off.cur n s.off.limit), s, ?_, ?_, rfl, hi, rfl⟩
        · simp only [ParserOps.run, ByteParser.ops, M.map_run, ByteParser.skipExactly]
          rw [h']
          rfl
        · simp only [ParseError.eraseOpen, Cursor.shortErr, hv]
          rfl
      · right
        refine ⟨⟨hp, hn'⟩, ?_⟩
        simp only [ParserOps.run, ByteParser.ops, M.map_run, ByteParser.skipExactly]
        rw [h']
        rfl

end Verif
