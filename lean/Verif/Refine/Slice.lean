import Verif.SliceParser
import Verif.Refine.Byte
/-
`SliceParser` refines the windowed cursor on well-bracketed use.
-/
namespace Verif

def SliceRep (s : SliceParser) (c : Cursor) : Prop := s.views = c.top :: c.outer

theorem SliceRep.start (buf : Bytes) : SliceRep (SliceParser.fromBuffer buf) (Cursor.start buf) := rfl

theorem Cursor.kind_shortErr (c : Cursor) (n : Nat) :
    (c.shortErr n).kind = .window (.consumeWouldExceedLimit 0 n c.top.length) := by
  simp [Cursor.shortErr, ParseError.kind]

theorem slice_step {s : SliceParser} {c : Cursor} (h : SliceRep s c) (op : Op) (hw : c.WB op) :
    StepRefines SliceRep ParseError.kind False (SliceParser.ops.run op s) (c.step op) := by
  obtain ⟨views⟩ := s
  simp only [SliceRep] at h
  subst h
  cases op with
  | viewLen => exact hw.elim
  | offset => exact hw.elim
  | remainder => exact ⟨_, rfl, rfl⟩
  | consumeByte =>
    simp only [Cursor.step]
    cases ht : c.top with
    | nil =>
      left
      exact ⟨.window (.consumeWouldExceedLimit 0 1 0), { views := [] :: c.outer }, rfl, by rw [Cursor.kind_shortErr, ht]; rfl, by simp [SliceRep, ht]⟩
    | cons b t =>
      exact ⟨{ views := t :: c.outer }, rfl, by simp [SliceRep, Cursor.adv, ht]⟩
  | consume n =>
    simp only [Cursor.step]
    by_cases hn : n ≤ c.top.length
    · rw [if_pos hn]
      refine ⟨{ views := c.top.drop n :: c.outer }, ?_, rfl⟩
      simp [ParserOps.run, SliceParser.ops, SliceParser.consume, SliceParser.splitUnchecked, hn]
    · rw [if_neg hn]
      left
      refine ⟨.window (.consumeWouldExceedLimit 0 n c.top.length), _, ?_, (c.kind_shortErr n).symm, rfl⟩
      simp [ParserOps.run, SliceParser.ops, SliceParser.consume, hn]
  | setFit n =>
    simp only [Cursor.step]
    by_cases hn : n ≤ c.top.length
    · rw [if_pos hn]
      refine ⟨{ views := c.top.take n :: c.top.drop n :: c.outer }, ?_, rfl⟩
      simp [ParserOps.run, SliceParser.ops, SliceParser.setFit, SliceParser.splitUnchecked, hn]
    · rw [if_neg hn]
      left
      refine ⟨.window (.openWouldExceedWindow c.top.length n), _, ?_, rfl, rfl⟩
      simp [ParserOps.run, SliceParser.ops, SliceParser.setFit, hn]
  | testTarget =>
    refine ⟨{ views := c.top :: c.outer }, ?_, rfl⟩
    have : c.outer.isEmpty = false := by
      cases h : c.outer with
      | nil => exact absurd h hw
      | cons _ _ => rfl
    simp [ParserOps.run, SliceParser.ops, SliceParser.testTarget, this]
  | enforceTarget =>
    obtain ⟨ho, ht⟩ := hw
    simp only [Cursor.step]
    cases hv : c.outer with
    | nil => exact absurd hv ho
    | cons v vs =>
      simp only [if_pos ht]
      refine ⟨{ views := v :: vs }, ?_, ?_⟩
      · simp [ParserOps.run, SliceParser.ops, SliceParser.enforceTarget, ht]
      · simp [SliceRep, ht]
  | skip n =>
    simp only [Cursor.step]
    refine ⟨{ views := c.top.drop (min c.top.length n) :: c.outer }, ?_, rfl⟩
    simp [ParserOps.run, SliceParser.ops, SliceParser.skip, SliceParser.splitUnchecked, Nat.min_le_left]
  | skipExactly n =>
    simp only [Cursor.step]
    by_cases hn : n ≤ c.top.length
    · rw [if_pos hn]
      refine ⟨{ views := c.top.drop n :: c.outer }, ?_, rfl⟩
      simp [ParserOps.run, SliceParser.ops, SliceParser.skipExactly, SliceParser.splitUnchecked, hn]
    · rw [if_neg hn]
      left
      refine ⟨.window (.consumeWouldExceedLimit 0 n c.top.length), _, ?_, (c.kind_shortErr n).symm, rfl⟩
      simp [ParserOps.run, SliceParser.ops, SliceParser.skipExactly, hn]

/-- Closing a window that still has unread bytes: reported as by the specification, but the unread bytes
are dropped instead of being given back. -/
theorem slice_close_residue {s : SliceParser} {c : Cursor} (h : SliceRep s c) {v : Bytes} {vs : List Bytes}
    (ho : c.outer = v :: vs) (ht : c.top ≠ []) :
    SliceParser.ops.enforceTarget s =
      .err (.window (.closeWithResidue c.top.length)) { views := v :: vs } := by
  obtain ⟨views⟩ := s
  simp only [SliceRep] at h
  subst h
  rw [ho]
  simp only [SliceParser.ops, SliceParser.enforceTarget]
  cases hl : c.top.length with
  | zero => exact absurd (List.eq_nil_of_length_eq_zero hl) ht
  | succ n => rfl

end Verif
