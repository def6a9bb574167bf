import Verif.Cleanup
import Verif.Refine.Backend
import Verif.Refine.SplitVec
/-
What `cleanup` returns.
-/
namespace Verif

/-- The state stands for these segments; windows have been closed exactly if it is the windowed variant. -/
def Leftover.Rep (l : Leftover) (g : Segs Byte) : Prop :=
  match l with
  | .empty => g = .empty
  | .windowless b => g = { closed := [], cur := some b }
  | .windowed sv => sv.Rep g ∧ g.closed ≠ []

theorem Leftover.Rep.promote {l : Leftover} {g : Segs Byte} (h : l.Rep g) : l.promote.Rep g := by
  cases l with
  | empty => cases h; exact SplitVec.Rep.new
  | windowless b => cases h; exact SplitVec.Rep.fromVec b
  | windowed sv => exact h.1

theorem Leftover.Rep.escape {l : Leftover} {g : Segs Byte} (h : l.Rep g) : l.escapeContext.Rep g.splitForce :=
  ⟨h.promote.splitForce, by simp [Segs.splitForce]⟩

theorem Leftover.Rep.append {l : Leftover} {g : Segs Byte} (h : l.Rep g) (xs : Bytes) : (l.append xs).1.Rep (g.extend xs) := by
  cases l with
  | empty => cases h; rfl
  | windowless b => cases h; rfl
  | windowed sv =>
    refine ⟨?_, h.2⟩
    show (sv.appendCurrent xs).1.Rep _
    rw [SplitVec.Rep.append_eq]
    exact h.1.extendFromSlice xs

/-- What is left after the views `v` (current) and `vs` (enclosing) have been emptied one by one: all but the
outermost are closed segments; the outermost is an open segment unless it is empty. -/
def leftSegs : List Bytes → Bytes → List Bytes → Segs Byte
  | acc, v, [] => { closed := acc, cur := if v = [] then none else some v }
  | acc, v, w :: vs => leftSegs (acc ++ [v]) w vs

theorem leftSegs_contents : ∀ (acc : List Bytes) (v : Bytes) (vs : List Bytes),
    (leftSegs acc v vs).contents = acc.flatten ++ v ++ vs.flatten
  | acc, v, [] => by
    by_cases h : v = [] <;> simp [leftSegs, Segs.contents, Segs.segments, h]
  | acc, v, w :: vs => by
    rw [leftSegs, leftSegs_contents]
    simp

theorem leftSegs_closed : ∀ (acc : List Bytes) (v : Bytes) (vs : List Bytes),
    (leftSegs acc v vs).closed = acc ++ (v :: vs).dropLast
  | acc, v, [] => by simp [leftSegs]
  | acc, v, w :: vs => by
    rw [leftSegs, leftSegs_closed]
    simp

theorem leftSegs_cur : ∀ (acc : List Bytes) (v : Bytes) (vs : List Bytes),
    (leftSegs acc v vs).cur = if (v :: vs).getLastD [] = [] then none else some ((v :: vs).getLastD [])
  | acc, v, [] => by
    by_cases h : v = [] <;> simp [leftSegs, h]
  | acc, v, w :: vs => by
    rw [leftSegs, leftSegs_cur]
    rfl

section

variable {σ : Type} {P : ParserOps σ} {pan : Prop} {R : Bytes → List Bytes → σ → Prop}

theorem cleanup_loop (L : Lawful P pan R)
    (hbase : ∀ {s}, R [] [] s → ∃ s', P.enforceTarget s = .err (.window .closeWithoutWindow) s' ∧ R [] [] s') :
    ∀ (vs : List Bytes) (v : Bytes) (acc : List Bytes) (l : Leftover) (s : σ), R v vs s →
      l.Rep { closed := acc, cur := none } →
      ∃ l' s', iterM P.cleanupBody (.ok l) s = .ok (.ok l') s' ∧ R [] [] s' ∧ l'.Rep (leftSegs acc v vs) := by
  intro vs
  induction vs with
  | nil =>
    intro v acc l s hR hl
    obtain ⟨s1, e1, h1⟩ := L.remainder hR
    by_cases hv : v = []
    · subst hv
      obtain ⟨s2, e2, h2⟩ := hbase h1
      refine ⟨l, s2, ?_, h2, by simpa [leftSegs] using hl⟩
      rw [iterM_unfold]
      simp [ParserOps.cleanupBody, e1, e2]
    · have hn : v.length ≠ 0 := by simpa using hv
      obtain ⟨s2, e2, h2⟩ := L.consume_ok v.length h1 (Nat.le_refl _)
      rw [List.take_length] at e2
      rw [List.drop_length] at h2
      obtain ⟨s3, e3, h3⟩ := hbase h2
      refine ⟨(l.append v).1, s3, ?_, h3, ?_⟩
      · rw [iterM_unfold]
        simp only [ParserOps.cleanupBody, e1, if_pos hn, ParserOps.takeDynamic, e2, e3]
        rfl
      · have := hl.append v
        simpa [leftSegs, hv, Segs.extend] using this
  | cons w vs ih =>
    intro v acc l s hR hl
    obtain ⟨s1, e1, h1⟩ := L.remainder hR
    by_cases hv : v = []
    · subst hv
      obtain ⟨s2, e2, h2⟩ := L.enforce_ok h1
      obtain ⟨l', s', e', h', hl'⟩ := ih w (acc ++ [[]]) l.escapeContext s2 h2 hl.escape
      refine ⟨l', s', ?_, h', hl'⟩
      rw [iterM_unfold]
      simp only [ParserOps.cleanupBody, e1, List.length_nil, ne_eq, not_true, if_false, e2]
      exact e'
    · have hn : v.length ≠ 0 := by simpa using hv
      obtain ⟨s2, e2, h2⟩ := L.consume_ok v.length h1 (Nat.le_refl _)
      rw [List.take_length] at e2
      rw [List.drop_length] at h2
      obtain ⟨s3, e3, h3⟩ := L.enforce_ok h2
      obtain ⟨l', s', e', h', hl'⟩ := ih w (acc ++ [v]) (l.append v).1.escapeContext s3 h3 (hl.append v).escape
      refine ⟨l', s', ?_, h', hl'⟩
      rw [iterM_unfold]
      simp only [ParserOps.cleanupBody, e1, if_pos hn, ParserOps.takeDynamic, e2, e3]
      exact e'

end

theorem ParseError.eraseOpen_cww {e : ParseError} (h : e.eraseOpen = (ParseError.window .closeWithoutWindow).eraseOpen) :
    e = .window .closeWithoutWindow := by
  revert h
  unfold ParseError.eraseOpen Cursor.openErr
  split <;> simp

theorem byte_base {p : Profile} {buf : Bytes} {s : ByteParser} (h : ByteR buf [] [] s) :
    ∃ s', (ByteParser.ops p).enforceTarget s = .err (.window .closeWithoutWindow) s' ∧ ByteR buf [] [] s' := by
  obtain ⟨pos, h⟩ := h
  have := byte_step p h .enforceTarget (.inr (Nat.zero_le _))
  simp only [Cursor.step] at this
  rcases this with ⟨e', s', he, hk, ha⟩ | ⟨hf, _⟩
  · have he' := run_err_of_map he
    rw [ParseError.eraseOpen_cww hk] at he'
    exact ⟨s', he', pos, ha⟩
  · exact hf.elim

theorem memo_base {p : Profile} {buf : Bytes} {s : MemoParser} (h : MemoR buf [] [] s) :
    ∃ s', (MemoParser.ops p).enforceTarget s = .err (.window .closeWithoutWindow) s' ∧ MemoR buf [] [] s' := by
  obtain ⟨pos, h⟩ := h
  have := memo_step p h .enforceTarget (.inr (Nat.zero_le _))
  simp only [Cursor.step] at this
  rcases this with ⟨e', s', he, hk, ha⟩ | ⟨hf, _⟩
  · have he' := run_err_of_map he
    rw [ParseError.eraseOpen_cww hk] at he'
    exact ⟨s', he', pos, ha⟩
  · exact hf.elim

/-- `cleanup` of `ByteParser` and `MemoParser`. -/
theorem Backend.cleanup_eq (p : Profile) {k : Backend} (hk : k ≠ .slice) {v : Bytes} {vs : List Bytes} {s : k.State}
    (h : k.Holds v vs s) :
    ∃ l s', k.cleanup p s = .ok (.ok l) s' ∧ k.Holds [] [] s' ∧ l.Rep (leftSegs [] v vs) := by
  match k, hk, s, h with
  | .byte, _, s, ⟨buf, h⟩ =>
    obtain ⟨l, s', e, h', hl⟩ := cleanup_loop (byteLawful p buf) byte_base vs v [] .empty s h rfl
    exact ⟨l, s', e, ⟨buf, h'⟩, hl⟩
  | .memo, _, s, ⟨buf, h⟩ =>
    obtain ⟨l, s', e, h', hl⟩ := cleanup_loop (memoLawful p buf) memo_base vs v [] .empty s h rfl
    exact ⟨l, s', e, ⟨buf, h'⟩, hl⟩

theorem cleanupSlice_loop : ∀ (views : List Bytes) (acc : List Bytes) (l : Leftover), l.Rep { closed := acc, cur := none } →
    ∃ l', iterM SliceParser.ops.cleanupBodySlice l ⟨views⟩ = .ok (.ok l') ⟨[]⟩ ∧
      l'.Rep { closed := acc ++ views, cur := none } := by
  intro views
  induction views with
  | nil =>
    intro acc l hl
    refine ⟨l, ?_, by simpa using hl⟩
    rw [iterM_unfold]
    rfl
  | cons v vs ih =>
    intro acc l hl
    by_cases hv : v = []
    · subst hv
      obtain ⟨l', e', hl'⟩ := ih (acc ++ [[]]) l.escapeContext hl.escape
      refine ⟨l', ?_, by simpa using hl'⟩
      rw [iterM_unfold]
      exact e'
    · have hn : v.length ≠ 0 := by simpa using hv
      obtain ⟨l', e', hl'⟩ := ih (acc ++ [v]) (l.append v).1.escapeContext (hl.append v).escape
      refine ⟨l', ?_, by simpa using hl'⟩
      rw [iterM_unfold]
      have e1 : SliceParser.ops.remainder ⟨v :: vs⟩ = .ok v.length ⟨v :: vs⟩ := rfl
      have e2 : SliceParser.ops.consume v.length ⟨v :: vs⟩ = .ok v ⟨[] :: vs⟩ := by
        simp [SliceParser.ops, SliceParser.consume, SliceParser.splitUnchecked]
      have e3 : SliceParser.ops.enforceTarget ⟨[] :: vs⟩ = .ok () ⟨vs⟩ := rfl
      simp only [ParserOps.cleanupBodySlice, e1, if_pos hn, ParserOps.takeDynamic, e2, e3]
      exact e'

/-- `cleanup` of `SliceParser`, in any state. -/
theorem SliceParser.cleanup_eq (p : Profile) (s : SliceParser) :
    ∃ l, Backend.cleanup p .slice s = .ok (.ok l) ⟨[]⟩ ∧ l.Rep { closed := s.views, cur := none } := by
  obtain ⟨l, e, hl⟩ := cleanupSlice_loop s.views [] .empty rfl
  exact ⟨l, e, hl⟩

end Verif
