import Verif.Refine.Reading
import Verif.Refine.Exact
/-
C60: the parsers as iterators over bytes (src/parse/mod.rs:674-684, used at 846, 1041 and 1264).
-/
namespace Verif

namespace ParserOps

variable {σ : Type} (P : ParserOps σ)

/-- `n` calls of `Iterator::next`, with all their results. -/
def nexts : Nat → PM σ (List (Option Byte))
  | 0 => pure []
  | n + 1 => do
    let x ← P.iterNext
    let xs ← nexts n
    pure (x :: xs)

/-- One round of the loop of std's `Iterator::collect::<Vec<u8>>`. -/
def collectBody (acc : Bytes) : PM σ (Bytes ⊕ Bytes) := do
  match ← P.iterNext with
  | some b => pure (.inl (acc ++ [b]))
  | none => pure (.inr acc)

/-- std's `Iterator::collect::<Vec<u8>>`: `next` until the first `None`. -/
noncomputable def collect : PM σ Bytes := iterM P.collectBody []

end ParserOps

namespace Props

/-- What can still be seen of a parser: the innermost window has exactly the bytes `v` left; once they are read the
window can be closed, and the same holds of the enclosing ones with `vs`. -/
def Drains {σ : Type} (P : ParserOps σ) : σ → Bytes → List Bytes → Prop
  | s, v, [] => ∃ s1 s2, P.remainder s = .ok v.length s1 ∧ P.consume v.length s1 = .ok v s2 ∧
      P.remainder s2 = .ok 0 s2
  | s, v, w :: vs => ∃ s1 s2 s3, P.remainder s = .ok v.length s1 ∧ P.consume v.length s1 = .ok v s2 ∧
      P.enforceTarget s2 = .ok () s3 ∧ Drains P s3 w vs

/-- What C60 demands of a parser `P` in state `s` with `v` left in the innermost window and `vs` outside: any number
`k` of calls yields the first `k` bytes, then `None` for ever, and leaves exactly the others; collecting yields `v`. -/
def IterSpec {σ : Type} (P : ParserOps σ) (s : σ) (v : Bytes) (vs : List Bytes) : Prop :=
  (∀ k, ∃ s', P.nexts k s = .ok ((v.take k).map some ++ List.replicate (k - v.length) none) s' ∧
    Drains P s' (v.drop k) vs) ∧
  ∃ s', P.collect s = .ok v s' ∧ Drains P s' [] vs

variable {σ : Type} {P : ParserOps σ} {pan : Prop} {R : Bytes → List Bytes → σ → Prop}

theorem drains_of_lawful (L : Lawful P pan R) (hrem : ∀ {s s' n}, P.remainder s = .ok n s' → s' = s) :
    ∀ {vs : List Bytes} {v : Bytes} {s : σ}, R v vs s → Drains P s v vs
  | [], v, s, h => by
    obtain ⟨s1, h1, r1⟩ := L.remainder h
    obtain ⟨s2, h2, r2⟩ := L.consume_ok v.length r1 (Nat.le_refl _)
    rw [List.take_length] at h2
    rw [List.drop_length] at r2
    obtain ⟨s3, h3, _⟩ := L.remainder r2
    have := hrem h3
    subst this
    exact ⟨s1, s3, h1, h2, h3⟩
  | w :: vs, v, s, h => by
    obtain ⟨s1, h1, r1⟩ := L.remainder h
    obtain ⟨s2, h2, r2⟩ := L.consume_ok v.length r1 (Nat.le_refl _)
    rw [List.take_length] at h2
    rw [List.drop_length] at r2
    obtain ⟨s3, h3, r3⟩ := L.enforce_ok r2
    exact ⟨s1, s2, s3, h1, h2, h3, drains_of_lawful L hrem r3⟩

theorem nexts_of_lawful (L : Lawful P pan R) : ∀ (k : Nat) {v : Bytes} {vs : List Bytes} {s : σ}, R v vs s →
    ∃ s', P.nexts k s = .ok ((v.take k).map some ++ List.replicate (k - v.length) none) s' ∧ R (v.drop k) vs s'
  | 0, v, vs, s, h => ⟨s, by simp [ParserOps.nexts], by simpa using h⟩
  | k + 1, [], vs, s, h => by
    obtain ⟨e, s1, h1, _, r1⟩ := L.consumeByte_err h
    obtain ⟨s2, h2, r2⟩ := nexts_of_lawful L k r1
    refine ⟨s2, ?_, by simpa using r2⟩
    simp only [ParserOps.nexts, M.bind_run, ParserOps.iterNext, h1, Out.bind_ok, h2]
    simp [List.replicate_succ]
  | k + 1, b :: v, vs, s, h => by
    obtain ⟨s1, h1, r1⟩ := L.consumeByte_ok h
    obtain ⟨s2, h2, r2⟩ := nexts_of_lawful L k r1
    refine ⟨s2, ?_, by simpa using r2⟩
    simp only [ParserOps.nexts, M.bind_run, ParserOps.iterNext, h1, Out.bind_ok, h2]
    simp

theorem collect_of_lawful (L : Lawful P pan R) : ∀ (v acc : Bytes) {vs : List Bytes} {s : σ}, R v vs s →
    ∃ s', iterM P.collectBody acc s = .ok (acc ++ v) s' ∧ R [] vs s'
  | [], acc, vs, s, h => by
    obtain ⟨e, s1, h1, _, r1⟩ := L.consumeByte_err h
    refine ⟨s1, ?_, r1⟩
    rw [iterM_unfold]
    simp [ParserOps.collectBody, M.bind_run, ParserOps.iterNext, h1]
  | b :: v, acc, vs, s, h => by
    obtain ⟨s1, h1, r1⟩ := L.consumeByte_ok h
    obtain ⟨s2, h2, r2⟩ := collect_of_lawful L v (acc ++ [b]) r1
    refine ⟨s2, ?_, r2⟩
    rw [iterM_unfold]
    simp [ParserOps.collectBody, M.bind_run, ParserOps.iterNext, h1, h2]

theorem iterSpec_of_lawful (L : Lawful P pan R) (hrem : ∀ {s s' n}, P.remainder s = .ok n s' → s' = s)
    {v : Bytes} {vs : List Bytes} {s : σ} (h : R v vs s) : IterSpec P s v vs := by
  constructor
  · intro k
    obtain ⟨s', he, hr⟩ := nexts_of_lawful L k h
    exact ⟨s', he, drains_of_lawful L hrem hr⟩
  · obtain ⟨s', he, hr⟩ := collect_of_lawful L v [] h
    exact ⟨s', he, drains_of_lawful L hrem hr⟩

/-- C60 for `ByteParser`, after any operations; partial: none may have wrapped in a release build, see
`C60_byteparser_any`. -/
theorem C60_byteparser_partial (p : Profile) (buf : Bytes) (hb : buf.length ≤ isizeMax)
    (ops : List Op) (ha : p = .debug ∨ Cursor.Fits ops (Cursor.start buf)) (s : ByteParser)
    (hs : (ByteParser.ops p).exec ops (ByteParser.fromBuffer buf) = some s) :
    IterSpec (ByteParser.ops p) s (Cursor.exec ops (Cursor.start buf)).top (Cursor.exec ops (Cursor.start buf)).outer := by
  refine iterSpec_of_lawful (byteLawful p buf) ?_ ⟨_, byte_exec hb ha hs⟩
  intro s s' n h
  simp only [ByteParser.ops, ByteParser.remainder] at h
  split at h
  · exact ((Out.ok.injEq ..).mp h).2.symm
  · cases h

/-- C60 for `MemoParser`, likewise. -/
theorem C60_memoparser_partial (p : Profile) (buf : Bytes) (hb : buf.length ≤ isizeMax)
    (ops : List Op) (ha : p = .debug ∨ Cursor.Fits ops (Cursor.start buf)) (s : MemoParser)
    (hs : (MemoParser.ops p).exec ops (MemoParser.fromBuffer buf) = some s) :
    IterSpec (MemoParser.ops p) s (Cursor.exec ops (Cursor.start buf)).top (Cursor.exec ops (Cursor.start buf)).outer := by
  refine iterSpec_of_lawful (memoLawful p buf) ?_ ⟨_, memo_exec hb ha hs⟩
  intro s s' n h
  simp only [MemoParser.ops, MemoParser.remainder] at h
  split at h
  · exact ((Out.ok.injEq ..).mp h).2.symm
  · cases h

/-- C60 for `SliceParser`, in every state with a current view. -/
theorem C60_sliceparser (v : Bytes) (vs : List Bytes) (hv : (v ++ vs.flatten).length ≤ isizeMax) :
    IterSpec SliceParser.ops { views := v :: vs } v vs := by
  refine iterSpec_of_lawful sliceLawful ?_ ⟨0, rfl, hv⟩
  intro s s' n h
  simp only [SliceParser.ops, SliceParser.remainder] at h
  exact ((Out.ok.injEq ..).mp h).2.symm

/-- Non-vacuity: inside a window of two of three bytes, after one read, three calls give one byte and two `None`, and
the byte outside of the window is still there. -/
example : ((ByteParser.ops .debug).exec [.setFit 2, .consumeByte] (ByteParser.fromBuffer [1, 2, 3])).isSome = true ∧
    (Cursor.exec [.setFit 2, .consumeByte] (Cursor.start [1, 2, 3])).top = [2] ∧
    (Cursor.exec [.setFit 2, .consumeByte] (Cursor.start [1, 2, 3])).outer = [[3]] ∧
    ((([2] : Bytes).take 3).map some ++ List.replicate (3 - 1) none : List (Option Byte)) = [some 2, none, none] := by
  decide +kernel

end Props

end Verif
