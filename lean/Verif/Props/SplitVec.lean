import Verif.Refine.SplitVec
/-
C38, C39: segmented buffers.
-/
namespace Verif.Props

variable {α : Type}

/-- C38: no operation list makes a `SplitVec` panic, and afterwards the books are balanced: the sum of
the spans is the number of elements. -/
theorem C38_splitvec_balanced (p : Profile) (ops : List (SegOp α)) :
    ∃ m, SplitVec.run p ops (fun _ => .new) = some m ∧
      ∀ k, (m k).isBalanced = true ∧ (m k).spans.iter.sum = (m k).buffer.length := by
  obtain ⟨m, h, hr⟩ := SplitVec.run_rep p ops (m := fun _ => .new) (g := fun _ => .empty) (fun _ => .new)
  refine ⟨m, h, fun k => ⟨(hr k).balanced, ?_⟩⟩
  rw [(hr k).iter, (hr k).buffer, Segs.contents, List.length_flatten]

/-- C38: iterating over the spans from the two ends in any order never panics; it yields what taking
from the two ends of the list of segments yields, and that list concatenates to the contents. -/
theorem C38_splitvec_span_iteration (p : Profile) (ops : List (SegOp α)) (m : Nat → SplitVec α)
    (h : SplitVec.run p ops (fun _ => .new) = some m) (k : Nat) (bs : List Bool) :
    let g := Segs.run ops (fun _ => .empty) k
    (∃ rest, Spans.run p bs (m k).iterSpans = some ((dequeRun bs g.segments).1, rest)) ∧
      g.segments.flatten = (m k).intoInner := by
  obtain ⟨m', h', hr⟩ := SplitVec.run_rep p ops (m := fun _ => .new) (g := fun _ => .empty) (fun _ => .new)
  rw [h] at h'
  cases h'
  intro g
  have := Spans.run_eq p bs g.segments
  rw [SplitVec.iterSpans, (hr k).iter, (hr k).buffer, Segs.contents, this]
  exact ⟨⟨_, rfl⟩, (hr k).buffer.symm⟩

/-- The whole forward iteration gives the segments, then `None` for ever. -/
theorem C38_splitvec_forward_iteration (p : Profile) (ops : List (SegOp α)) (m : Nat → SplitVec α)
    (h : SplitVec.run p ops (fun _ => .new) = some m) (k : Nat) (extra : Nat) :
    let g := Segs.run ops (fun _ => .empty) k
    ∃ rest, Spans.run p (List.replicate (g.segments.length + extra) false) (m k).iterSpans =
      some (g.segments.map some ++ List.replicate extra none, rest) := by
  intro g
  obtain ⟨⟨rest, hr⟩, _⟩ := C38_splitvec_span_iteration p ops m h k (List.replicate (g.segments.length + extra) false)
  refine ⟨rest, ?_⟩
  rw [hr]
  have hd : ∀ ls : List (List α), (dequeRun (List.replicate (ls.length + extra) false) ls).1 =
      ls.map some ++ List.replicate extra none := by
    intro ls
    induction ls with
    | nil =>
      simp only [List.length_nil, Nat.zero_add, List.map_nil, List.nil_append]
      clear hr
      induction extra with
      | zero => rfl
      | succ n ih => simp [List.replicate_succ, dequeRun, ih]
    | cons l ls ih =>
      rw [List.length_cons, Nat.succ_add, List.replicate_succ]
      simp [dequeRun, ih]
  rw [hd]

/-- C39: every operation list acts as on lists of segments, for all observations. -/
theorem C39_splitvec_is_list_of_segments (p : Profile) (ops : List (SegOp α)) :
    ∃ m, SplitVec.run p ops (fun _ => .new) = some m ∧ ∀ k,
      let g := Segs.run ops (fun _ => .empty) k
      (m k).intoInner = g.contents ∧
      (m k).intoParts = (g.contents, g.segments.map List.length) ∧
      (m k).len = g.contents.length ∧
      ((m k).isEmpty = true ↔ g.segments = []) ∧
      ((m k).isContiguous = true ↔ g.segments.length ≤ 1) ∧
      ∀ f : List α → String, (m k).render f =
        some ("[|" ++ g.segments.foldr (fun l r => f l ++ "|" ++ r) "]") := by
  obtain ⟨m, h, hr⟩ := SplitVec.run_rep p ops (m := fun _ => .new) (g := fun _ => .empty) (fun _ => .new)
  refine ⟨m, h, fun k => ?_⟩
  have hk := hr k
  intro g
  change (m k).Rep g at hk
  have hparts : (m k).spans.intoVec = g.segments.map List.length := by
    rw [← hk.iter]
    unfold SpanBuffer.intoVec SpanBuffer.iter
    split <;> simp [*]
  refine ⟨hk.buffer, by simp [SplitVec.intoParts, hk.buffer, hparts], by simp [SplitVec.len, hk.buffer], ?_, ?_, ?_⟩
  · simp only [SplitVec.isEmpty, hk.buffer, SpanBuffer.isEmpty, hk.stable, hk.active, Segs.contents, Segs.segments]
    cases g.cur <;> cases g.closed <;> simp
  · simp only [SplitVec.isContiguous, SpanBuffer.isContiguous, hk.stable, hk.active, Segs.segments, List.length_map]
    match g.cur, g.closed with
    | none, [] => simp
    | some _, [] => simp
    | none, [_] => simp
    | some _, [_] => simp
    | none, _ :: _ :: _ => simp
    | some _, _ :: _ :: _ => simp
  · intro f
    simp only [SplitVec.render, hk.iter, hk.buffer, Segs.contents, SplitVec.renderGo_eq, Option.map_some]

/-- C39: `concat` empties its argument. -/
theorem C39_concat_drains_other (p : Profile) (ops : List (SegOp α)) (i j : Nat) (hij : i ≠ j) :
    ∃ m, SplitVec.run p (ops ++ [.concat i j]) (fun _ => .new) = some m ∧
      (m j).intoInner = [] ∧ (m j).isEmpty = true := by
  obtain ⟨m, h, hr⟩ := C39_splitvec_is_list_of_segments p (ops ++ [.concat i j])
  have := hr j
  simp only [Segs.run, List.foldl_append, List.foldl_cons, List.foldl_nil, Segs.step, if_neg hij] at this
  refine ⟨m, h, ?_, ?_⟩
  · rw [this.1]; simp [update, Segs.empty, Segs.contents, Segs.segments]
  · rw [this.2.2.2.1]; simp [update, Segs.empty, Segs.segments]

/-- What is left of an iterator over spans. -/
def SpanBuffer.Iter.left (i : SpanBuffer.Iter) : List Nat := i.a.getD [] ++ (i.b.getD none).toList

/-- Taking from either end of an iterator over spans. -/
def SpanBuffer.Iter.run : List Bool → SpanBuffer.Iter → List (Option Nat) × SpanBuffer.Iter
  | [], i => ([], i)
  | b :: bs, i => let r := if b then i.nextBack else i.next; let q := run bs r.2; (r.1 :: q.1, q.2)

theorem iter_run : ∀ (bs : List Bool) (i : SpanBuffer.Iter),
    (SpanBuffer.Iter.run bs i).1 = (dequeRun bs (SpanBuffer.Iter.left i)).1
  | [], _ => rfl
  | true :: bs, ⟨a, b⟩ => by
    simp only [SpanBuffer.Iter.run, dequeRun, iter_run bs, if_true]
    rcases b with _ | _ | b <;> rcases a with _ | a <;>
      simp [SpanBuffer.Iter.nextBack, SpanBuffer.Iter.left]
  | false :: bs, ⟨a, b⟩ => by
    simp only [SpanBuffer.Iter.run, dequeRun, iter_run bs]
    rcases b with _ | _ | b <;> rcases a with _ | _ | ⟨a, as⟩ <;>
      simp [SpanBuffer.Iter.next, SpanBuffer.Iter.left]

/-- C38: iterating over the spans themselves from the two ends in any order yields what taking from the two ends of
the list of the segments' lengths yields. -/
theorem C38_span_lengths (p : Profile) (ops : List (SegOp α)) (m : Nat → SplitVec α)
    (h : SplitVec.run p ops (fun _ => .new) = some m) (k : Nat) (bs : List Bool) :
    (SpanBuffer.Iter.run bs (m k).spans.intoIter).1 =
      (dequeRun bs ((Segs.run ops (fun _ => .empty) k).segments.map List.length)).1 := by
  obtain ⟨m', h', hr⟩ := SplitVec.run_rep p ops (m := fun _ => .new) (g := fun _ => .empty) (fun _ => .new)
  rw [h] at h'
  cases h'
  rw [iter_run, ← (hr k).iter]
  rfl

/-- Non-vacuity: two buffers, one put behind the other. -/
example : Segs.run [.fromVec 0 [1, 2], .split 0, .splitForce 0, .push 0 3, .push 1 9, .concat 1 0] (fun _ => .empty) 1 =
    ({ closed := [[9], [1, 2], []], cur := some [3] } : Segs Nat) := by decide

/-- C39: `append_current` does to the buffer what `extend_current` with the same elements does, and empties its argument. -/
theorem C39_append_drains (s : SplitVec α) (xs : List α) :
    (s.appendCurrent xs).1 = s.extendCurrentFromSlice xs ∧ (s.appendCurrent xs).2 = [] := ⟨rfl, rfl⟩

/-- C38 for a `SpanBuffer` in any state: `count_spans` counts the spans that `iter` and `into_vec` list, `is_empty` and
`is_contiguous` say that there are none and at most one. -/
theorem C38_span_count (s : SpanBuffer) : s.intoVec = s.iter ∧ s.countSpans = s.iter.length ∧
    (s.isEmpty = true ↔ s.countSpans = 0) ∧ (s.isContiguous = true ↔ s.countSpans ≤ 1) := by
  obtain ⟨st, a, c⟩ := s
  cases a <;> cases st with
  | nil => simp [SpanBuffer.intoVec, SpanBuffer.iter, SpanBuffer.countSpans, SpanBuffer.isEmpty, SpanBuffer.isContiguous]
  | cons x st =>
    cases st <;>
      simp [SpanBuffer.intoVec, SpanBuffer.iter, SpanBuffer.countSpans, SpanBuffer.isEmpty, SpanBuffer.isContiguous]

/-- C38 for a `SpanBuffer` in any state: `check_sum` changes only what `sum` returns, which afterwards is the sum of the
spans, and answers whether it was before. -/
theorem C38_check_sum (s : SpanBuffer) : s.checkSum.2.iter = s.iter ∧ s.checkSum.2.intoVec = s.intoVec ∧
    s.checkSum.2.sum = s.iter.sum ∧ (s.checkSum.1 = true ↔ s.sum = s.iter.sum) ∧ (s.checkSum.1 = true → s.checkSum.2 = s) := by
  obtain ⟨st, a, c⟩ := s
  refine ⟨rfl, rfl, ?_, ?_, ?_⟩
  · cases a <;> simp [SpanBuffer.checkSum, SpanBuffer.sum, SpanBuffer.iter]
  · cases a <;> simp [SpanBuffer.checkSum, SpanBuffer.sum, SpanBuffer.iter]
  · intro h
    have h : c = st.sum := by simpa [SpanBuffer.checkSum] using h
    simp [SpanBuffer.checkSum, h]

example : (⟨[2, 3], some 4, 7⟩ : SpanBuffer).checkSum = (false, ⟨[2, 3], some 4, 5⟩) := rfl

/-- The feature-gated `SpanBuffer::unfreeze` breaks the books: it takes the last span back without
adjusting the cached sum (`sum` counts the span twice). -/
theorem C38_unfreeze_unbalances :
    ∃ s s' : SpanBuffer, s = (SpanBuffer.new.addActive 3).flush ∧ s.unfreeze = some s' ∧
      s.sum = 3 ∧ s'.iter.sum = 3 ∧ s'.sum = 6 ∧ s'.checkSum.1 = false := by
  refine ⟨_, _, rfl, rfl, ?_⟩
  decide

end Verif.Props
