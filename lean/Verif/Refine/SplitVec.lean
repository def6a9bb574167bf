import Verif.SplitVec
import Verif.Spec.Segments
/-
`SplitVec` implements `Segs`.
-/
namespace Verif

variable {α : Type}

/-- `s` represents the list of segments `g`. -/
structure SplitVec.Rep (s : SplitVec α) (g : Segs α) : Prop where
  buffer : s.buffer = g.contents
  stable : s.spans.stable = g.closed.map List.length
  active : s.spans.active = g.cur.map List.length
  cache : s.spans.cache = (g.closed.map List.length).sum

namespace SplitVec.Rep

variable {s : SplitVec α} {g : Segs α}

theorem contents_length (g : Segs α) :
    g.contents.length = (g.closed.map List.length).sum + (g.cur.map List.length).getD 0 := by
  obtain ⟨closed, cur⟩ := g
  cases cur <;> simp [Segs.contents, Segs.segments, List.length_flatten]

theorem sum (h : s.Rep g) : s.spans.sum = s.buffer.length := by
  rw [h.buffer, contents_length, SpanBuffer.sum, h.cache, h.active]

theorem balanced (h : s.Rep g) : s.isBalanced = true := by
  simp [SplitVec.isBalanced, h.sum]

theorem iter (h : s.Rep g) : s.spans.iter = g.segments.map List.length := by
  obtain ⟨closed, cur⟩ := g
  have h1 := h.stable
  have h2 := h.active
  simp only at h1 h2
  cases cur <;> simp [SpanBuffer.iter, Segs.segments, h1, h2]

theorem new : (SplitVec.new : SplitVec α).Rep .empty := ⟨rfl, rfl, rfl, rfl⟩

theorem fromVec (xs : List α) : (SplitVec.fromVec xs).Rep { closed := [], cur := some xs } :=
  ⟨by simp [SplitVec.fromVec, Segs.contents, Segs.segments], rfl, rfl, rfl⟩

theorem extendFromSlice (h : s.Rep g) (xs : List α) : (s.extendCurrentFromSlice xs).Rep (g.extend xs) := by
  obtain ⟨closed, cur⟩ := g
  obtain ⟨h1, h2, h3, h4⟩ := h
  refine ⟨?_, h2, ?_, h4⟩
  · cases cur <;> simp [SplitVec.extendCurrentFromSlice, SplitVec.increment, Segs.extend, h1, Segs.contents, Segs.segments]
  · cases cur <;> simp_all [SplitVec.extendCurrentFromSlice, SplitVec.increment, SpanBuffer.addActive, Segs.extend]

theorem extendCurrent_eq (xs : List α) : s.extendCurrent xs = s.extendCurrentFromSlice xs := by
  simp [SplitVec.extendCurrent, SplitVec.extendCurrentFromSlice]

theorem push_eq (x : α) : s.pushCurrent x = s.extendCurrentFromSlice [x] := rfl

theorem append_eq (xs : List α) : (s.appendCurrent xs).1 = s.extendCurrentFromSlice xs := rfl

theorem split (h : s.Rep g) : s.split.Rep g.split := by
  obtain ⟨closed, cur⟩ := g
  obtain ⟨h1, h2, h3, h4⟩ := h
  simp only at h2 h3 h4
  cases cur with
  | none =>
    rw [Option.map_none] at h3
    refine ⟨?_, ?_, ?_, ?_⟩ <;>
      simp [SplitVec.split, SpanBuffer.flush, h3, h2, h4, h1, Segs.split, Segs.contents, Segs.segments]
  | some c =>
    rw [Option.map_some] at h3
    refine ⟨?_, ?_, ?_, ?_⟩ <;>
      simp [SplitVec.split, SpanBuffer.flush, h3, h2, h4, h1, Segs.split, Segs.contents, Segs.segments]

theorem splitForce (h : s.Rep g) : s.splitForce.Rep g.splitForce := by
  obtain ⟨closed, cur⟩ := g
  obtain ⟨h1, h2, h3, h4⟩ := h
  simp only at h2 h3 h4
  cases cur with
  | none =>
    rw [Option.map_none] at h3
    refine ⟨?_, ?_, ?_, ?_⟩ <;>
      simp [SplitVec.splitForce, SpanBuffer.flushForce, h3, h2, h4, h1, Segs.splitForce, Segs.contents, Segs.segments]
  | some c =>
    rw [Option.map_some] at h3
    refine ⟨?_, ?_, ?_, ?_⟩ <;>
      simp [SplitVec.splitForce, SpanBuffer.flushForce, h3, h2, h4, h1, Segs.splitForce, Segs.contents, Segs.segments]

theorem cleave (h : s.Rep g) : s.cleave.Rep g.split.splitForce := h.split.splitForce

theorem concat (p : Profile) {s' : SplitVec α} {g' : Segs α} (h : s.Rep g) (h' : s'.Rep g') :
    ∃ r r', s.concat p s' = some (r, r') ∧ r.Rep (g.concat g') ∧ r'.Rep .empty := by
  have hs := h.split
  obtain ⟨h1, h2, h3, h4⟩ := h'
  refine ⟨{ buffer := s.buffer ++ s'.buffer, spans := (s.spans.append s'.spans).1 },
    { buffer := [], spans := (s.spans.append s'.spans).2 },
    by simp [SplitVec.concat, h.balanced, SplitVec.Rep.balanced ⟨h1, h2, h3, h4⟩], ?_, ?_⟩
  · have e1 := hs.stable
    have e4 := hs.cache
    simp only [SplitVec.split, Segs.split] at e1 e4
    refine ⟨?_, ?_, ?_, ?_⟩
    · simp [h.buffer, h1, Segs.concat, Segs.contents, Segs.segments]
    · simp [SpanBuffer.append, e1, h2, Segs.concat]
    · simp [SpanBuffer.append, h3, Segs.concat]
    · simp [SpanBuffer.append, e4, h4, Segs.concat]
  · have e3 := hs.active
    simp only [SplitVec.split, Segs.split, Option.map_none] at e3
    exact ⟨rfl, rfl, by simp [SpanBuffer.append, e3, Segs.empty], rfl⟩

theorem extend (h : s.Rep g) (ls : List (List α)) :
    (s.extend ls).Rep { closed := g.segments ++ ls, cur := none } := by
  unfold SplitVec.extend
  induction ls generalizing s g with
  | nil => simpa [Segs.split] using h.split
  | cons l ls ih =>
    rw [List.foldl_cons]
    have := ih (extendCurrent_eq (s := s.split) l ▸ h.split.extendFromSlice l)
    simpa [Segs.extend, Segs.split, Segs.segments] using this

theorem fromIter_aux (ls : List (List α)) : ∀ {s : SplitVec α} {c : List (List α)},
    s.Rep { closed := c, cur := none } →
    (ls.foldl (fun ret span => (ret.extendCurrent span).split) s).Rep { closed := c ++ ls, cur := none } := by
  induction ls with
  | nil => intro s c h; simpa using h
  | cons l ls ih =>
    intro s c h
    rw [List.foldl_cons]
    have h' : ((s.extendCurrent l).split).Rep { closed := c ++ [l], cur := none } := by
      have := (extendCurrent_eq (s := s) l ▸ h.extendFromSlice l).split
      simpa [Segs.extend, Segs.split, Segs.segments] using this
    simpa using ih h'

theorem fromIter (ls : List (List α)) : (SplitVec.fromIter ls).Rep { closed := ls, cur := none } := by
  simpa [SplitVec.fromIter] using fromIter_aux ls new

end SplitVec.Rep

/-- One operation on a family of `SplitVec`s; `none` is a panic. -/
def SplitVec.step (p : Profile) (m : Nat → SplitVec α) : SegOp α → Option (Nat → SplitVec α)
  | .new i => some (update m i .new)
  | .fromVec i xs => some (update m i (.fromVec xs))
  | .fromIter i ls => some (update m i (.fromIter ls))
  | .push i x => some (update m i ((m i).pushCurrent x))
  | .extendCurrent i xs => some (update m i ((m i).extendCurrent xs))
  | .extendFromSlice i xs => some (update m i ((m i).extendCurrentFromSlice xs))
  | .append i xs => some (update m i ((m i).appendCurrent xs).1)
  | .split i => some (update m i (m i).split)
  | .splitForce i => some (update m i (m i).splitForce)
  | .cleave i => some (update m i (m i).cleave)
  | .extend i ls => some (update m i ((m i).extend ls))
  | .concat i j =>
    if i = j then some m
    else ((m i).concat p (m j)).map fun r => update (update m i r.1) j r.2

/-- A list of operations. -/
def SplitVec.run (p : Profile) : List (SegOp α) → (Nat → SplitVec α) → Option (Nat → SplitVec α)
  | [], m => some m
  | op :: ops, m => (SplitVec.step p m op).bind (SplitVec.run p ops)

theorem update_rep {m : Nat → SplitVec α} {g : Nat → Segs α} (h : ∀ k, (m k).Rep (g k)) (i : Nat) {s : SplitVec α}
    {t : Segs α} (hs : s.Rep t) : ∀ k, (update m i s k).Rep (update g i t k) := by
  intro k
  unfold update
  split
  · exact hs
  · exact h k

theorem SplitVec.step_rep (p : Profile) {m : Nat → SplitVec α} {g : Nat → Segs α} (h : ∀ k, (m k).Rep (g k))
    (op : SegOp α) : ∃ m', SplitVec.step p m op = some m' ∧ ∀ k, (m' k).Rep (Segs.step g op k) := by
  cases op with
  | new i => exact ⟨_, rfl, update_rep h i .new⟩
  | fromVec i xs => exact ⟨_, rfl, update_rep h i (.fromVec xs)⟩
  | fromIter i ls => exact ⟨_, rfl, update_rep h i (.fromIter ls)⟩
  | push i x => exact ⟨_, rfl, update_rep h i ((h i).extendFromSlice [x])⟩
  | extendCurrent i xs =>
    exact ⟨_, rfl, update_rep h i (SplitVec.Rep.extendCurrent_eq (s := m i) xs ▸ (h i).extendFromSlice xs)⟩
  | extendFromSlice i xs => exact ⟨_, rfl, update_rep h i ((h i).extendFromSlice xs)⟩
  | append i xs => exact ⟨_, rfl, update_rep h i ((h i).extendFromSlice xs)⟩
  | split i => exact ⟨_, rfl, update_rep h i (h i).split⟩
  | splitForce i => exact ⟨_, rfl, update_rep h i (h i).splitForce⟩
  | cleave i => exact ⟨_, rfl, update_rep h i (h i).cleave⟩
  | extend i ls => exact ⟨_, rfl, update_rep h i ((h i).extend ls)⟩
  | concat i j =>
    by_cases hij : i = j
    · exact ⟨m, by simp [SplitVec.step, hij], by simpa [Segs.step, hij] using h⟩
    · obtain ⟨r, r', hc, h1, h2⟩ := SplitVec.Rep.concat p (h i) (h j)
      refine ⟨update (update m i r) j r', by simp [SplitVec.step, hij, hc], ?_⟩
      simp only [Segs.step, if_neg hij]
      exact update_rep (update_rep h i h1) j h2

theorem SplitVec.run_rep (p : Profile) (ops : List (SegOp α)) :
    ∀ {m : Nat → SplitVec α} {g : Nat → Segs α}, (∀ k, (m k).Rep (g k)) →
    ∃ m', SplitVec.run p ops m = some m' ∧ ∀ k, (m' k).Rep (Segs.run ops g k) := by
  induction ops with
  | nil => intro m g h; exact ⟨m, rfl, h⟩
  | cons op ops ih =>
    intro m g h
    obtain ⟨m1, h1, hr1⟩ := SplitVec.step_rep p h op
    obtain ⟨m2, h2, hr2⟩ := ih hr1
    exact ⟨m2, by simp [SplitVec.run, h1, h2], hr2⟩

/-! ### Iteration over spans -/

theorem Spans.next_cons (p : Profile) (l : List α) (ls : List (List α)) :
    Spans.next p { buf := (l :: ls).flatten, lens := (l :: ls).map List.length } =
      some (some l, { buf := ls.flatten, lens := ls.map List.length }) := by
  simp [Spans.next]

theorem Spans.next_nil (p : Profile) : Spans.next (α := α) p { buf := [], lens := [] } = some (none, ⟨[], []⟩) := by
  simp [Spans.next]

theorem Spans.nextBack_concat (p : Profile) (l : List α) (ls : List (List α)) :
    Spans.nextBack p { buf := (ls ++ [l]).flatten, lens := (ls ++ [l]).map List.length } =
      some (some l, { buf := ls.flatten, lens := ls.map List.length }) := by
  simp [Spans.nextBack]

/-- Take from the front (`false`) or the back (`true`) as told. -/
def Spans.run (p : Profile) : List Bool → Spans α → Option (List (Option (List α)) × Spans α)
  | [], s => some ([], s)
  | b :: bs, s =>
    (if b then s.nextBack p else s.next p).bind fun r => (Spans.run p bs r.2).map fun q => (r.1 :: q.1, q.2)

/-- Taking from the two ends of a list. -/
def dequeRun {β : Type} : List Bool → List β → List (Option β) × List β
  | [], l => ([], l)
  | true :: bs, l => let q := dequeRun bs l.dropLast; (l.getLast? :: q.1, q.2)
  | false :: bs, l => let q := dequeRun bs l.tail; (l.head? :: q.1, q.2)

theorem Spans.run_eq (p : Profile) (bs : List Bool) : ∀ ls : List (List α),
    Spans.run p bs { buf := ls.flatten, lens := ls.map List.length } =
      some ((dequeRun bs ls).1, { buf := (dequeRun bs ls).2.flatten, lens := (dequeRun bs ls).2.map List.length }) := by
  induction bs with
  | nil => intro ls; rfl
  | cons b bs ih =>
    intro ls
    cases b with
    | false =>
      cases ls with
      | nil =>
        have := ih []
        simp only [List.flatten_nil, List.map_nil] at this
        simp [Spans.run, Spans.next, dequeRun, this]
      | cons l ls => simp [Spans.run, Spans.next, dequeRun, ih ls]
    | true =>
      rcases List.eq_nil_or_concat ls with rfl | ⟨ls, l, rfl⟩
      · have := ih []
        simp only [List.flatten_nil, List.map_nil] at this
        simp [Spans.run, Spans.nextBack, dequeRun, this]
      · simp [Spans.run, Spans.nextBack, dequeRun, ih ls]

theorem SplitVec.renderGo_eq (f : List α → String) : ∀ ls : List (List α),
    SplitVec.renderGo f ls.flatten (ls.map List.length) =
      some (ls.foldr (fun l r => f l ++ "|" ++ r) "]")
  | [] => rfl
  | l :: ls => by
    simp [SplitVec.renderGo, SplitVec.renderGo_eq f ls]

end Verif
