import Verif.Refine.Cleanup
/-
C41: what a parser has left.
-/
namespace Verif.Props

/-- The bytes in a left-over state. -/
def leftBytes : Leftover → Bytes
  | .empty => []
  | .windowless b => b
  | .windowed sv => sv.intoInner

/-- The segments of a left-over state as lengths. -/
def leftLens : Leftover → List Nat
  | .empty => []
  | .windowless b => [b.length]
  | .windowed sv => sv.intoParts.2

theorem rep_bytes {l : Leftover} {g : Segs Byte} (h : l.Rep g) : leftBytes l = g.contents := by
  cases l with
  | empty => cases h; rfl
  | windowless b => cases h; simp [leftBytes, Segs.contents, Segs.segments]
  | windowed sv => exact h.1.buffer

theorem rep_len {l : Leftover} {g : Segs Byte} (h : l.Rep g) : l.len = g.contents.length := by
  cases l with
  | empty => cases h; rfl
  | windowless b => cases h; simp [Leftover.len, Segs.contents, Segs.segments]
  | windowed sv => exact congrArg List.length h.1.buffer

theorem rep_lens {l : Leftover} {g : Segs Byte} (h : l.Rep g) : leftLens l = g.segments.map List.length := by
  cases l with
  | empty => cases h; rfl
  | windowless b => cases h; rfl
  | windowed sv =>
    have := h.1.iter
    rw [← this]
    show sv.spans.intoVec = sv.spans.iter
    unfold SpanBuffer.intoVec SpanBuffer.iter
    cases sv.spans.active <;> simp

theorem rep_isEmpty {l : Leftover} {g : Segs Byte} (h : l.Rep g) (hcur : g.cur ≠ some []) : l.isEmpty = true ↔ g.segments = [] := by
  cases l with
  | empty => cases h; simp [Leftover.isEmpty, Segs.segments, Segs.empty]
  | windowless b =>
    cases h
    simp only [Leftover.isEmpty, Segs.segments, List.isEmpty_iff]
    constructor
    · rintro rfl; exact absurd rfl hcur
    · intro h; simp at h
  | windowed sv =>
    obtain ⟨h1, h2⟩ := h
    have hs : sv.spans.stable ≠ [] := by rw [h1.stable]; simpa using h2
    simp only [Leftover.isEmpty, SplitVec.isEmpty, SpanBuffer.isEmpty, Bool.and_eq_true, List.isEmpty_iff]
    constructor
    · rintro ⟨_, h, _⟩; exact absurd h hs
    · intro h
      simp only [Segs.segments, List.append_eq_nil_iff] at h
      exact absurd h.1 h2

/-- C41 for `ByteParser` and `MemoParser`, in any state reached (whatever the caller did, see
`C41_reached_partial`): `v` is what is readable, `vs` what the enclosing scopes hold, so `v ++ vs.flatten` is unread.
`cleanup` returns, without error; the parser ends with all windows closed and nothing to read; the left-over
state has exactly the unread bytes, cut at the ends of the windows (an empty last piece is dropped); it is `Empty` or `Windowless` exactly if no
window was open; and it counts as empty exactly if nothing was unread and no window open. -/
theorem C41_cleanup (p : Profile) (k : Backend) (hk : k ≠ .slice) (v : Bytes) (vs : List Bytes) (s : k.State)
    (h : k.Holds v vs s) :
    ∃ l s', k.cleanup p s = .ok (.ok l) s' ∧ k.Holds [] [] s' ∧
      leftBytes l = v ++ vs.flatten ∧ l.len = (v ++ vs.flatten).length ∧
      leftLens l = (if (v :: vs).getLastD [] = [] then (v :: vs).dropLast else v :: vs).map List.length ∧
      (vs = [] → l = if v = [] then .empty else .windowless v) ∧ (vs ≠ [] → ∃ sv, l = .windowed sv) ∧
      (l.isEmpty = true ↔ v = [] ∧ vs = []) := by
  obtain ⟨l, s', e, h', hl⟩ := Backend.cleanup_eq p hk h
  have hc := leftSegs_contents [] v vs
  simp only [List.flatten_nil, List.nil_append] at hc
  have hclosed := leftSegs_closed [] v vs
  have hcur := leftSegs_cur [] v vs
  rw [List.nil_append] at hclosed
  have hsplit : v :: vs = (v :: vs).dropLast ++ [(v :: vs).getLastD []] := by
    rw [List.getLastD_eq_getLast?, List.getLast?_eq_some_getLast (by simp)]
    exact (List.dropLast_concat_getLast (by simp)).symm
  refine ⟨l, s', e, h', by rw [rep_bytes hl, hc], by rw [rep_len hl, hc], ?_, ?_, ?_, ?_⟩
  · rw [rep_lens hl, Segs.segments, hclosed, hcur]
    split
    · simp
    · have := congrArg (List.map List.length) hsplit
      rw [this]
      simp
  · rintro rfl
    have hg : leftSegs [] v [] = { closed := [], cur := if v = [] then none else some v } := rfl
    rw [hg] at hl
    cases l with
    | empty =>
      have : (if v = [] then none else some v) = none := congrArg Segs.cur hl
      split at this
      · rename_i hv; rw [if_pos hv]
      · cases this
    | windowless b =>
      have : (if v = [] then none else some v) = some b := congrArg Segs.cur hl
      split at this
      · cases this
      · rename_i hv; cases this; rw [if_neg hv]
    | windowed sv => exact absurd rfl hl.2
  · intro hne
    cases l with
    | empty =>
      have : (leftSegs [] v vs).closed = [] := congrArg Segs.closed hl
      rw [hclosed] at this
      cases vs with
      | nil => exact absurd rfl hne
      | cons w vs => simp at this
    | windowless b =>
      have : (leftSegs [] v vs).closed = [] := congrArg Segs.closed hl
      rw [hclosed] at this
      cases vs with
      | nil => exact absurd rfl hne
      | cons w vs => simp at this
    | windowed sv => exact ⟨sv, rfl⟩
  · have hne : (leftSegs [] v vs).cur ≠ some [] := by
      rw [hcur]
      split
      · nofun
      · rename_i hn; intro h; exact hn (Option.some.inj h)
    rw [rep_isEmpty hl hne, Segs.segments, hclosed, hcur]
    cases vs with
    | nil => by_cases hv : v = [] <;> simp [hv]
    | cons w vs => simp

/-- C41: all states `ByteParser` and `MemoParser` can get into are covered, however they are used, unless a request
has wrapped in a release build (see `C41_byteparser_any`). -/
theorem C41_reached_partial (p : Profile) (k : Backend) (hk : k ≠ .slice) (buf : Bytes) (hb : buf.length ≤ isizeMax) (ops : List Op)
    (ha : p = .debug ∨ Cursor.Fits ops (Cursor.start buf)) (s : k.State) (he : (k.ops p).exec ops (k.init buf) = some s) :
    ∃ l s', k.cleanup p s = .ok (.ok l) s' ∧ leftBytes l = (Cursor.exec ops (Cursor.start buf)).unread ∧
      (l.isEmpty = true → (Cursor.exec ops (Cursor.start buf)).unread = []) := by
  have hH : k.Holds (Cursor.exec ops (Cursor.start buf)).top (Cursor.exec ops (Cursor.start buf)).outer s := by
    match k, hk, s, he with
    | .byte, _, _, he => exact ⟨buf, _, byte_exec hb ha he⟩
    | .memo, _, _, he => exact ⟨buf, _, memo_exec hb ha he⟩
  obtain ⟨l, s', e, _, h1, _, _, _, _, h2⟩ := C41_cleanup p k hk _ _ s hH
  refine ⟨l, s', e, h1, fun h => ?_⟩
  obtain ⟨h3, h4⟩ := h2.mp h
  rw [Cursor.unread, h3, h4]
  rfl

/-- C02, the leftover bytes: after the same calls on the same input, the left-over states of `ByteParser` and
`MemoParser` have the same bytes in the same segments. -/
theorem C02_same_leftover (p : Profile) (buf : Bytes) (hb : buf.length ≤ isizeMax) (ops : List Op)
    (ha : p = .debug ∨ Cursor.Fits ops (Cursor.start buf)) (s : ByteParser) (m : MemoParser)
    (hs : (ByteParser.ops p).exec ops (ByteParser.fromBuffer buf) = some s)
    (hm : (MemoParser.ops p).exec ops (MemoParser.fromBuffer buf) = some m) :
    ∃ l l' s' m', Backend.cleanup p .byte s = .ok (.ok l) s' ∧ Backend.cleanup p .memo m = .ok (.ok l') m' ∧
      leftBytes l' = leftBytes l ∧ leftLens l' = leftLens l ∧ l'.len = l.len ∧ l'.isEmpty = l.isEmpty := by
  have h1 : Backend.Holds .byte (Cursor.exec ops (Cursor.start buf)).top (Cursor.exec ops (Cursor.start buf)).outer s :=
    ⟨buf, _, byte_exec hb ha hs⟩
  have h2 : Backend.Holds .memo (Cursor.exec ops (Cursor.start buf)).top (Cursor.exec ops (Cursor.start buf)).outer m :=
    ⟨buf, _, memo_exec hb ha hm⟩
  obtain ⟨l, s', e, _, hl1, hl2, hl3, _, _, hl4⟩ := C41_cleanup p .byte nofun _ _ s h1
  obtain ⟨l', m', e', _, hl1', hl2', hl3', _, _, hl4'⟩ := C41_cleanup p .memo nofun _ _ m h2
  exact ⟨l, l', s', m', e, e', hl1'.trans hl1.symm, hl3'.trans hl3.symm, hl2'.trans hl2.symm,
    Bool.eq_iff_iff.mpr (hl4'.trans hl4.symm)⟩

example : ∃ s m, (ByteParser.ops .debug).exec [.consumeByte, .setFit 1] (ByteParser.fromBuffer [1, 2, 3]) = some s ∧
    (MemoParser.ops .debug).exec [.consumeByte, .setFit 1] (MemoParser.fromBuffer [1, 2, 3]) = some m :=
  ⟨_, _, rfl, rfl⟩

/-- C41 for `SliceParser`, in any state whatsoever: `cleanup` returns, without error, all the bytes of all the
views in order, one segment per view; the parser ends without views. -/
theorem C41_slice (p : Profile) (s : SliceParser) :
    ∃ l, Backend.cleanup p .slice s = .ok (.ok l) ⟨[]⟩ ∧ leftBytes l = s.views.flatten ∧
      l.len = s.views.flatten.length ∧ leftLens l = s.views.map List.length ∧
      (l.isEmpty = true ↔ s.views = []) := by
  obtain ⟨l, e, hl⟩ := SliceParser.cleanup_eq p s
  have hs : ({ closed := s.views, cur := none } : Segs Byte).segments = s.views := by simp [Segs.segments]
  refine ⟨l, e, ?_, ?_, ?_, ?_⟩
  · rw [rep_bytes hl, Segs.contents, hs]
  · rw [rep_len hl, Segs.contents, hs]
  · rw [rep_lens hl, hs]
  · rw [rep_isEmpty hl (by simp), hs]

/-- The documentation of `is_empty` ("contains no leftover bytes … `Windowed` … constructors that contain no
bytes also yield `true`") does not hold: a parser with an open window and nothing unread, and any `SliceParser`
that has read everything, has a left-over state of length 0 that is not empty. -/
theorem C41_is_empty_misses :
    (∃ s l s', (ByteParser.ops .release).exec [.setFit 0] (ByteParser.fromBuffer []) = some s ∧
      Backend.cleanup .release .byte s = .ok (.ok l) s' ∧ l.len = 0 ∧ l.isEmpty = false) ∧
    (∃ l s', Backend.cleanup .release .slice (SliceParser.fromBuffer []) = .ok (.ok l) s' ∧ l.len = 0 ∧ l.isEmpty = false) := by
  constructor
  · have hH : Backend.Holds .byte [] [[]] (⟨[], ⟨0, [0], 0⟩⟩ : ByteParser) :=
      ⟨[], _, byte_exec (ops := [.setFit 0]) (p := .release) (by decide) (.inr (by simp [Cursor.Fits, Cursor.Overflows, Cursor.start, Op.arg, usizeMod])) rfl⟩
    obtain ⟨l, s', e, _, _, h1, _, _, _, h2⟩ := C41_cleanup .release .byte nofun _ _ _ hH
    refine ⟨_, l, s', rfl, e, h1, ?_⟩
    cases he : l.isEmpty with
    | false => rfl
    | true => exact absurd (h2.mp he).2 (by simp)
  · obtain ⟨l, e, _, h1, _, h2⟩ := C41_slice .release (SliceParser.fromBuffer [])
    refine ⟨l, _, e, h1, ?_⟩
    cases he : l.isEmpty with
    | false => rfl
    | true => exact absurd (h2.mp he) (by simp [SliceParser.fromBuffer])

/-- What can be done with a left-over state. -/
inductive LeftOp where
  | append (bs : Bytes)
  | escapeContext

/-- The state after some calls. -/
def leftRun (l : Leftover) : List LeftOp → Leftover
  | [] => l
  | .append bs :: ops => leftRun (l.append bs).1 ops
  | .escapeContext :: ops => leftRun l.escapeContext ops

/-- The bytes appended between one call of `escape_context` and the next; nothing for the last stretch if nothing
was appended in it. -/
def stretches (cur : Option Bytes) : List LeftOp → List Bytes
  | [] => cur.toList
  | .append bs :: ops => stretches (some (cur.getD [] ++ bs)) ops
  | .escapeContext :: ops => cur.getD [] :: stretches none ops

theorem leftRun_rep : ∀ (ops : List LeftOp) (l : Leftover) (g : Segs Byte), l.Rep g →
    ∃ g', (leftRun l ops).Rep g' ∧ g'.segments = g.closed ++ stretches g.cur ops
  | [], l, g, h => ⟨g, h, by cases hg : g.cur <;> simp [Segs.segments, stretches, hg]⟩
  | .append bs :: ops, l, g, h => by
    obtain ⟨g', h1, h2⟩ := leftRun_rep ops _ _ (h.append bs)
    refine ⟨g', h1, h2.trans ?_⟩
    simp [stretches, Segs.extend]
  | .escapeContext :: ops, l, g, h => by
    obtain ⟨g', h1, h2⟩ := leftRun_rep ops _ _ h.escape
    refine ⟨g', h1, h2.trans ?_⟩
    simp [stretches, Segs.splitForce]

/-- C41 for the type of left-over states itself, any sequence of calls on a new one: it has the appended bytes in
order, and its segments are the stretches between the calls of `escape_context`. -/
theorem C41_leftover (ops : List LeftOp) :
    leftBytes (leftRun .new ops) = (stretches none ops).flatten ∧
      (leftRun .new ops).len = (stretches none ops).flatten.length ∧
      leftLens (leftRun .new ops) = (stretches none ops).map List.length := by
  obtain ⟨g, h1, h2⟩ := leftRun_rep ops .new .empty rfl
  have h3 : g.segments = stretches none ops := h2
  exact ⟨by rw [rep_bytes h1, Segs.contents, h3], by rw [rep_len h1, Segs.contents, h3], by rw [rep_lens h1, h3]⟩

example : stretches none [.append [1], .append [2], .escapeContext, .escapeContext, .append [3]] = [[1, 2], [], [3]] := rfl

/-- The documentation of `append` ("After this call, `other` is left empty") holds except for the first call on a
new state, which copies the bytes and leaves them in `other`. -/
theorem C41_append_drains (l : Leftover) (bs : Bytes) :
    (l.append bs).2 = match l with
      | .empty => bs
      | _ => [] := by
  cases l with
  | empty => rfl
  | windowless b => rfl
  | windowed sv => rfl

example : ∃ s l s', (ByteParser.ops .debug).exec [.consume 1, .setFit 3, .consume 1] (ByteParser.fromBuffer [1, 2, 3, 4, 5]) = some s ∧
    Backend.cleanup .debug .byte s = .ok (.ok l) s' ∧ leftBytes l = [3, 4, 5] := by
  obtain ⟨l, s', e, h, _⟩ := C41_reached_partial .debug .byte nofun [1, 2, 3, 4, 5] (by decide) [.consume 1, .setFit 3, .consume 1]
    (.inl rfl) ⟨[1, 2, 3, 4, 5], ⟨5, [4], 2⟩⟩ rfl
  exact ⟨_, l, s', rfl, e, h⟩

end Verif.Props
