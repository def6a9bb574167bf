import Verif.Lemmas.Width
import Verif.Refine.Reading
import Verif.Refine.Exact
/-
C08 (self-terminating reads) and the parser part of C44 (skipping, table search).
-/
namespace Verif.Props

/-- `pre` is the shortest prefix of `v` that ends in a byte satisfying `f`, `rest` is what follows. -/
def ShortestTerminated (f : Byte → Bool) (v pre rest : Bytes) : Prop :=
  v = pre ++ rest ∧ ∃ init last, pre = init ++ [last] ∧ f last = true ∧ ∀ b ∈ init, f b = false

/-- The specification does say "shortest": no shorter prefix ends in a byte satisfying `f`. -/
theorem ShortestTerminated.minimal {f : Byte → Bool} {v pre rest : Bytes} (h : ShortestTerminated f v pre rest)
    (pre' : Bytes) (b : Byte) (hp : pre' ++ [b] <+: v) (hb : f b = true) : pre.length ≤ pre'.length + 1 := by
  obtain ⟨rfl, init, last, rfl, hl, hi⟩ := h
  refine Nat.le_of_not_lt fun hlt => ?_
  simp only [List.length_append, List.length_cons, List.length_nil] at hlt
  have hpre : pre' ++ [b] <+: init := by
    apply List.prefix_of_prefix_length_le hp (l₂ := init)
    · exact ⟨[last] ++ rest, by simp⟩
    · simp; omega
  have := hi b (hpre.subset (by simp))
  rw [this] at hb
  cases hb

/-- Either some byte terminates, and then there is exactly one shortest terminated prefix, or none does. -/
theorem terminated_or_not (f : Byte → Bool) : ∀ v : Bytes,
    (∃ pre rest, ShortestTerminated f v pre rest) ∨ (∀ b ∈ v, f b = false)
  | [] => .inr (by simp)
  | b :: v => by
    by_cases hb : f b = true
    · exact .inl ⟨[b], v, rfl, [], b, rfl, hb, by simp⟩
    · rw [Bool.not_eq_true] at hb
      rcases terminated_or_not f v with ⟨pre, rest, rfl, init, last, rfl, hl, hi⟩ | h
      · refine .inl ⟨b :: (init ++ [last]), rest, rfl, b :: init, last, rfl, hl, ?_⟩
        intro x hx
        rcases List.mem_cons.mp hx with rfl | hx
        · exact hb
        · exact hi x hx
      · refine .inr fun x hx => ?_
        rcases List.mem_cons.mp hx with rfl | hx
        · exact hb
        · exact h x hx

/-- What C08 demands of a parser `P` in a state `s` whose readable bytes are `v`. -/
def SelfTermSpec {σ : Type} (P : ParserOps σ) (s : σ) (v : Bytes) : Prop :=
  ∀ f : Byte → Bool,
    (∀ pre rest, ShortestTerminated f v pre rest →
      ∃ s' s'', P.takeSelfTerminating f s = .ok pre s' ∧ P.remainder s' = .ok rest.length s' ∧
        P.consume rest.length s' = .ok rest s'') ∧
    ((∀ b ∈ v, f b = false) → ∃ s', P.takeSelfTerminating f s = .err (.token (.nonTerminating v)) s')

/-- C08 for any lawful parser; `R rest vs s'` says that nothing but the prefix has been consumed and
that the enclosing windows are as they were. -/
theorem C08_self_terminating_of_lawful {σ : Type} {P : ParserOps σ} {pan : Prop}
    {R : Bytes → List Bytes → σ → Prop} (L : Lawful P pan R) (f : Byte → Bool) {v : Bytes} {vs : List Bytes} {s : σ}
    (h : R v vs s) :
    (∀ pre rest, ShortestTerminated f v pre rest →
      ∃ s', P.takeSelfTerminating f s = .ok pre s' ∧ R rest vs s') ∧
    ((∀ b ∈ v, f b = false) →
      ∃ s', P.takeSelfTerminating f s = .err (.token (.nonTerminating v)) s' ∧ R [] vs s') := by
  constructor
  · rintro pre rest ⟨rfl, init, last, rfl, hl, hi⟩
    rw [List.append_assoc] at h
    exact selfTerm_some L f h hi hl
  · exact selfTerm_none L f h

theorem selfTermSpec_of_lawful {σ : Type} {P : ParserOps σ} {pan : Prop} {R : Bytes → List Bytes → σ → Prop}
    (L : Lawful P pan R) (hrem : ∀ {s s' n}, P.remainder s = .ok n s' → s' = s) {v : Bytes} {vs : List Bytes}
    {s : σ} (h : R v vs s) : SelfTermSpec P s v := by
  intro f
  obtain ⟨h1, h2⟩ := C08_self_terminating_of_lawful L f h
  constructor
  · intro pre rest hs
    obtain ⟨s', he, hr⟩ := h1 pre rest hs
    obtain ⟨s1, hm, _⟩ := L.remainder hr
    obtain ⟨s'', hc, _⟩ := L.consume_ok rest.length hr (Nat.le_refl _)
    rw [List.take_length] at hc
    have := hrem hm
    subst this
    exact ⟨s1, s'', he, hm, hc⟩
  · intro hf
    obtain ⟨s', he, _⟩ := h2 hf
    exact ⟨s', he⟩

theorem byte_rem_state {p : Profile} {s s' : ByteParser} {n : Nat}
    (h : (ByteParser.ops p).remainder s = .ok n s') : s' = s := by
  simp only [ByteParser.ops, ByteParser.remainder] at h
  split at h
  · exact ((Out.ok.injEq ..).mp h).2.symm
  · cases h

theorem memo_rem_state {p : Profile} {s s' : MemoParser} {n : Nat}
    (h : (MemoParser.ops p).remainder s = .ok n s') : s' = s := by
  simp only [MemoParser.ops, MemoParser.remainder] at h
  split at h
  · exact ((Out.ok.injEq ..).mp h).2.symm
  · cases h

theorem slice_rem_state {s s' : SliceParser} {n : Nat} (h : SliceParser.ops.remainder s = .ok n s') : s' = s := by
  simp only [SliceParser.ops, SliceParser.remainder] at h
  exact ((Out.ok.injEq ..).mp h).2.symm

/-- C08 for `ByteParser`, after any operations; partial: none may have wrapped in a release build, see
`C08_byteparser_any`. -/
theorem C08_byteparser_self_terminating_partial (p : Profile) (buf : Bytes) (hb : buf.length ≤ isizeMax)
    (ops : List Op) (ha : p = .debug ∨ Cursor.Fits ops (Cursor.start buf)) (s : ByteParser)
    (hs : (ByteParser.ops p).exec ops (ByteParser.fromBuffer buf) = some s) :
    SelfTermSpec (ByteParser.ops p) s (Cursor.exec ops (Cursor.start buf)).top := by
  have hrep := byte_exec hb ha hs
  exact selfTermSpec_of_lawful (byteLawful p buf) byte_rem_state (vs := (Cursor.exec ops (Cursor.start buf)).outer)
    ⟨_, hrep⟩

/-- C08 for `MemoParser`, likewise. -/
theorem C08_memoparser_self_terminating_partial (p : Profile) (buf : Bytes) (hb : buf.length ≤ isizeMax)
    (ops : List Op) (ha : p = .debug ∨ Cursor.Fits ops (Cursor.start buf)) (s : MemoParser)
    (hs : (MemoParser.ops p).exec ops (MemoParser.fromBuffer buf) = some s) :
    SelfTermSpec (MemoParser.ops p) s (Cursor.exec ops (Cursor.start buf)).top := by
  have hrep := memo_exec hb ha hs
  exact selfTermSpec_of_lawful (memoLawful p buf) memo_rem_state (vs := (Cursor.exec ops (Cursor.start buf)).outer)
    ⟨_, hrep⟩

/-- C08 for `SliceParser`, in every state with a current view. -/
theorem C08_sliceparser_self_terminating (v : Bytes) (vs : List Bytes) (hv : (v ++ vs.flatten).length ≤ isizeMax) :
    SelfTermSpec SliceParser.ops { views := v :: vs } v := by
  intro f
  exact selfTermSpec_of_lawful sliceLawful slice_rem_state (vs := vs) ⟨0, rfl, hv⟩ f

/-- Non-vacuity: both cases of C08 occur. -/
example : ShortestTerminated (fun b => b &&& 0x80 = 0) [0x81, 0x82, 0x03, 0x04] [0x81, 0x82, 0x03] [0x04] :=
  ⟨rfl, [0x81, 0x82], 0x03, rfl, by decide, by decide⟩
example : ∀ b ∈ ([0x81, 0x82] : Bytes), (fun b : Byte => decide (b &&& 0x80 = 0)) b = false := by decide

/-! ### C44 -/

/-- C44: `skip_exactly(n)` is `consume(n)` with the bytes dropped, in every state and for every `n`, for
`ByteParser` on requests whose end is a `usize` (see `C44_release_overflow` for the others). -/
theorem C44_byteparser_skip_exactly_partial (p : Profile) (buf : Bytes) (hb : buf.length ≤ isizeMax)
    (ops : List Op) (ha : p = .debug ∨ Cursor.Fits ops (Cursor.start buf)) (s : ByteParser)
    (hs : (ByteParser.ops p).exec ops (ByteParser.fromBuffer buf) = some s) (n : Nat)
    (hn : p = .debug ∨ (ByteParser.ops p).offset s + n < usizeMod) :
    (ByteParser.ops p).skipExactly n s = ((fun _ => ()) <$> (ByteParser.ops p).consume n) s := by
  obtain ⟨rfl, hi, _⟩ := byte_exec hb ha hs
  simp only [M.map_run, ByteParser.ops, ByteParser.skipExactly, ByteParser.consume]
  by_cases hle : n ≤ (absCursor s.buffer s.off).top.length
  · rw [advance_ok hi p hle]
    simp [slice_of_inv hi p hle]
  · by_cases ho : s.off.cur + n < usizeMod
    · rw [advance_short hi p ho (Nat.lt_of_not_le hle)]
      simp
    · obtain rfl := hn.resolve_right ho
      rw [advance_overflow_debug (Nat.not_lt.mp ho)]
      simp

/-- C44 for `MemoParser`: the same, up to the log of reads it keeps for diagnostics (which
`skip_exactly` does not extend). -/
theorem C44_memoparser_skip_exactly_partial (p : Profile) (buf : Bytes) (hb : buf.length ≤ isizeMax)
    (ops : List Op) (ha : p = .debug ∨ Cursor.Fits ops (Cursor.start buf)) (s : MemoParser)
    (hs : (MemoParser.ops p).exec ops (MemoParser.fromBuffer buf) = some s) (n : Nat)
    (hn : p = .debug ∨ (MemoParser.ops p).offset s + n < usizeMod) :
    ((MemoParser.ops p).skipExactly n s).mapS MemoParser.toByte =
      (((fun _ => ()) <$> (MemoParser.ops p).consume n) s).mapS MemoParser.toByte := by
  obtain ⟨hi, _⟩ := memo_exec hb ha hs
  have hbuf := hi.buf_eq
  subst hbuf
  simp only [M.map_run, MemoParser.ops, MemoParser.skipExactly, MemoParser.consume]
  by_cases hle : n ≤ (absCursor s.buffer s.off).top.length
  · rw [advance_ok hi.off p hle]
    simp [slice_of_inv hi.off p hle, Out.mapS, MemoParser.toByte]
  · by_cases ho : s.off.cur + n < usizeMod
    · rw [advance_short hi.off p ho (Nat.lt_of_not_le hle)]
      simp only [Bool.false_eq_true, if_false, MemoParser.failDump]
      split <;> rfl
    · obtain rfl := hn.resolve_right ho
      rw [advance_overflow_debug (Nat.not_lt.mp ho)]
      rfl

/-- The other requests: in release builds, whenever the end of the request is not a `usize`, `skip_exactly` succeeds
and moves the cursor backwards, where `consume` reads out of bounds. -/
theorem C44_release_overflow (buf : Bytes) (hb : buf.length ≤ isizeMax)
    (ops : List Op) (ha : Cursor.Fits ops (Cursor.start buf)) (s : ByteParser)
    (hs : (ByteParser.ops .release).exec ops (ByteParser.fromBuffer buf) = some s) (n : Nat) (hn : n < usizeMod)
    (ho : usizeMod ≤ (ByteParser.ops .release).offset s + n) :
    (ByteParser.ops .release).consume n s = .ub ∧
    ∃ s', (ByteParser.ops .release).skipExactly n s = .ok () s' ∧
      (ByteParser.ops .release).offset s' + usizeMod = (ByteParser.ops .release).offset s + n := by
  have hrep := byte_exec hb (.inr ha) hs
  have hpos : (ByteParser.ops .release).offset s = (Cursor.exec ops (Cursor.start buf)).pos := by rw [← hrep.2.2]; rfl
  rw [hpos] at ho ⊢
  exact ⟨byte_consume_overflow hrep hn ho, byte_skipExactly_overflow hrep hn ho⟩

/-- C44: `skip_exactly(n)` is `consume(n)` with the bytes dropped for `SliceParser`, in all states. -/
theorem C44_sliceparser_skip_exactly (s : SliceParser) (n : Nat) :
    SliceParser.ops.skipExactly n s = ((fun _ => ()) <$> SliceParser.ops.consume n) s := by
  simp only [M.map_run, SliceParser.ops, SliceParser.skipExactly, SliceParser.consume]
  obtain ⟨views⟩ := s
  cases views with
  | nil => rfl
  | cons v vs =>
    by_cases h : n ≤ v.length
    · simp [SliceParser.splitUnchecked, h]
    · simp [h]

/-- C44 fails for requests near `usize::MAX + 1` in release builds: `skip_exactly` succeeds and moves backwards, where `consume`
reads out of bounds and `SliceParser` reports an error. -/
theorem C44_release_wraps :
    (ByteParser.ops .release).trace [.consume 2, .skipExactly (usizeMod - 1), .offset] (ByteParser.fromBuffer [0, 0]) =
      [.ok (.bytes [0, 0]), .ok .unit, .ok (.nat 1)] ∧
    (MemoParser.ops .release).trace [.consume 2, .skipExactly (usizeMod - 1), .offset] (MemoParser.fromBuffer [0, 0]) =
      [.ok (.bytes [0, 0]), .ok .unit, .ok (.nat 1)] ∧
    (ByteParser.ops .release).trace [.consume 2, .consume (usizeMod - 1)] (ByteParser.fromBuffer [0, 0]) =
      [.ok (.bytes [0, 0]), .ub] ∧
    ∃ e, SliceParser.ops.trace [.consume 2, .skipExactly (usizeMod - 1), .remainder] (SliceParser.fromBuffer [0, 0]) =
      [.ok (.bytes [0, 0]), .err e, .ok (.nat 0)] := by
  refine ⟨by run_wide, by run_wide, by run_wide, by run_wide⟩

/-- C44: `skip(n)` moves past `min n remainder` bytes and says so. -/
theorem C44_skip_of_lawful {σ : Type} {P : ParserOps σ} {pan : Prop} {R : Bytes → List Bytes → σ → Prop}
    (L : Lawful P pan R) {v : Bytes} {vs : List Bytes} {s : σ} (h : R v vs s) (n : Nat) :
    ∃ s', P.skip n s = .ok (min v.length n) s' ∧ R (v.drop n) vs s' := L.skip n h

/-- C44: `fast_kv_search` over a table of `(key, value)` records: the records before the first one with
the wanted key are passed over, and then
* at the end of the input nothing is found,
* a record with the wanted key is returned and the rest left unread,
* a truncated key or a truncated value is an error. -/
theorem C44_fast_kv_search_of_lawful {σ : Type} {P : ParserOps σ} {pan : Prop} {R : Bytes → List Bytes → σ → Prop}
    (L : Lawful P pan R) {V : Type} (key : Bytes) (hkey : key.length ≤ isizeMax + 1) (N : Nat) (hN : N ≤ isizeMax + 1)
    (f : Bytes → V) (tbl : List (Bytes × Bytes)) (tail : Bytes) {vs : List Bytes} {s : σ}
    (htbl : ∀ e ∈ tbl, e.1.length = key.length ∧ e.2.length = N ∧ e.1 ≠ key)
    (h : R ((tbl.map fun e => e.1 ++ e.2).flatten ++ tail) vs s) :
    (tail = [] → ∃ s', P.fastKvSearch key N f s = .ok none s' ∧ R [] vs s') ∧
    (∀ x rest, tail ≠ [] → x.length = N → tail = key ++ x ++ rest →
      ∃ s', P.fastKvSearch key N f s = .ok (some (f x)) s' ∧ R rest vs s') ∧
    (tail ≠ [] → tail.length < key.length →
      ∃ e s', P.fastKvSearch key N f s = .err e s' ∧ e.kind = shortKind key.length tail.length) ∧
    (∀ k x, tail ≠ [] → tail = k ++ x → k.length = key.length → x.length < N →
      ∃ e s', P.fastKvSearch key N f s = .err e s' ∧ e.kind = shortKind N x.length) := by
  obtain ⟨s1, he, hr⟩ := kv_skips L key N f tbl h htbl
  rw [he]
  refine ⟨?_, ?_, ?_, ?_⟩
  · rintro rfl
    exact kv_empty L key N f hr
  · rintro x rest hne hx rfl
    exact kv_hit L key N f hr hx hne
  · intro hne hl
    obtain ⟨e, s', h1, h2, _⟩ := kv_shortKey L key N f hr hne hl hkey
    exact ⟨e, s', h1, h2⟩
  · rintro k x hne rfl hk hl
    obtain ⟨e, s', h1, h2, _⟩ := kv_shortVal L key N f hr hne hk hl hN
    exact ⟨e, s', h1, h2⟩

/-- Non-vacuity: a table of two records whose second one is wanted, read by `ByteParser`. -/
example : ∃ s', (ByteParser.ops .release).fastKvSearch [7] 2 id (ByteParser.fromBuffer [6, 0, 0, 7, 1, 2, 9]) =
    .ok (some [1, 2]) s' ∧ ByteR [6, 0, 0, 7, 1, 2, 9] [9] [] s' := by
  have := C44_fast_kv_search_of_lawful (byteLawful .release [6, 0, 0, 7, 1, 2, 9]) [7] (by decide) 2 (by decide) id
    [([6], [0, 0])] [7, 1, 2, 9] (by decide) (ByteR.start (by decide))
  exact this.2.1 [1, 2] [9] (by decide) rfl rfl

end Verif.Props
