import Verif.Props.Recursive
import Verif.Props.CompareBuilders
/-
C73: targets keep the equations documented for them, and every user-defined target that keeps them receives exactly the
encoding.
-/
namespace Verif

/-- `x.push_one(b0) + x.push_one(b1) + …`: what the documentation of `trait Target` (src/conv/target.rs:36-72) says
`push_many` and `push_all` should be indistinguishable from. -/
def TargetOps.oneByOne {τ : Type} (T : TargetOps τ) : Bytes → τ → Nat × τ
  | [], t => (0, t)
  | b :: bs, t =>
    let r := T.pushOne b t
    let q := T.oneByOne bs r.2
    (r.1 + q.1, q.2)

/-- The equations documented for `trait Target` (src/conv/target.rs:12-97), for a target of which `obs` can be seen and
on which one more byte has the visible effect `feed`: `push_one` answers 1; `push_many` and `push_all` are the same as
pushing one byte after the other; `anticipate` and `resolve` have no visible effect. -/
structure TargetOps.Documented {τ β : Type} (T : TargetOps τ) (obs : τ → β) (feed : β → Byte → β) : Prop where
  pushOne : ∀ b t, (T.pushOne b t).1 = 1 ∧ obs (T.pushOne b t).2 = feed (obs t) b
  pushMany : ∀ bs t, (T.pushMany bs t).1 = (T.oneByOne bs t).1 ∧ obs (T.pushMany bs t).2 = obs (T.oneByOne bs t).2
  pushAll : ∀ bs t, (T.pushAll bs t).1 = (T.oneByOne bs t).1 ∧ obs (T.pushAll bs t).2 = obs (T.oneByOne bs t).2
  anticipate : ∀ n t, obs (T.anticipate n t) = obs t
  resolve : ∀ t, obs (T.resolve t) = obs t

namespace Props

open Codec

variable {τ β : Type} {T : TargetOps τ} {obs : τ → β} {feed : β → Byte → β}

theorem oneByOne_eq (h : T.Documented obs feed) : ∀ (bs : Bytes) (t : τ),
    (T.oneByOne bs t).1 = bs.length ∧ obs (T.oneByOne bs t).2 = bs.foldl feed (obs t)
  | [], t => ⟨rfl, rfl⟩
  | b :: bs, t => by
    obtain ⟨h1, h2⟩ := h.pushOne b t
    obtain ⟨h3, h4⟩ := oneByOne_eq h bs (T.pushOne b t).2
    refine ⟨?_, ?_⟩
    · simp only [TargetOps.oneByOne, h1, h3, List.length_cons]; omega
    · simp only [TargetOps.oneByOne, h4, h2, List.foldl_cons]

/-- A target keeping the documented equations is lawful. -/
theorem documented_lawful (h : T.Documented obs feed) (t₀ : τ) :
    LawfulTarget T (fun w t => obs t = w.foldl feed (obs t₀)) where
  anticipate n hr := (h.anticipate n _).trans hr
  pushOne b hr := by
    refine ⟨(h.pushOne b _).1, ?_⟩
    show obs (T.pushOne b _).2 = _
    rw [(h.pushOne b _).2, hr, List.foldl_append]; rfl
  pushMany a hr := by
    refine ⟨(h.pushMany a _).1.trans (oneByOne_eq h a _).1, ?_⟩
    show obs (T.pushMany a _).2 = _
    rw [(h.pushMany a _).2, (oneByOne_eq h a _).2, hr, List.foldl_append]
  pushAll a hr := by
    refine ⟨(h.pushAll a _).1.trans (oneByOne_eq h a _).1, ?_⟩
    show obs (T.pushAll a _).2 = _
    rw [(h.pushAll a _).2, (oneByOne_eq h a _).2, hr, List.foldl_append]
  resolve hr := (h.resolve _).trans hr

/-- C73: on every target that keeps the documented equations – user-defined ones included – `write_to` panics exactly if
`to_bytes` does, and otherwise returns the length of the encoding and has the visible effect of the bytes of the
encoding, one after the other. -/
theorem C73_user_targets (cfg : Cfg) (s : Schema) (x : s.Val) (h : T.Documented obs feed) (t : τ) :
    ((s.codec cfg).toBytes x = none ∧ (s.codec cfg).write T x t = none) ∨
    ∃ b t', (s.codec cfg).toBytes x = some b ∧ (s.codec cfg).write T x t = some (b.length, t') ∧
      obs t' = b.foldl feed (obs t) := by
  have hw : (s.codec cfg).Writes (s.out cfg) := s.writes_out cfg
  have ha := hw (documented_lawful h t) x [] t rfl
  rw [Writes.toBytes hw]
  cases he : s.out cfg x with
  | none => rw [he] at ha; exact .inl ⟨rfl, ha⟩
  | some b =>
    rw [he] at ha
    obtain ⟨t', h1, h2⟩ := ha
    exact .inr ⟨b, t', rfl, h1, h2⟩

/-- C73 for recursive type definitions. -/
theorem C73_user_targets_recursive (cfg : Cfg) (d : Decls) (i : Nat) (a : d.Val i) (h : T.Documented obs feed) (t : τ) :
    ((d.codec cfg i).toBytes a = none ∧ (d.codec cfg i).write T a t = none) ∨
    ∃ b t', (d.codec cfg i).toBytes a = some b ∧ (d.codec cfg i).write T a t = some (b.length, t') ∧
      obs t' = b.foldl feed (obs t) := by
  obtain ⟨n, x, rfl⟩ := d.exists_val a
  exact C73_user_targets cfg (d.unfold n i) x h t

/-- C73: `encode` into such a target gives what the bytes of the encoding make of a fresh one. -/
theorem C73_encode (cfg : Cfg) (s : Schema) (x : s.Val) (h : T.Documented obs feed) :
    ((s.codec cfg).encode T x).map obs = ((s.codec cfg).toBytes x).map fun b => b.foldl feed (obs T.create) := by
  rcases C73_user_targets cfg s x h T.create with ⟨h1, h2⟩ | ⟨b, t', h1, h2, h3⟩
  · simp [Codec.encode, h1, h2]
  · simp [Codec.encode, h1, h2, h3]

/-! ### the targets of the library -/

/-- C73: `Vec<u8>` keeps the documented equations, to the letter: nothing distinguishes the two sides. -/
theorem C73_vec (bs : Bytes) (t : Bytes) :
    vecTarget.pushMany bs t = vecTarget.oneByOne bs t ∧ vecTarget.pushAll bs t = vecTarget.pushMany bs t ∧
    (∀ n, vecTarget.anticipate n t = t) ∧ vecTarget.resolve t = t := by
  refine ⟨?_, rfl, fun _ => rfl, rfl⟩
  induction bs generalizing t with
  | nil => simp [vecTarget, TargetOps.oneByOne]
  | cons b bs ih =>
    have := ih (t ++ [b])
    simp only [vecTarget, TargetOps.oneByOne, List.append_assoc, List.singleton_append] at this ⊢
    rw [← this]
    simp [Nat.add_comm]

/-- C73: so does the counting sink … -/
theorem C73_sink (bs : Bytes) (t : Unit) :
    sinkTarget.pushMany bs t = sinkTarget.oneByOne bs t ∧ sinkTarget.pushAll bs t = sinkTarget.pushMany bs t ∧
    (∀ n, sinkTarget.anticipate n t = t) ∧ sinkTarget.resolve t = t := by
  refine ⟨?_, rfl, fun _ => rfl, rfl⟩
  induction bs with
  | nil => rfl
  | cons b bs ih =>
    simp only [sinkTarget, TargetOps.oneByOne] at ih ⊢
    rw [← ih]
    simp [Nat.add_comm]

/-- … `StrictBuilder` … -/
theorem C73_strict (bs : Bytes) (t : StrictBuilder) :
    strictTarget.pushMany bs t = strictTarget.oneByOne bs t ∧ strictTarget.pushAll bs t = strictTarget.pushMany bs t ∧
    (∀ n, strictTarget.anticipate n t = t) ∧ strictTarget.resolve t = t := by
  refine ⟨?_, rfl, fun _ => rfl, rfl⟩
  induction bs generalizing t with
  | nil => simp [strictTarget, vecTarget, TargetOps.oneByOne]
  | cons b bs ih =>
    have := ih ⟨t.vec ++ [b]⟩
    simp only [strictTarget, vecTarget, TargetOps.oneByOne, List.append_assoc, List.singleton_append] at this ⊢
    rw [← this]
    simp [Nat.add_comm]

/-- … and `HexString`. -/
theorem C73_hex (bs : Bytes) (t : HexString) :
    hexTarget.pushMany bs t = hexTarget.oneByOne bs t ∧ hexTarget.pushAll bs t = hexTarget.pushMany bs t ∧
    (∀ n, hexTarget.anticipate n t = t) ∧ hexTarget.resolve t = t := by
  refine ⟨?_, rfl, fun _ => rfl, rfl⟩
  induction bs generalizing t with
  | nil => simp [hexTarget, vecTarget, TargetOps.oneByOne]
  | cons b bs ih =>
    have := ih ⟨t.bytes ++ [b]⟩
    simp only [hexTarget, vecTarget, TargetOps.oneByOne, List.append_assoc, List.singleton_append] at this ⊢
    rw [← this]
    simp [Nat.add_comm]

/-- C73 (partial): `MemoBuilder` keeps them for arrays and slices that are not empty, whatever state it is in; the bytes it
holds are untouched by `anticipate` and `resolve`.  Missing: the empty slice, see `C73_memo_fails`. -/
theorem C73_memo_partial (bs : Bytes) (t : MemoBuilder) :
    (bs ≠ [] → memoTarget.pushMany bs t = memoTarget.oneByOne bs t) ∧ memoTarget.pushAll bs t = memoTarget.pushMany bs t ∧
    (memoTarget.pushMany bs t).1 = (memoTarget.oneByOne bs t).1 ∧
    (memoTarget.pushMany bs t).2.intoVec = (memoTarget.oneByOne bs t).2.intoVec ∧
    (∀ n, memoTarget.anticipate n t = t) ∧ (memoTarget.resolve t).intoVec = t.intoVec := by
  have key : ∀ (bs : Bytes) (t : MemoBuilder), bs ≠ [] → memoTarget.pushMany bs t = memoTarget.oneByOne bs t := by
    intro bs
    induction bs with
    | nil => intro t h; exact absurd rfl h
    | cons b bs ih =>
      intro t _
      cases bs with
      | nil => rfl
      | cons c bs =>
        have := ih (memoTarget.pushOne b t).2 (by simp)
        rw [TargetOps.oneByOne]
        simp only [← this]
        simp only [memoTarget, SplitVec.pushCurrent, SplitVec.extendCurrentFromSlice, SplitVec.increment, SpanBuffer.addActive,
          List.length_cons, List.append_assoc, List.singleton_append, Option.getD_some]
        refine Prod.ext (by simp; omega) ?_
        simp
        omega
  refine ⟨key bs t, rfl, ?_, ?_, fun _ => rfl, ?_⟩
  · cases bs with
    | nil => rfl
    | cons b bs => rw [key _ t (by simp)]
  · cases bs with
    | nil => simp [memoTarget, TargetOps.oneByOne, SplitVec.extendCurrentFromSlice, SplitVec.increment, MemoBuilder.intoVec,
        SplitVec.intoInner]
    | cons b bs => rw [key _ t (by simp)]
  · rfl

/-- C73 fails for `MemoBuilder` on the empty slice: pushing nothing is not the same as not pushing.  The builder compares
unequal to the one nothing was done to, and a following `resolve` records a segment that is not there otherwise. -/
theorem C73_memo_fails :
    memoTarget.pushAll [] memoTarget.create ≠ memoTarget.oneByOne [] memoTarget.create ∧
    (memoTarget.pushAll [] memoTarget.create).2.eqv (memoTarget.oneByOne [] memoTarget.create).2 = false ∧
    (memoTarget.resolve (memoTarget.pushAll [] memoTarget.create).2).display =
      some ['[', '|', '|', ']'] ∧
    (memoTarget.resolve (memoTarget.oneByOne [] memoTarget.create).2).display = some ['[', '|', ']'] := by
  refine ⟨by decide, by decide, rfl, rfl⟩

/-- C73: seen as the bytes they hold (or nothing at all), all targets of the library are `Documented`. -/
theorem C73_library :
    vecTarget.Documented id (fun w b => w ++ [b]) ∧ sinkTarget.Documented id (fun u _ => u) ∧
    strictTarget.Documented StrictBuilder.intoVec (fun w b => w ++ [b]) ∧
    hexTarget.Documented HexString.bytes (fun w b => w ++ [b]) ∧
    memoTarget.Documented MemoBuilder.intoVec (fun w b => w ++ [b]) := by
  refine ⟨⟨fun _ _ => ⟨rfl, rfl⟩, fun bs t => ?_, fun bs t => ?_, fun _ _ => rfl, fun _ => rfl⟩,
    ⟨fun _ _ => ⟨rfl, rfl⟩, fun bs t => ?_, fun bs t => ?_, fun _ _ => rfl, fun _ => rfl⟩,
    ⟨fun _ _ => ⟨rfl, rfl⟩, fun bs t => ?_, fun bs t => ?_, fun _ _ => rfl, fun _ => rfl⟩,
    ⟨fun _ _ => ⟨rfl, rfl⟩, fun bs t => ?_, fun bs t => ?_, fun _ _ => rfl, fun _ => rfl⟩,
    ⟨fun _ _ => ⟨rfl, rfl⟩, fun bs t => ?_, fun bs t => ?_, fun _ _ => rfl, fun _ => rfl⟩⟩
  · rw [(C73_vec bs t).1]; exact ⟨rfl, rfl⟩
  · rw [(C73_vec bs t).2.1, (C73_vec bs t).1]; exact ⟨rfl, rfl⟩
  · rw [(C73_sink bs t).1]; exact ⟨rfl, rfl⟩
  · rw [(C73_sink bs t).2.1, (C73_sink bs t).1]; exact ⟨rfl, rfl⟩
  · rw [(C73_strict bs t).1]; exact ⟨rfl, rfl⟩
  · rw [(C73_strict bs t).2.1, (C73_strict bs t).1]; exact ⟨rfl, rfl⟩
  · rw [(C73_hex bs t).1]; exact ⟨rfl, rfl⟩
  · rw [(C73_hex bs t).2.1, (C73_hex bs t).1]; exact ⟨rfl, rfl⟩
  · exact ⟨(C73_memo_partial bs t).2.2.1, (C73_memo_partial bs t).2.2.2.1⟩
  · rw [(C73_memo_partial bs t).2.1]
    exact ⟨(C73_memo_partial bs t).2.2.1, (C73_memo_partial bs t).2.2.2.1⟩

/-- A user-defined target: a checksum of what is written to it, and the number of writes (which may be seen to differ). -/
def checksumTarget : TargetOps (Nat × Nat) where
  create := (0, 0)
  anticipate _ t := t
  pushOne b t := (1, ((31 * t.1 + b.toNat) % 65521, t.2 + 1))
  pushMany bs t := (bs.length, (bs.foldl (fun h b => (31 * h + b.toNat) % 65521) t.1, t.2 + 1))
  pushAll bs t := (bs.length, (bs.foldl (fun h b => (31 * h + b.toNat) % 65521) t.1, t.2 + 1))
  resolve t := t

/-- It keeps the documented equations as far as the checksum is concerned … -/
theorem checksum_documented : checksumTarget.Documented Prod.fst (fun h b => (31 * h + b.toNat) % 65521) := by
  have key : ∀ (bs : Bytes) (t : Nat × Nat), (checksumTarget.oneByOne bs t).1 = bs.length ∧
      (checksumTarget.oneByOne bs t).2.1 = bs.foldl (fun h b => (31 * h + b.toNat) % 65521) t.1 := by
    intro bs
    induction bs with
    | nil => exact fun t => ⟨rfl, rfl⟩
    | cons b bs ih =>
      intro t
      obtain ⟨h1, h2⟩ := ih (checksumTarget.pushOne b t).2
      refine ⟨?_, ?_⟩
      · simp only [TargetOps.oneByOne, h1, List.length_cons]; simp only [checksumTarget]; omega
      · simp only [TargetOps.oneByOne, h2]; rfl
  exact ⟨fun _ _ => ⟨rfl, rfl⟩, fun bs t => ⟨(key bs t).1.symm, (key bs t).2.symm⟩,
    fun bs t => ⟨(key bs t).1.symm, (key bs t).2.symm⟩, fun _ _ => rfl, fun _ => rfl⟩

/-- … so it computes the checksum of the encoding. -/
example (p : Profile) (pad compl : Bool) :
    ((Schema.codec ⟨p, false, pad, compl⟩ (.dynamic .u8 (.seq (.int .u16)))).encode checksumTarget [1#16, 0x203#16]).map Prod.fst =
      some (([4, 0, 1, 2, 3] : Bytes).foldl (fun h b => (31 * h + b.toNat) % 65521) 0) :=
  (C73_encode ⟨p, false, pad, compl⟩ (.dynamic .u8 (.seq (.int .u16))) [1#16, 0x203#16] checksum_documented).trans (by
    refine (congrArg _ (toBytes_wire (s := .dynamic .u8 (.seq (.int .u16))) (x := [1#16, 0x203#16]) (.inl rfl))).trans ?_
    rfl)

/-- A target whose `push_all` forgets to count is not `Documented`. -/
example : ¬ TargetOps.Documented { vecTarget with pushAll := fun bs t => (1, t ++ bs) } id (fun w b => w ++ [b]) := by
  intro h
  exact absurd (h.pushAll [] []).1 (by decide)

end Props
end Verif
