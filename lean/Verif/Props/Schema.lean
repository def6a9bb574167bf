import Verif.Props.Builder
import Verif.Props.Decode
import Verif.Props.Prims
import Verif.Lemmas.Retext
import Verif.Fixed
/-
C35, C36, C37, C47, C48, C49, C51: properties of all schema types, on all targets and all parsers.
-/
namespace Verif.Props

open Codec

/-- What `to_bytes` gives is the format, if lengths are measured or the estimates are right. -/
theorem toBytes_wire {cfg : Cfg} {s : Schema} {x : s.Val}
    (h : cfg.encLenOverride = false ∨ (s.Valid x ∧ s.PrefixOk x)) : (s.codec cfg).toBytes x = s.wire x := by
  rw [Writes.toBytes (s.writes_out cfg)]
  rcases h with h | ⟨h1, h2⟩
  · rw [s.out_eq h]
  · exact s.out_eq_of_prefixOk cfg x h1 h2

/-! ### C35 -/

/-- C35: encoding into a byte vector, the strict builder, a hex string, the memo builder and the counting sink
either panics on all of them, whatever they hold, or appends the same bytes to what they hold and returns the
number of these bytes. -/
theorem C35_targets_agree (cfg : Cfg) (s : Schema) (x : s.Val) :
    ((s.codec cfg).toBytes x = none ∧ (∀ buf, (s.codec cfg).write vecTarget x buf = none) ∧
      (∀ t, (s.codec cfg).write strictTarget x t = none) ∧ (∀ t, (s.codec cfg).write hexTarget x t = none) ∧
      (∀ t w, MemoBuilder.Holds w t → (s.codec cfg).write memoTarget x t = none) ∧
      ∀ t, (s.codec cfg).write sinkTarget x t = none) ∨
    ∃ b, (s.codec cfg).toBytes x = some b ∧
      (∀ buf, (s.codec cfg).write vecTarget x buf = some (b.length, buf ++ b)) ∧
      (∀ t, (s.codec cfg).write strictTarget x t = some (b.length, ⟨t.vec ++ b⟩)) ∧
      (∀ t, (s.codec cfg).write hexTarget x t = some (b.length, ⟨t.bytes ++ b⟩)) ∧
      (∀ t w, MemoBuilder.Holds w t → t.intoVec = w ∧
        ∃ t', (s.codec cfg).write memoTarget x t = some (b.length, t') ∧ MemoBuilder.Holds (w ++ b) t' ∧ t'.intoVec = w ++ b) ∧
      ∀ t, (s.codec cfg).write sinkTarget x t = some (b.length, ()) := by
  have hw : (s.codec cfg).Writes (s.out cfg) := s.writes_out cfg
  rw [Writes.toBytes hw]
  have h1 := hw vecLawful x
  have h2 := hw strictLawful x
  have h3 := hw hexLawful x
  have h4 := hw memoTargetLawful x
  have h5 := hw sinkLawful x
  have hv : ∀ {w t}, MemoBuilder.Holds w t → t.intoVec = w := by
    rintro w t ⟨g, hr, rfl⟩
    exact hr.buffer
  cases he : s.out cfg x with
  | none =>
    rw [he] at h1 h2 h3 h4 h5
    exact .inl ⟨rfl, fun b => h1 b b rfl, fun t => h2 _ t rfl, fun t => h3 _ t rfl, fun t w h => h4 w t h, fun t => h5 [] t trivial⟩
  | some b =>
    rw [he] at h1 h2 h3 h4 h5
    refine .inr ⟨b, rfl, fun buf => ?_, fun t => ?_, fun t => ?_, fun t w h => ?_, fun t => ?_⟩
    · obtain ⟨_, e, rfl⟩ := h1 buf buf rfl
      exact e
    · obtain ⟨⟨v⟩, e, h⟩ := h2 _ t rfl
      simp only at h
      rw [e, h]
    · obtain ⟨⟨v⟩, e, h⟩ := h3 _ t rfl
      simp only at h
      rw [e, h]
    · obtain ⟨t', e, h'⟩ := h4 w t h
      exact ⟨hv h, t', e, h', hv h'⟩
    · obtain ⟨⟨⟩, e, -⟩ := h5 [] t trivial
      exact e

/-- C35: every memo builder made and used by any calls is one `C35_targets_agree` speaks about. -/
theorem C35_memo_reached (st : BuildStart) (ops : List BuildOp) :
    MemoBuilder.Holds (st.bytes ++ ops.flatMap BuildOp.bytes) ((MemoBuilder.start st).runOps ops).2 := by
  obtain ⟨-, g, h2, h3⟩ := memo_runOps ops (memo_start st)
  exact ⟨g, h2, by rw [Segs.contents, h3, List.nil_append, runs_flatten, start_run]⟩

/-! ### C36 -/

/-- C36: all the ways to encode give the same bytes: `write_to` returns how many, `encode` into each target,
`write_to_vec`, `to_bytes_full` and (when lengths are measured) `enc_len` agree with `to_bytes`. -/
theorem C36_agree (cfg : Cfg) (s : Schema) (x : s.Val) (b : Bytes) (h : (s.codec cfg).toBytes x = some b) :
    (∀ buf, (s.codec cfg).write vecTarget x buf = some (b.length, buf ++ b)) ∧
    (∀ buf, (s.codec cfg).writeToVec x buf = some (buf ++ b)) ∧
    (s.codec cfg).encode vecTarget x = some b ∧
    (s.codec cfg).encode strictTarget x = some ⟨b⟩ ∧
    (s.codec cfg).encode hexTarget x = some ⟨b⟩ ∧
    (s.codec cfg).encode sinkTarget x = some () ∧
    (∃ t, (s.codec cfg).encode memoTarget x = some t ∧ t.intoVec = b ∧ (MemoBuilder.ops.finalize t).buf = b) ∧
    (s.codec cfg).toBytesFull cfg x = some b ∧
    (cfg.encLenOverride = false → (s.codec cfg).encLen cfg x = some b.length) := by
  rcases C35_targets_agree cfg s x with ⟨h0, _⟩ | ⟨b', h0, h1, h2, h3, h4, h5⟩
  · rw [h] at h0; cases h0
  · rw [h] at h0
    cases h0
    have hlen : cfg.encLenOverride = false → (s.codec cfg).encLen cfg x = some b.length := by
      intro ho
      simp [Codec.encLen, ho, h5]
    refine ⟨h1, fun buf => by simp [Codec.writeToVec, h1], ?_, ?_, ?_, ?_, ?_, ?_, hlen⟩
    · simp [Codec.encode, h1]; rfl
    · simp [Codec.encode, h2]; rfl
    · simp [Codec.encode, h3]; rfl
    · simp [Codec.encode, h5]
    · obtain ⟨_, t, e, -, h'⟩ := h4 memoTarget.create [] memoCreate
      rw [List.nil_append] at h'
      exact ⟨t, by simp [Codec.encode, e], h', h'⟩
    · cases ho : cfg.encLenOverride with
      | false => simp [Codec.toBytesFull, hlen ho, Codec.writeToVec, h1]
      | true => simp [Codec.toBytesFull, Codec.encLen, ho, Codec.writeToVec, h1]

/-- C36: if `to_bytes` panics, so do all the others, except that an estimated `enc_len` may not notice. -/
theorem C36_panics (cfg : Cfg) (s : Schema) (x : s.Val) (h : (s.codec cfg).toBytes x = none) :
    (∀ buf, (s.codec cfg).writeToVec x buf = none) ∧ (s.codec cfg).encode strictTarget x = none ∧
    (s.codec cfg).encode hexTarget x = none ∧ (s.codec cfg).encode memoTarget x = none ∧
    (s.codec cfg).encode sinkTarget x = none ∧ (s.codec cfg).toBytesFull cfg x = none ∧
    (cfg.encLenOverride = false → (s.codec cfg).encLen cfg x = none) := by
  rcases C35_targets_agree cfg s x with ⟨-, h1, h2, h3, h4, h5⟩ | ⟨b', h0, _⟩
  · have hlen : cfg.encLenOverride = false → (s.codec cfg).encLen cfg x = none := by
      intro ho
      simp [Codec.encLen, ho, h5]
    refine ⟨fun buf => by simp [Codec.writeToVec, h1], by simp [Codec.encode, h2], by simp [Codec.encode, h3],
      by simp [Codec.encode, h4 _ _ memoCreate], by simp [Codec.encode, h5], ?_, hlen⟩
    cases ho : cfg.encLenOverride with
    | false => simp [Codec.toBytesFull, hlen ho]
    | true => simp [Codec.toBytesFull, Codec.encLen, ho, Codec.writeToVec, h1]
  · rw [h] at h0; cases h0

/-- C36 with the feature `enc_len_estimable_override`.  (Missing: `N` with value 0 and over- or underfull
sequences, for which the estimate is wrong; see `C36_override_fails`.) -/
theorem C36_override_partial (cfg : Cfg) (s : Schema) (x : s.Val) (hv : s.Valid x) (he : s.EstOk x) (b : Bytes)
    (h : (s.codec cfg).toBytes x = some b) : (s.codec cfg).encLen cfg x = some b.length := by
  cases ho : cfg.encLenOverride with
  | false => exact (C36_agree cfg s x b h).2.2.2.2.2.2.2.2 ho
  | true =>
    rw [toBytes_wire (.inr ⟨hv, he.prefixOk⟩)] at h
    simp [Codec.encLen, ho, s.estimate_eq cfg x b hv he h]

/-- C36 fails with the feature `enc_len_estimable_override`: `enc_len` of `N` zero is 0, `to_bytes` gives one byte. -/
theorem C36_override_fails (p : Profile) (pad compl : Bool) :
    (Schema.codec ⟨p, true, pad, compl⟩ .zarithN).encLen ⟨p, true, pad, compl⟩ (0 : Nat) = some 0 ∧
    (Schema.codec ⟨p, true, pad, compl⟩ .zarithN).toBytes (0 : Nat) = some [0] :=
  ⟨by show some (Codec.zarithN.estimate 0) = _; rw [(C16_N_estimate_fails_at_zero).2],
    (toBytes_N 0).trans (by rw [Enc.nat7]; rfl)⟩

/-- C36: the hand-written `encode`, `write_to_vec` and `to_bytes` of `Vec<u8>`, `Bytes`, `FixedBytes` and `()` do
what the default ones do. -/
theorem C36_overrides (p : Profile) {τ : Type} (T : TargetOps τ) {R : Bytes → τ → Prop} (hT : LawfulTarget T R)
    (hc : R [] T.create) :
    (∀ x buf, Codec.vecU8.writeToVec x buf = some (Override.vecWriteToVec x buf)) ∧
    (∀ x, Codec.vecU8.toBytes x = some (Override.vecToBytes x)) ∧
    (∀ x, Codec.vecU8.encode T x = Override.vecEncode p T x) ∧
    (∀ x buf, Codec.bytes.writeToVec x buf = some (Override.bytesWriteToVec x buf)) ∧
    (∀ x, Codec.bytes.toBytes x = some (Override.bytesToBytes x)) ∧
    (∀ x, Codec.bytes.encode T x = Override.bytesEncode T x) ∧
    (∀ n (x : ByteArr n) buf, (Codec.fixedBytes n).writeToVec x buf = some (Override.fixedWriteToVec x buf)) ∧
    (∀ n (x : ByteArr n), (Codec.fixedBytes n).toBytes x = some (Override.fixedToBytes x)) ∧
    (∀ n (x : ByteArr n), (Codec.fixedBytes n).encode T x = Override.fixedEncode T x) ∧
    (∀ x buf, Codec.unit.writeToVec x buf = some (Override.unitWriteToVec x buf)) ∧
    (∀ x, Codec.unit.toBytes x = some (Override.unitToBytes x)) ∧
    (∀ x, ∃ t, Codec.unit.encode T x = some t ∧ R [] t ∧ ∃ t', Override.unitEncode T x = some t' ∧ R [] t') := by
  refine ⟨fun x buf => Writes.writeToVec vecU8_writes x buf, fun x => Writes.toBytes vecU8_writes x, fun x => ?_,
    fun x buf => Writes.writeToVec bytes_writes x buf, fun x => Writes.toBytes bytes_writes x, fun _ => rfl,
    fun n x buf => Writes.writeToVec (fixedBytes_writes n) x buf, fun n x => Writes.toBytes (fixedBytes_writes n) x, fun _ _ => rfl,
    fun x buf => ?_, fun x => Writes.toBytes unit_writes x, fun x => ?_⟩
  · obtain ⟨t, h1, -⟩ := vecU8_writes hT x [] T.create hc
    simp [Codec.encode, Override.vecEncode, h1]
  · rw [Writes.writeToVec unit_writes x buf]
    simp [Enc.unit, Override.unitWriteToVec]
  · obtain ⟨t, h1, h2⟩ := unit_writes hT x [] T.create hc
    exact ⟨t, by simp [Codec.encode, h1], h2, _, rfl, hc⟩

example : (Schema.codec ⟨.debug, false, true, true⟩ (.dynamic .u8 (.option .bool))).toBytes (some true) = some [2, 0xff, 0xff] := by
  exact (toBytes_wire (s := .dynamic .u8 (.option .bool)) (x := some true) (.inl rfl)).trans (by decide)

/-! ### C37 -/

/-- C37: a statically known length is the length of every encoding of a well-formed value.  (Missing: underfull
fixed-size sequences; see `C37_fails`.) -/
theorem C37_known_partial (cfg : Cfg) (s : Schema) (n : Nat) (hk : (s.codec cfg).known = some n) (x : s.Val) (hv : s.Valid x)
    (b : Bytes) (hb : s.wire x = some b) : b.length = n := s.width_eq ((s.known_eq cfg).symm.trans hk) x b hv hb

/-- C37: the estimate is the length of the encoding.  (Missing: `N` zero, and sequences that hold fewer or more
elements than they should; see `C37_fails`.) -/
theorem C37_estimate_partial (cfg : Cfg) (s : Schema) (x : s.Val) (hv : s.Valid x) (he : s.EstOk x) (b : Bytes)
    (hb : (s.codec cfg).toBytes x = some b) : (s.codec cfg).estimate x = b.length ∧
      (∀ n, (s.codec cfg).known = some n → b.length = n) ∧ ((s.codec cfg).known = none → (s.codec cfg).unknown x = b.length) := by
  rw [toBytes_wire (.inr ⟨hv, he.prefixOk⟩)] at hb
  exact ⟨s.estimate_eq cfg x b hv he hb, fun n hn => C37_known_partial cfg s n hn x hv b hb,
    fun _ => s.unknown_eq cfg x b hv he hb⟩

/-- C37 fails: the estimate for `N` zero is 0 (the encoding has one byte); a fixed-size sequence that was never
filled has the known length of a full one (the encoding is empty). -/
theorem C37_fails (cfg : Cfg) :
    (Schema.codec cfg .zarithN).estimate (0 : Nat) = 0 ∧ (Schema.codec cfg .zarithN).toBytes (0 : Nat) = some [0] ∧
    (Schema.codec cfg (.fixSeq 2 .bool)).known = some 2 ∧ (Schema.codec cfg (.fixSeq 2 .bool)).estimate ([] : List Bool) = 2 ∧
    (Schema.codec cfg (.fixSeq 2 .bool)).toBytes ([] : List Bool) = some [] :=
  ⟨(C16_N_estimate_fails_at_zero).2, (toBytes_N 0).trans (by rw [Enc.nat7]; rfl), rfl, rfl,
    (Writes.toBytes (Schema.writes_out cfg (.fixSeq 2 .bool)) ([] : List Bool)).trans rfl⟩

example : Schema.Valid (.fixSeq 2 (.option .zarithN)) [some (5 : Nat), none] := by
  refine ⟨rfl, fun x hx y hy => trivial⟩
example : Schema.EstOk (.fixSeq 2 (.option .zarithN)) [some (5 : Nat), none] := by
  intro x hx y hy
  rcases List.mem_cons.mp hx with rfl | hx
  · cases hy; exact Nat.succ_ne_zero 4
  · rcases List.mem_cons.mp hx with rfl | hx
    · cases hy
    · cases hx

/-! ### C51 -/

/-- C51: whatever a well-formed value of a uniquely decodable type is encoded as, every parser decodes it back,
wherever it stands, leaving what follows (anything for self-delimiting types, the number of bytes reserved by
padding otherwise). -/
theorem C51_round_trip_partial (cfg : Cfg) (s : Schema) (ht : s.tagsOk) {tl : Tail} (htl : s.tail = some tl) (x : s.Val) (hv : s.Valid x)
    (he : cfg.encLenOverride = false ∨ s.PrefixOk x) (b : Bytes) (hb : (s.codec cfg).toBytes x = some b) (rest : Bytes)
    (hr : tl.Allows rest) : (s.codec cfg).Decodes cfg (b ++ rest) x rest := by
  rw [toBytes_wire (he.imp id fun h => ⟨hv, h⟩)] at hb
  exact Parses.decodes (s.parses cfg) (s.roundTrips cfg ht htl x b rest hv hb hr)

/-- C51: the same from bytes to value with `try_decode`. -/
theorem C51_try_decode_partial (cfg : Cfg) (s : Schema) (ht : s.tagsOk) {tl : Tail} (htl : s.tail = some tl) (hl : tl.Allows [])
    (x : s.Val) (hv : s.Valid x) (he : cfg.encLenOverride = false ∨ s.PrefixOk x) (b : Bytes)
    (hb : (s.codec cfg).toBytes x = some b) (hlen : b.length ≤ isizeMax) (k : Backend)
    (hk : cfg.completeParse = false ∨ k ≠ .slice) : (s.codec cfg).tryDecode cfg k b = .ok x () := by
  rw [toBytes_wire (he.imp id fun h => ⟨hv, h⟩)] at hb
  have hd := s.roundTrips cfg ht htl x b [] hv hb hl
  rw [List.append_nil] at hd
  have h := tryDecode_cases (Parses.on (s.parses cfg) cfg) k hlen
  rw [hd] at h
  obtain ⟨st, h1, h2⟩ := h
  rw [h2]
  cases hc : cfg.completeParse with
  | false => exact finish_plain hc k x st
  | true =>
    have hk : k ≠ .slice := hk.resolve_left (by simp [hc])
    rw [finish_complete hc hk x h1, if_pos rfl]

/-- C51: `Nullable` of something that can be empty cannot be decoded back: `Some(())` is encoded like `None`. -/
theorem C51_nullable_fails (cfg : Cfg) : (Schema.codec cfg (.nullable .unit)).toBytes (some ()) = some [] ∧
    (Schema.codec cfg (.nullable .unit)).Decodes cfg [] none [] :=
  ⟨(Writes.toBytes (Schema.writes_out cfg (.nullable .unit)) (some ())).trans rfl,
    Parses.decodes (Schema.parses cfg (.nullable .unit)) rfl⟩

example : Schema.tail (.record (.cons (.dynamic .u30 (.seq (.option .zarithZ))) (.cons .string .nil))) = some (.exact 0) := by decide

/-! ### C48 -/

/-- C48: different well-formed values of a uniquely decodable type have different encodings; an encoding of a
self-delimiting type is not a proper prefix of another. -/
theorem C48_injective_partial (cfg : Cfg) (s : Schema) (ht : s.tagsOk) {tl : Tail} (htl : s.tail = some tl) (x y : s.Val)
    (hx : s.Valid x) (hy : s.Valid y) (he : cfg.encLenOverride = false ∨ s.PrefixOk x ∧ s.PrefixOk y) (b : Bytes)
    (hbx : (s.codec cfg).toBytes x = some b) (hby : (s.codec cfg).toBytes y = some b) : x = y := by
  rw [toBytes_wire (he.imp id fun h => ⟨hx, h.1⟩)] at hbx
  rw [toBytes_wire (he.imp id fun h => ⟨hy, h.2⟩)] at hby
  have hr : ∃ t, tl.Allows t := by
    cases tl with
    | any => exact ⟨[], trivial⟩
    | exact n => exact ⟨List.replicate n 0, List.length_replicate ..⟩
  obtain ⟨t, hr⟩ := hr
  have h1 := s.roundTrips cfg ht htl x b t hx hbx hr
  rw [s.roundTrips cfg ht htl y b t hy hby hr] at h1
  exact ((DecRes.ok.injEq ..).mp h1).1.symm

theorem C48_prefix_free_partial (cfg : Cfg) (s : Schema) (ht : s.tagsOk) (htl : s.tail = some .any) (x y : s.Val) (hx : s.Valid x)
    (hy : s.Valid y) (he : cfg.encLenOverride = false ∨ s.PrefixOk x ∧ s.PrefixOk y) (b t : Bytes)
    (hbx : (s.codec cfg).toBytes x = some b) (hby : (s.codec cfg).toBytes y = some (b ++ t)) : x = y ∧ t = [] := by
  rw [toBytes_wire (he.imp id fun h => ⟨hx, h.1⟩)] at hbx
  rw [toBytes_wire (he.imp id fun h => ⟨hy, h.2⟩)] at hby
  have h1 := s.roundTrips cfg ht htl x b t hx hbx trivial
  have h2 := s.roundTrips cfg ht htl y (b ++ t) [] hy hby trivial
  rw [List.append_nil, h1] at h2
  exact (DecRes.ok.injEq ..).mp h2

/-- C48 fails for `Nullable` of a type with empty encodings. -/
theorem C48_nullable_fails (cfg : Cfg) : (Schema.codec cfg (.nullable .unit)).toBytes (some ()) = some [] ∧
    (Schema.codec cfg (.nullable .unit)).toBytes none = some [] :=
  ⟨(Writes.toBytes (Schema.writes_out cfg (.nullable .unit)) (some ())).trans rfl,
    (Writes.toBytes (Schema.writes_out cfg (.nullable .unit)) none).trans rfl⟩

/-! ### C49 -/

mutual
theorem isLocal_of_tail : ∀ s : Schema, s.tail = some .any → s.isLocal = true
  | .unit, _ | .bool, _ | .int _, _ | .f64, _ | .rangedInt _ _ _, _ | .rangedFloat _ _, _ | .zarithN, _ | .zarithZ, _
  | .fixedBytes _, _ | .fixedString _, _ | .dynamic _ _, _ | .cstyle _ _, _ => rfl
  | .bytes, h | .vecU8, h | .string, h => by cases h
  | .option s, h => isLocal_of_tail s h
  | .nullable s, h => by simp only [Schema.tail] at h; split at h <;> cases h
  | .vpadded n s, h => by simp only [Schema.tail] at h; split at h <;> cases h
  | .padded n s, h => by
    simp only [Schema.tail] at h
    split at h
    · rename_i hs; exact isLocal_of_tail s hs
    · split at h <;> cases h
    · cases h
  | .seq s, h => by simp only [Schema.tail] at h; split at h <;> cases h
  | .fixSeq n s, h => by
    simp only [Schema.tail] at h
    split at h
    · rename_i hs; exact isLocal_of_tail s hs.1
    · cases h
  | .limSeq n s, h => by simp only [Schema.tail] at h; split at h <;> cases h
  | .autobox s, h => isLocal_of_tail s h
  | .hole _, _ => rfl
  | .data w vs, h => vlocal_of_tail vs h
  | .record fs, h => flocal_of_tail fs h
theorem vlocal_of_tail : ∀ vs : Variants, vs.tail = some .any → vs.isLocal = true
  | .nil, _ => rfl
  | .cons tag s vs, h => by
    simp only [Variants.tail] at h
    have : s.tail = some .any ∧ vs.tail = some .any := by
      revert h
      generalize s.tail = p
      generalize vs.tail = q
      rcases p with _ | _ | m <;> rcases q with _ | _ | n <;> simp [Tail.join]
    simp only [Variants.isLocal, Bool.and_eq_true]
    exact ⟨isLocal_of_tail s this.1, vlocal_of_tail vs this.2⟩
theorem flocal_of_tail : ∀ fs : Fields, fs.tail = some .any → fs.isLocal = true
  | .nil, _ => rfl
  | .cons s fs, h => by
    simp only [Fields.tail] at h
    split at h
    · rename_i hs
      simp only [Fields.isLocal, Bool.and_eq_true]
      exact ⟨isLocal_of_tail s hs, flocal_of_tail fs h⟩
    · split at h
      · split at h <;> cases h
      · cases h
    · cases h
end

/-- C49: if a type that does not ask for the end of the window decodes a value from an input on some parser, then
every parser decodes the same value from the input with more bytes after it, and leaves the same bytes and those. -/
theorem C49_local (cfg : Cfg) (s : Schema) (hz : s.sized = true) (hl : s.isLocal = true) (k : Backend) (v : Bytes)
    (vs : List Bytes) (st st' : k.State) (hs : k.Holds v vs st) (a : s.Val)
    (he : (s.codec cfg).parse (k.ops cfg.prof) st = .ok a st') :
    ∃ rest, k.Holds rest vs st' ∧ ∀ t, (s.codec cfg).Decodes cfg (v ++ t) a (rest ++ t) := by
  obtain ⟨rest, h1, h2⟩ := s.inv cfg hz hs he
  exact ⟨rest, h2, fun t => Parses.decodes (s.parses cfg) (s.local_ cfg hl v a rest t h1)⟩

/-- C49: self-delimiting types are among them. -/
theorem C49_self_delimiting (cfg : Cfg) (s : Schema) (hz : s.sized = true) (hl : s.tail = some .any) (k : Backend)
    (v : Bytes) (vs : List Bytes) (st st' : k.State) (hs : k.Holds v vs st) (a : s.Val)
    (he : (s.codec cfg).parse (k.ops cfg.prof) st = .ok a st') :
    ∃ rest, k.Holds rest vs st' ∧ ∀ t, (s.codec cfg).Decodes cfg (v ++ t) a (rest ++ t) :=
  C49_local cfg s hz (isLocal_of_tail s hl) k v vs st st' hs a he

/-- Also for fields that leave room for those after them, in all builds. -/
example : Schema.sized (.dynamic .u8 (.record (.cons (.vpadded 1 (.option .bool)) (.cons .bool .nil)))) = true ∧
    Schema.isLocal (.dynamic .u8 (.record (.cons (.vpadded 1 (.option .bool)) (.cons .bool .nil)))) = true ∧
    Schema.tame .release (.dynamic .u8 (.record (.cons (.vpadded 1 (.option .bool)) (.cons .bool .nil)))) = false := by decide
example : ∃ st', (Schema.codec ⟨.release, false, true, true⟩ (.dynamic .u8 (.record (.cons (.vpadded 1 (.option .bool)) (.cons .bool .nil))))).parse
    (Backend.memo.ops .release) (Backend.memo.init [3, 0xff, 0, 0xff, 9]) = .ok (some false, true, ()) st' := ⟨_, rfl⟩

/-- C49 needs the restriction: a byte string takes what is appended. -/
theorem C49_bytes_not_local (cfg : Cfg) : (Schema.codec cfg .bytes).Decodes cfg [1] ([1] : Bytes) [] ∧
    (Schema.codec cfg .bytes).Decodes cfg [1, 2] ([1, 2] : Bytes) [] :=
  ⟨Parses.decodes (Schema.parses cfg .bytes) rfl, Parses.decodes (Schema.parses cfg .bytes) rfl⟩

/-! ### C47 -/

/-- C47: what any parser decodes can be encoded again, in no more bytes than were read (three times as many if
there is text, since ill-formed pieces are replaced), and every parser decodes that to the same value.  (Missing:
text under a length prefix that has no room for three times the input, and decoding again for types that are
not uniquely decodable; see `C47_text_fails`, `C47_nullable_fails`.) -/
theorem C47_reencode_partial (cfg : Cfg) (hcfg : cfg.encLenOverride = false) (s : Schema) (hz : s.sized = true) (k : Backend)
    (v : Bytes) (vs : List Bytes) (st st' : k.State) (hs : k.Holds v vs st) (a : s.Val)
    (he : (s.codec cfg).parse (k.ops cfg.prof) st = .ok a st')
    (hx : s.textFree = true ∨ s.textLimit (3 * v.length) = true) :
    s.Valid a ∧ ∃ b rest, (s.codec cfg).toBytes a = some b ∧ k.Holds rest vs st' ∧ rest.length ≤ v.length ∧
      (s.textFree = true → b.length ≤ v.length - rest.length) ∧ b.length ≤ 3 * (v.length - rest.length) ∧
      ∀ tl, s.tagsOk → s.tail = some tl → ∀ t, tl.Allows t → (s.codec cfg).Decodes cfg (b ++ t) a t := by
  obtain ⟨rest, h1, h2⟩ := s.inv cfg hz hs he
  obtain ⟨p, hp⟩ := s.readsPrefix cfg v a rest h1
  have hlen := congrArg List.length hp
  rw [List.length_append] at hlen
  have main : s.Valid a ∧ ∃ b, s.wire a = some b ∧ (s.textFree = true → b.length ≤ v.length - rest.length) ∧
      b.length ≤ 3 * (v.length - rest.length) := by
    by_cases hf : s.textFree = true
    · obtain ⟨hv, b, hb, hl⟩ := s.reencodes cfg hf v a rest h1
      exact ⟨hv, b, hb, fun _ => by omega, by omega⟩
    · obtain ⟨hv, b, hb, hl⟩ := s.grows cfg _ (hx.resolve_left hf) v a rest (Nat.le_refl _) h1
      exact ⟨hv, b, hb, fun h => absurd h hf, by omega⟩
  obtain ⟨hv, b, hb, hl1, hl2⟩ := main
  have hb' : (s.codec cfg).toBytes a = some b := (toBytes_wire (.inl hcfg)).trans hb
  exact ⟨hv, b, rest, hb', h2, by omega, hl1, hl2,
    fun tl htag htl t hr => C51_round_trip_partial cfg s htag htl a hv (.inl hcfg) b hb' t hr⟩

/-- C47: for types without redundant encodings the encoding is exactly what was read. -/
theorem C47_canonical (cfg : Cfg) (hcfg : cfg.encLenOverride = false) (s : Schema) (hz : s.sized = true)
    (hc : s.canonical cfg = true) (k : Backend) (v : Bytes) (vs : List Bytes) (st st' : k.State) (hs : k.Holds v vs st) (a : s.Val)
    (he : (s.codec cfg).parse (k.ops cfg.prof) st = .ok a st') :
    ∃ b rest, (s.codec cfg).toBytes a = some b ∧ v = b ++ rest ∧ k.Holds rest vs st' := by
  obtain ⟨rest, h1, h2⟩ := s.inv cfg hz hs he
  obtain ⟨b, hb, hv⟩ := s.canonical_ cfg hc v a rest h1
  exact ⟨b, rest, (toBytes_wire (.inl hcfg)).trans hb, hv, h2⟩

theorem lossy_ff : ∀ n, lossy (List.replicate n 0xff) = List.replicate n replacement
  | 0 => by rw [List.replicate_zero, lossy]; rfl
  | n + 1 => by
    rw [List.replicate_succ, lossy]
    have h : ∀ bs, lossyStep 0xff bs = (replacement, 1) := fun bs => rfl
    rw [h]
    simp only [Nat.sub_self, List.drop_zero]
    rw [lossy_ff n, List.replicate_succ]

/-- C47 fails for text under a short length prefix: `Dynamic<u8, String>` decodes 255 ill-formed bytes to a text of
255 replacement characters, encoding which panics. -/
theorem C47_text_fails (cfg : Cfg) (hcfg : cfg.encLenOverride = false) : ∃ v a,
    (Schema.codec cfg (.dynamic .u8 .string)).Decodes cfg v a [] ∧ (Schema.codec cfg (.dynamic .u8 .string)).toBytes a = none := by
  refine ⟨255 :: List.replicate 255 0xff, (List.replicate 255 replacement : List Char), ?_, ?_⟩
  · refine Parses.decodes (Schema.parses cfg (.dynamic .u8 .string)) ?_
    have hd : ∀ w : Bytes, w.length = 255 → (Schema.dynamic .u8 .string).dec cfg (255 :: w) = .ok (lossy w) [] := by
      intro w h
      refine D.bind_eq_ok.mpr ⟨255, w, rfl, D.window_eq_ok.mpr ⟨by omega, ?_, by rw [List.drop_of_length_le (by omega)]⟩⟩
      show DecRes.ok (lossy (List.take 255 w)) [] = _
      rw [List.take_of_length_le (by omega)]
      rfl
    exact (hd _ List.length_replicate).trans (congrArg (fun a => DecRes.ok a []) (lossy_ff 255))
  · refine (toBytes_wire (s := .dynamic .u8 .string) (.inl hcfg)).trans ?_
    have hl : (utf8 (List.replicate 255 replacement)).length = 765 := by decide +kernel
    have hn : ∀ cs : List Char, (utf8 cs).length = 765 → (Schema.dynamic .u8 .string).wire cs = none := by
      intro cs h
      show Enc.dynamic .u8 (fun x => (Enc.string x).map List.length) Enc.string cs = none
      simp [Enc.dynamic, Enc.string, h, LenPref.maxLen]
    exact hn _ hl

/-- C47 fails for `Nullable` of a type with empty encodings: from a non-empty input `Some(())` is decoded, which is
encoded as nothing, which is decoded as `None`. -/
theorem C47_nullable_fails (cfg : Cfg) : (Schema.codec cfg (.nullable .unit)).Decodes cfg [7] (some ()) [7] ∧
    (Schema.codec cfg (.nullable .unit)).toBytes (some ()) = some [] ∧
    (Schema.codec cfg (.nullable .unit)).Decodes cfg [] none [] :=
  ⟨Parses.decodes (Schema.parses cfg (.nullable .unit)) rfl, C51_nullable_fails cfg⟩

example : Schema.textLimit 12000000 (.record (.cons (.dynamic .u30 .string) (.cons .zarithZ .nil))) = true := by decide
example : Schema.canonical ⟨.debug, false, true, false⟩ (.padded 3 (.dynamic .u8 (.seq (.option .bool)))) = true := by decide

end Verif.Props
