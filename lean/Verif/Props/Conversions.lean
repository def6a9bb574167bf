import Verif.Spec.Conversions
import Verif.Props.Hex
import Verif.Props.Text
import Verif.Props.Schema
/-
C101: conversions between types that hold bytes.
-/
namespace Verif.Props

open Holder

/-- The value holds these bytes; a text does if it denotes them (two digits each, of either case). -/
def HoldsBytes : (c : Holder) → c.Val → Bytes → Prop
  | vec, x, b | slice, x, b | box, x, b | rc, x, b | arc, x, b | cow, x, b | iter, x, b => x = b
  | arr _, x, b | fixed _, x, b => x.1 = b
  | bytes, x, b => x = ⟨b⟩
  | hex, x, b => x = ⟨b⟩
  | seq, x, b => x = ⟨b⟩
  | text, x, b => denotes x = some b

theorem encode_vec (x : Bytes) (p : Profile) :
    Codec.Override.vecEncode p vecTarget x = some x ∧ Codec.Override.bytesEncode vecTarget x = some x ∧
    Codec.Override.vecEncode p hexTarget x = some ⟨x⟩ ∧ Codec.Override.bytesEncode hexTarget x = some ⟨x⟩ := by
  obtain ⟨t1, h1, e1⟩ := Codec.vecU8_writes vecLawful x [] vecTarget.create rfl
  obtain ⟨⟨t2⟩, h2, e2⟩ := Codec.vecU8_writes hexLawful x [] hexTarget.create rfl
  have e1 : t1 = x := e1
  have e2 : t2 = x := e2
  simp [Codec.Override.vecEncode, Codec.Override.bytesEncode, h1, h2, e1, e2]

theorem encode_fixed {n : Nat} (x : ByteArr n) :
    Codec.Override.fixedEncode vecTarget x = some x.1 ∧ Codec.Override.fixedEncode hexTarget x = some ⟨x.1⟩ := by
  obtain ⟨_, h1, rfl⟩ := Codec.fixedBytes_writes n vecLawful x [] vecTarget.create rfl
  obtain ⟨⟨_⟩, h2, rfl⟩ := Codec.fixedBytes_writes n hexLawful x [] hexTarget.create rfl
  simp [Codec.Override.fixedEncode, h1, h2]

/-- C101, one call: the bytes are the same afterwards, or changed as the call says; calls to a fixed number of bytes fail if
there are more or fewer, with an error that says so; nothing else fails. -/
theorem C101_step {c d : Holder} (s : Step c d) (x : c.Val) (b : Bytes) (h : HoldsBytes c x b) :
    match s.fails b with
    | none => ∃ y, s.run x = .ok y ∧ HoldsBytes d y (s.change b)
    | some e => s.run x = .error e := by
  cases s
  case trySlice n =>
    cases h
    simp only [Step.fails, Step.run, FixedBytes.tryFromSlice]
    by_cases hn : b.length = n
    · simp only [if_pos hn, dif_pos hn]
      exact ⟨_, rfl, rfl⟩
    · simp only [if_neg hn, dif_neg hn]
  case sliceTryInto n =>
    cases h
    simp only [Step.fails, Step.run, FixedBytes.tryFrom]
    by_cases hn : b.length = n
    · simp only [if_pos hn, dif_pos hn]
      exact ⟨_, rfl, rfl⟩
    · simp only [if_neg hn, dif_neg hn]
  case textToHex =>
    refine ⟨⟨b⟩, ?_, rfl⟩
    simp only [Step.run]
    rw [(C33_accepts x b h).1]
  case hexToText =>
    cases h
    exact ⟨_, rfl, (C33_to_hex ⟨b⟩).1⟩
  case fixedToText n =>
    cases h
    exact ⟨_, rfl, (C24_lower_hex n x).2.1⟩
  case vecEncode p =>
    cases h
    exact ⟨b, congrArg Step.orPanic (encode_vec b p).1, rfl⟩
  case vecEncodeHex p =>
    cases h
    exact ⟨⟨b⟩, congrArg Step.orPanic (encode_vec b p).2.2.1, rfl⟩
  case bytesEncode =>
    cases h
    exact ⟨b, by simp only [Step.run, (encode_vec b .debug).2.1]; rfl, rfl⟩
  case bytesEncodeHex =>
    cases h
    exact ⟨⟨b⟩, by simp only [Step.run, (encode_vec b .debug).2.2.2]; rfl, rfl⟩
  case fixedEncode =>
    cases h
    exact ⟨x.1, by simp only [Step.run, (encode_fixed x).1]; rfl, rfl⟩
  case fixedEncodeHex =>
    cases h
    exact ⟨⟨x.1⟩, by simp only [Step.run, (encode_fixed x).2]; rfl, rfl⟩
  all_goals
    cases h
    exact ⟨_, rfl, rfl⟩

/-- C101: any number of calls in a row, from any of the types to any other: what is held in the end are the bytes of the
beginning with the changes made on the way, in order. -/
theorem C101_path {c d : Holder} (p : Path c d) (x : c.Val) (b : Bytes) (h : HoldsBytes c x b) :
    match p.result b with
    | .ok b' => ∃ y, p.run x = .ok y ∧ HoldsBytes d y b'
    | .error e => p.run x = .error e := by
  induction p generalizing b with
  | nil => exact ⟨x, rfl, h⟩
  | cons s p ih =>
    have hs := C101_step s x b h
    simp only [Path.result, Path.run]
    cases hf : s.fails b with
    | none =>
      rw [hf] at hs
      obtain ⟨y, h1, h2⟩ := hs
      rw [h1]
      exact ih y _ h2
    | some e =>
      rw [hf] at hs
      rw [show s.run x = .error e from hs]

theorem change_eq {c d : Holder} (s : Step c d) (h : s.edits = false) (b : Bytes) : s.change b = b := by
  cases s <;> first | rfl | cases h

theorem fails_eq {c d : Holder} (s : Step c d) (b : Bytes) :
    (s.fails b = none ↔ ∀ n ∈ s.width.toList, n = b.length) ∧
    (∀ e, s.fails b = some e → ∃ n, n ∈ s.width.toList ∧ n ≠ b.length ∧ (e = .width (.wrongWidth n b.length) ∨ e = .slice)) := by
  cases s
  case trySlice n =>
    by_cases hn : b.length = n
    · simp [Step.fails, Step.width, hn]
    · simpa [Step.fails, Step.width, hn] using Ne.symm hn
  case sliceTryInto n =>
    by_cases hn : b.length = n
    · simp [Step.fails, Step.width, hn]
    · simpa [Step.fails, Step.width, hn] using Ne.symm hn
  all_goals exact ⟨⟨nofun, fun _ => rfl⟩, nofun⟩

/-- C101: a conversion without changes keeps the bytes; it succeeds exactly if all fixed numbers of bytes on the way are right, and
fails with the error about the wrong one otherwise. -/
theorem C101_convert {c d : Holder} (p : Path c d) (hp : p.pure = true) (x : c.Val) (b : Bytes) (h : HoldsBytes c x b) :
    ((∃ y, p.run x = .ok y) ↔ ∀ n ∈ p.widths, n = b.length) ∧ (∀ y, p.run x = .ok y → HoldsBytes d y b) ∧
    ∀ e, p.run x = .error e → ∃ n ∈ p.widths, n ≠ b.length ∧ (e = .width (.wrongWidth n b.length) ∨ e = .slice) := by
  have hr : ((∃ b', p.result b = .ok b') ↔ ∀ n ∈ p.widths, n = b.length) ∧ (∀ b', p.result b = .ok b' → b' = b) ∧
      ∀ e, p.result b = .error e → ∃ n ∈ p.widths, n ≠ b.length ∧ (e = .width (.wrongWidth n b.length) ∨ e = .slice) := by
    clear h x
    induction p with
    | nil => exact ⟨⟨nofun, fun _ => ⟨b, rfl⟩⟩, fun _ h => (Except.ok.inj h).symm, nofun⟩
    | cons s p ih =>
      simp only [Path.pure, Bool.and_eq_true, Bool.not_eq_true'] at hp
      obtain ⟨ih1, ih2, ih3⟩ := ih hp.2
      obtain ⟨f1, f2⟩ := fails_eq s b
      simp only [Path.result, Path.widths, List.mem_append]
      cases hf : s.fails b with
      | none =>
        simp only [change_eq s hp.1]
        have f1 := f1.mp hf
        refine ⟨ih1.trans ⟨fun h n hn => hn.elim (f1 n) (h n), fun h n hn => h n (.inr hn)⟩, ih2, fun e he => ?_⟩
        obtain ⟨n, h1, h2⟩ := ih3 e he
        exact ⟨n, .inr h1, h2⟩
      | some e =>
        obtain ⟨n, h1, h2, h3⟩ := f2 e hf
        refine ⟨⟨nofun, fun h => absurd (h n (.inl h1)) h2⟩, nofun, fun e' he => ?_⟩
        cases he
        exact ⟨n, .inl h1, h2, h3⟩
  have hx := C101_path p x b h
  cases hb : p.result b with
  | ok b' =>
    rw [hb] at hx
    obtain ⟨y, h1, h2⟩ := hx
    cases hr.2.1 b' hb
    exact ⟨⟨fun _ => hr.1.mp ⟨b, hb⟩, fun _ => ⟨y, h1⟩⟩, fun y' h' => by rw [h1] at h'; cases h'; exact h2,
      fun e he => by rw [h1] at he; cases he⟩
  | error e =>
    rw [hb] at hx
    have hx : p.run x = .error e := hx
    refine ⟨⟨fun ⟨y, hy⟩ => ?_, fun hw => ?_⟩, fun y hy => ?_, fun e' he => ?_⟩
    · rw [hx] at hy; cases hy
    · obtain ⟨b', h'⟩ := hr.1.mpr hw
      rw [hb] at h'; cases h'
    · rw [hx] at hy; cases hy
    · rw [hx] at he
      cases he
      exact hr.2.2 e hb

/-- Except for texts, a value is determined by its bytes, and every value holds bytes. -/
theorem holds_unique {c : Holder} (hc : c ≠ text) {x y : c.Val} {b : Bytes} (h : HoldsBytes c x b) (h' : HoldsBytes c y b) : x = y := by
  cases c <;> first
    | exact absurd rfl hc
    | exact Subtype.ext (h.trans h'.symm)
    | exact (show x = _ from h).trans (show y = _ from h').symm

theorem holds_some {c : Holder} (hc : c ≠ text) (x : c.Val) : ∃ b, HoldsBytes c x b := by
  cases c <;> first
    | exact absurd rfl hc
    | exact ⟨_, rfl⟩

/-- C101: however one gets from one type to another, the result is the same; … -/
theorem C101_confluent {c d : Holder} (hc : c ≠ text) (hd : d ≠ text) (p q : Path c d) (hp : p.pure = true) (hq : q.pure = true)
    (x : c.Val) (y z : d.Val) (hy : p.run x = .ok y) (hz : q.run x = .ok z) : y = z := by
  obtain ⟨b, hb⟩ := holds_some hc x
  exact holds_unique hd ((C101_convert p hp x b hb).2.1 y hy) ((C101_convert q hq x b hb).2.1 z hz)

/-- C101: … so whoever comes back has what was there before. -/
theorem C101_back {c : Holder} (hc : c ≠ text) (p : Path c c) (hp : p.pure = true) (x y : c.Val) (h : p.run x = .ok y) : y = x :=
  C101_confluent hc hc p .nil hp rfl x y x h rfl

/-- A text of upper-case digits comes back in lower case. -/
theorem C101_text_fails : ∃ x y, (Path.cons .textToHex (.cons .hexToText .nil)).run x = .ok y ∧ y ≠ x :=
  ⟨['A', 'B'], ['a', 'b'], rfl, show (['a', 'b'] : List Char) ≠ ['A', 'B'] by decide⟩

/-! ### examples -/

/-- `HexString::from(Bytes::from(FixedBytes::<3>::try_from_slice(&v)?.to_vec()).as_ref()).to_hex().parse()` and so on. -/
example : let p : Path .vec .box := .cons .vecAsSlice (.cons (.trySlice 3) (.cons .fixedToVec (.cons .vecToBytes (.cons .bytesAsSlice
      (.cons .sliceToHex (.cons .hexToText (.cons .textToHex (.cons .hexIter (.cons .iterToBytes (.cons .bytesToBox .nil))))))))))
    p.pure = true ∧ p.widths = [3] ∧ p.run [1, 2, 0xab] = .ok [1, 2, 0xab] ∧
      p.run [1, 2] = .error (.width (.wrongWidth 3 2)) := by
  refine ⟨rfl, rfl, rfl, rfl⟩

/-- With changes on the way. -/
example : let p : Path .vec .seq := .cons .vecToHex (.cons (.hexExtend [7]) (.cons (.hexAsMutVec List.reverse) (.cons .hexToVec
      (.cons .vecToSeq (.cons (.seqAsMutSlice ⟨fun b => b.map (· + 1), fun b => List.length_map ..⟩) .nil)))))
    p.result [1, 2] = .ok [8, 3, 2] ∧ p.run [1, 2] = .ok ⟨[8, 3, 2]⟩ := ⟨rfl, rfl⟩

end Verif.Props
