import Verif.Check
import Verif.Fixed
import Verif.SplitVec
import Verif.Props.Transport
import Verif.Props.Enums
import Verif.Props.Ranged
import Verif.Props.Parsers
import Verif.Props.Skip
/-
The tests of the code itself, run on the model: every unit test of /repo/src and every documentation example that makes an
assertion about behaviour (not those about memory layout and references).  They prove nothing about all inputs; a failure
here would mean that the model is not the code.
-/
namespace Verif.Conformance

open Codec Props

/-! ### Helpers -/

theorem decode_hex (s : Schema) (cfg : Cfg) (ih : Bool) (hz : s.sized = true) (bs : Bytes) (hb : bs.length ≤ isizeMax) (a : s.Val)
    (hd : s.dec cfg bs = .ok a []) (inp : Input) (hi : inp.toBuffer ih = some (.ok bs)) : (s.codec cfg).decode cfg ih inp = .ok a () := by
  rw [(C43_decode (s.codec cfg) cfg ih inp a).1, Codec.tryDecodeFrom, hi]
  have hd' : (s.codec cfg).Decodes cfg bs a [] := Parses.decodes (s.parses cfg) hd
  cases hc : cfg.completeParse with
  | false => exact (C43_without cfg hc s hz .byte bs hb a).mpr ⟨[], hd'⟩
  | true => exact (C43_with_partial cfg hc s hz .byte (by decide) bs hb a).mpr hd'

/-- `encode_decode` of src/int.rs:584-592, src/float.rs:363-372 (equality is that of the bits). -/
def EncodeDecode (s : Schema) (u : s.Val) (enc : String) : Prop := ∀ cfg ih,
  (∃ b, (s.codec cfg).encode strictTarget u = some b ∧ StrictBuilder.ops.intoHex b = enc.toList) ∧
  ∃ h, HexString.hexMacro enc.toList = some h ∧ (s.codec cfg).decode cfg ih (.hex h) = .ok u ()

theorem encodeDecode {s : Schema} {u : s.Val} {enc : String} (b : Bytes) (hz : s.sized = true) (hl : b.length ≤ isizeMax)
    (he : ∀ cfg, (s.codec cfg).encode strictTarget u = some ⟨b⟩) (hx : hexOfBytes b = enc.toList)
    (hm : HexString.hexMacro enc.toList = some ⟨b⟩) (hd : ∀ cfg, s.dec cfg b = .ok u []) : EncodeDecode s u enc := fun cfg ih =>
  ⟨⟨_, he cfg, hx⟩, _, hm, decode_hex s cfg ih hz b hl u (hd cfg) _ rfl⟩

macro "encode_decode " b:term : tactic =>
  `(tactic| exact Verif.Conformance.encodeDecode $b rfl (by decide) (fun _ => rfl) (by decide) (by decide) (fun _ => rfl))

/-! ### src/int.rs -/

-- u8_encode_decode
example : EncodeDecode (.int .u8) 0x00#8 "00" := by encode_decode [0]
example : EncodeDecode (.int .u8) 0x01#8 "01" := by encode_decode [1]
example : EncodeDecode (.int .u8) 0x7f#8 "7f" := by encode_decode [0x7f]
example : EncodeDecode (.int .u8) 0x80#8 "80" := by encode_decode [0x80]
example : EncodeDecode (.int .u8) 0xff#8 "ff" := by encode_decode [0xff]
-- i8_encode_decode
example : EncodeDecode (.int .i8) (IntTy.i8.cast 0x00) "00" := by encode_decode [0]
example : EncodeDecode (.int .i8) (IntTy.i8.cast 0x01) "01" := by encode_decode [1]
example : EncodeDecode (.int .i8) (IntTy.i8.cast 0x7f) "7f" := by encode_decode [0x7f]
example : EncodeDecode (.int .i8) (IntTy.i8.cast (-128)) "80" := by encode_decode [0x80]
example : EncodeDecode (.int .i8) (IntTy.i8.cast (-1)) "ff" := by encode_decode [0xff]
-- u16_encode_decode
example : EncodeDecode (.int .u16) 0x0000#16 "0000" := by encode_decode [0, 0]
example : EncodeDecode (.int .u16) 0x0001#16 "0001" := by encode_decode [0, 1]
example : EncodeDecode (.int .u16) 0x7fff#16 "7fff" := by encode_decode [0x7f, 0xff]
example : EncodeDecode (.int .u16) 0x8000#16 "8000" := by encode_decode [0x80, 0]
example : EncodeDecode (.int .u16) 0xffff#16 "ffff" := by encode_decode [0xff, 0xff]
-- i16_encode_decode
example : EncodeDecode (.int .i16) (IntTy.i16.cast 0) "0000" := by encode_decode [0, 0]
example : EncodeDecode (.int .i16) (IntTy.i16.cast 1) "0001" := by encode_decode [0, 1]
example : EncodeDecode (.int .i16) (IntTy.i16.cast 0x7fff) "7fff" := by encode_decode [0x7f, 0xff]
example : EncodeDecode (.int .i16) (IntTy.i16.cast (-0x8000)) "8000" := by encode_decode [0x80, 0]
example : EncodeDecode (.int .i16) (IntTy.i16.cast (-1)) "ffff" := by encode_decode [0xff, 0xff]
-- u30_encode_decode
example : RangedInt.fromUnderlying .u32 0 0x3fffffff 0x3fffffff#32 = some 0x3fffffff#32 := rfl
example : EncodeDecode (.rangedInt .u32 0 0x3fffffff) 0#32 "00000000" := by encode_decode [0, 0, 0, 0]
example : EncodeDecode (.rangedInt .u32 0 0x3fffffff) 1#32 "00000001" := by encode_decode [0, 0, 0, 1]
example : EncodeDecode (.rangedInt .u32 0 0x3fffffff) 0x3fffffff#32 "3fffffff" := by encode_decode [0x3f, 0xff, 0xff, 0xff]
-- i31_encode_decode
example : RangedInt.fromUnderlying .i32 (-0x40000000) 0x3fffffff (IntTy.i32.cast (-0x40000000)) =
    some (IntTy.i32.cast (-0x40000000)) := by decide
example : EncodeDecode (.rangedInt .i32 (-0x40000000) 0x3fffffff) 0#32 "00000000" := by encode_decode [0, 0, 0, 0]
example : EncodeDecode (.rangedInt .i32 (-0x40000000) 0x3fffffff) 1#32 "00000001" := by encode_decode [0, 0, 0, 1]
example : EncodeDecode (.rangedInt .i32 (-0x40000000) 0x3fffffff) 0x3fffffff#32 "3fffffff" := by
  encode_decode [0x3f, 0xff, 0xff, 0xff]
example : EncodeDecode (.rangedInt .i32 (-0x40000000) 0x3fffffff) (IntTy.i32.cast (-0x40000000)) "c0000000" := by
  encode_decode [0xc0, 0, 0, 0]
example : EncodeDecode (.rangedInt .i32 (-0x40000000) 0x3fffffff) (IntTy.i32.cast (-1)) "ffffffff" := by
  encode_decode [0xff, 0xff, 0xff, 0xff]
-- i32_encode_decode
example : EncodeDecode (.int .i32) (IntTy.i32.cast 0x7fffffff) "7fffffff" := by encode_decode [0x7f, 0xff, 0xff, 0xff]
example : EncodeDecode (.int .i32) (IntTy.i32.cast (-0x80000000)) "80000000" := by encode_decode [0x80, 0, 0, 0]
example : EncodeDecode (.int .i32) (IntTy.i32.cast (-1)) "ffffffff" := by encode_decode [0xff, 0xff, 0xff, 0xff]
example : EncodeDecode (.int .i32) (IntTy.i32.cast 0) "00000000" := by encode_decode [0, 0, 0, 0]
example : EncodeDecode (.int .i32) (IntTy.i32.cast 1) "00000001" := by encode_decode [0, 0, 0, 1]
-- i64_encode_decode
example : EncodeDecode (.int .i64) (IntTy.i64.cast 0) "0000000000000000" := by encode_decode [0, 0, 0, 0, 0, 0, 0, 0]
example : EncodeDecode (.int .i64) (IntTy.i64.cast 1) "0000000000000001" := by encode_decode [0, 0, 0, 0, 0, 0, 0, 1]
example : EncodeDecode (.int .i64) (IntTy.i64.cast 0x7fffffffffffffff) "7fffffffffffffff" := by
  encode_decode [0x7f, 0xff, 0xff, 0xff, 0xff, 0xff, 0xff, 0xff]
example : EncodeDecode (.int .i64) (IntTy.i64.cast (-0x8000000000000000)) "8000000000000000" := by
  encode_decode [0x80, 0, 0, 0, 0, 0, 0, 0]
example : EncodeDecode (.int .i64) (IntTy.i64.cast (-1)) "ffffffffffffffff" := by
  encode_decode [0xff, 0xff, 0xff, 0xff, 0xff, 0xff, 0xff, 0xff]
-- short_high
example : EncodeDecode (.rangedInt .u8 256 257) 0#8 "00" := by encode_decode [0]
example : EncodeDecode (.rangedInt .u8 256 257) 1#8 "01" := by encode_decode [1]
example (p : Profile) : (RangedInt.fromUnderlying .u8 256 257 0#8).bind (RangedInt.toI32 p .u8 256 257) = some 256 := by
  cases p <;> decide
example : (RangedInt.fromUnderlying .u8 256 257 0#8).bind (RangedInt.toUnderlying .u8 256 257) = some 0#8 := rfl
-- lines 318, 319, 348
example : (RangedInt.fromUnderlying .u8 1023 1025 0#8).bind (RangedInt.toUnderlying .u8 1023 1025) = some 0#8 := rfl
example (p : Profile) : (RangedInt.fromUnderlying .u8 1023 1025 0#8).bind (RangedInt.toI32 p .u8 1023 1025) = some 1023 := by
  cases p <;> decide
example (p : Profile) : (RangedInt.fromUnderlying .u8 1024 1200 0#8).bind (RangedInt.toI32 p .u8 1024 1200) = some 1024 := by
  cases p <;> decide

/-! ### src/float.rs -/

-- f64_encode_decode
example : EncodeDecode .f64 0#64 "0000000000000000" := by encode_decode [0, 0, 0, 0, 0, 0, 0, 0]
example : EncodeDecode .f64 0x3ff0000000000000#64 "3ff0000000000000" := by encode_decode [0x3f, 0xf0, 0, 0, 0, 0, 0, 0]
example : EncodeDecode .f64 0x400921fb54442d18#64 "400921fb54442d18" := by
  encode_decode [0x40, 0x09, 0x21, 0xfb, 0x54, 0x44, 0x2d, 0x18]
example : EncodeDecode .f64 0x4005bf0a8b145769#64 "4005bf0a8b145769" := by
  encode_decode [0x40, 0x05, 0xbf, 0x0a, 0x8b, 0x14, 0x57, 0x69]
-- unit_encode_decode
example : EncodeDecode (.rangedFloat 0 0x3ff0000000000000) 0#64 "0000000000000000" := by
  encode_decode [0, 0, 0, 0, 0, 0, 0, 0]
example : EncodeDecode (.rangedFloat 0 0x3ff0000000000000) 0x3ff0000000000000#64 "3ff0000000000000" := by
  encode_decode [0x3f, 0xf0, 0, 0, 0, 0, 0, 0]
example : EncodeDecode (.rangedFloat 0 0x3ff0000000000000) 0x3fd45f306dc9c883#64 "3fd45f306dc9c883" := by
  encode_decode [0x3f, 0xd4, 0x5f, 0x30, 0x6d, 0xc9, 0xc8, 0x83]
example : EncodeDecode (.rangedFloat 0 0x3ff0000000000000) 0x3fe62e42fefa39ef#64 "3fe62e42fefa39ef" := by
  encode_decode [0x3f, 0xe6, 0x2e, 0x42, 0xfe, 0xfa, 0x39, 0xef]
-- line 91: the default of the range -0.1 .. 0.1 is 0
example : RangedFloat.default 0xbfb999999999999a#64 0x3fb999999999999a#64 = some 0#64 := by decide

/-! ### src/zarith.rs -/

theorem encode_wire {s : Schema} {x : s.Val} {b : Bytes} (hw : s.wire x = some b) (he : ∀ cfg, (s.codec cfg).toBytes x = s.wire x)
    (cfg : Cfg) : (s.codec cfg).encode hexTarget x = some ⟨b⟩ := by
  obtain ⟨-, -, -, -, h, -⟩ := C36_agree cfg s x b ((he cfg).trans hw)
  exact h

-- nat_conv
example (cfg : Cfg) : (Schema.codec cfg .zarithN).decode cfg false (.bytes [0]) = .ok (0 : Nat) () :=
  decode_hex .zarithN cfg _ rfl [0] (by decide) _ rfl _ rfl
example (cfg : Cfg) : (Schema.codec cfg .zarithN).decode cfg false (.bytes [1]) = .ok (1 : Nat) () :=
  decode_hex .zarithN cfg _ rfl [1] (by decide) _ rfl _ rfl
example (cfg : Cfg) : (Schema.codec cfg .zarithN).decode cfg false (.bytes [0x80, 1]) = .ok (128 : Nat) () :=
  decode_hex .zarithN cfg _ rfl [0x80, 1] (by decide) _ rfl _ rfl
-- int_conv
example (cfg : Cfg) : ∃ h, HexString.hexMacro "00".toList = some h ∧ (Schema.codec cfg .zarithZ).decode cfg false (.hex h) = .ok (0 : Int) () :=
  ⟨⟨[0]⟩, by decide, decode_hex .zarithZ cfg _ rfl [0] (by decide) _ rfl _ rfl⟩
example (cfg : Cfg) : ∃ h, HexString.hexMacro "01".toList = some h ∧ (Schema.codec cfg .zarithZ).decode cfg false (.hex h) = .ok (1 : Int) () :=
  ⟨⟨[1]⟩, by decide, decode_hex .zarithZ cfg _ rfl [1] (by decide) _ rfl _ rfl⟩
example (cfg : Cfg) : ∃ h, HexString.hexMacro "8001".toList = some h ∧
    (Schema.codec cfg .zarithZ).decode cfg false (.hex h) = .ok (64 : Int) () :=
  ⟨⟨[0x80, 1]⟩, by decide, decode_hex .zarithZ cfg _ rfl [0x80, 1] (by decide) _ rfl _ rfl⟩
example (cfg : Cfg) : ∃ h, HexString.hexMacro "60".toList = some h ∧
    (Schema.codec cfg .zarithZ).decode cfg false (.hex h) = .ok (-32 : Int) () :=
  ⟨⟨[0x60]⟩, by decide, decode_hex .zarithZ cfg _ rfl [0x60] (by decide) _ rfl _ rfl⟩

example (cfg : Cfg) : (Schema.codec cfg .zarithZ).encode hexTarget (0 : Int) = some ⟨[0]⟩ :=
  encode_wire (s := .zarithZ) (by with_unfolding_all rfl) (fun _ => toBytes_wire (.inr ⟨trivial, trivial⟩)) cfg
example (cfg : Cfg) : (Schema.codec cfg .zarithZ).encode hexTarget (1 : Int) = some ⟨[1]⟩ :=
  encode_wire (s := .zarithZ) (by with_unfolding_all rfl) (fun _ => toBytes_wire (.inr ⟨trivial, trivial⟩)) cfg
example (cfg : Cfg) : (Schema.codec cfg .zarithZ).encode hexTarget (64 : Int) = some ⟨[0x80, 1]⟩ :=
  encode_wire (s := .zarithZ) (by with_unfolding_all rfl) (fun _ => toBytes_wire (.inr ⟨trivial, trivial⟩)) cfg
example (cfg : Cfg) : (Schema.codec cfg .zarithZ).encode hexTarget (-32 : Int) = some ⟨[0x60]⟩ :=
  encode_wire (s := .zarithZ) (by with_unfolding_all rfl) (fun _ => toBytes_wire (.inr ⟨trivial, trivial⟩)) cfg

/-! ### src/hexstring.rs -/

example : hexOfBytes [0xde, 0xad, 0xbe, 0xef] = "deadbeef".toList := by decide
example : bytesOfHex "deadbeef".toList = some (.ok [0xde, 0xad, 0xbe, 0xef]) := by rfl
example : HexString.hexMacro "deadbeef".toList = some (.fromVec [0xde, 0xad, 0xbe, 0xef]) := by decide
example : (HexString.fromVec []).toHex = "".toList ∧ (HexString.fromVec [0xde, 0xad, 0xbe, 0xef]).toHex = "deadbeef".toList := by
  decide

/-! ### src/prim.rs, src/conv/mod.rs, src/autobox.rs, src/dynamic.rs -/

-- unit_test
example (p : Profile) (a b c ih : Bool) : tryDecodeUnit ⟨p, a, b, c⟩ ih .byte (.text "".toList) = .ok () () := by
  cases c
  · exact (C43_unit_unchecked _ rfl ih .byte _).1
  · rw [C43_unit_checked _ rfl]
    cases ih <;>
      exact (C43_decode (Schema.codec ⟨p, a, b, true⟩ .unit) ⟨p, a, b, true⟩ _ _ _).1.mp
        (decode_hex .unit ⟨p, a, b, true⟩ _ rfl [] (by decide) () rfl _ rfl)
-- check
example (cfg : Cfg) : ∃ b, (Schema.codec cfg .vecU8).encode strictTarget (utf8 "foo".toList) = some b ∧
    StrictBuilder.ops.intoBin b = some "foo".toList := ⟨_, rfl, by decide +kernel⟩
-- documentation of `Decode`
example (cfg : Cfg) : (Schema.codec cfg (.seq (.record (.cons .bool (.cons (.int .u8) .nil))))).decode cfg false
    (.bytes [0xff, 0x2a]) = .ok [(true, 42#8, ())] () :=
  decode_hex (.seq (.record (.cons .bool (.cons (.int .u8) .nil)))) cfg _ rfl [0xff, 0x2a] (by decide) _ (by with_unfolding_all rfl) _ rfl
-- documentation of `AutoBox`: `U8Seq(5, Some(AutoBox::new(U8Seq(7, None))))`
example (cfg : Cfg) : (Schema.codec cfg (.record (.cons (.int .u8) (.cons (.option (.autobox
    (.record (.cons (.int .u8) (.cons (.option (.hole 0)) .nil))))) .nil)))).toBytes (5#8, some (7#8, none, ()), ()) =
    some [0x05, 0xff, 0x07, 0x00] := rfl
-- documentation of `LenPref::max_len`
example : LenPref.u8.maxLen = 2 ^ 8 - 1 ∧ LenPref.u16.maxLen = 2 ^ 16 - 1 ∧ LenPref.u30.maxLen = 2 ^ 30 - 1 := by decide

/-! ### src/adt.rs -/

example (cfg : Cfg) : (Schema.codec cfg (.cstyle .u8 smallPrime.iterTags)).decode cfg false (.bytes [5]) =
    .ok (⟨5, by decide⟩ : CEnum smallPrime.iterTags) () :=
  decode_hex (.cstyle .u8 smallPrime.iterTags) cfg _ rfl [5] (by decide) _ rfl _ rfl
example (cfg : Cfg) : ∃ h, HexString.hexMacro "0501".toList = some h ∧
    (Schema.codec cfg (.data .u8 (.cons 2 (.int .u8) (.cons 3 (.int .u8) (.cons 5 (.int .u8) .nil))))).decode cfg false (.hex h) =
      .ok (.inr (.inr (.inl 1#8))) () :=
  ⟨⟨[5, 1]⟩, by decide, decode_hex (.data .u8 (.cons 2 (.int .u8) (.cons 3 (.int .u8) (.cons 5 (.int .u8) .nil)))) cfg _ rfl
    [5, 1] (by decide) _ rfl _ rfl⟩
example (cfg : Cfg) : (Schema.codec cfg (.data .u16 (.cons 0 .unit .nil))).encLen cfg (.inl ()) =
      (Schema.codec cfg (.int .u16)).encLen cfg 0#16 ∧
    (Schema.codec cfg .unit).encLen cfg () = some 0 := by
  obtain ⟨p, a, b, c⟩ := cfg
  cases a <;> exact ⟨rfl, rfl⟩

/-! ### src/fixed.rs -/

example (cfg : Cfg) (ih : Bool) : (Schema.codec cfg (.fixedString 12)).decode cfg ih (.bytes (utf8 "hello world!".toList)) =
    .ok (⟨utf8 "hello world!".toList, by decide⟩ : ByteArr 12) () :=
  decode_hex (.fixedString 12) cfg _ rfl (utf8 "hello world!".toList) (by decide) _ rfl _ rfl
example (cfg : Cfg) : (Schema.codec cfg (.fixedString 12)).decode cfg false (.text "さよなら".toList) =
    .ok (⟨utf8 "さよなら".toList, by decide⟩ : ByteArr 12) () :=
  decode_hex (.fixedString 12) cfg _ rfl (utf8 "さよなら".toList) (by decide) _ rfl _ rfl

example : FixedString.fromStr 12 "さよなら".toList = .ok ⟨utf8 "さよなら".toList, by decide⟩ := rfl
def sayonara : ByteArr 12 := ⟨utf8 "さよなら".toList, by decide⟩
example (cfg : Cfg) : ∃ b, (Schema.codec cfg (.fixedString 12)).encode strictTarget sayonara = some b ∧
    StrictBuilder.ops.intoBin b = some "さよなら".toList ∧ FixedString.asStringLossy sayonara = "さよなら".toList :=
  ⟨_, rfl, by decide +kernel, by decide +kernel⟩
-- bytestring_hex, bytestring_ascii
example : EncodeDecode (.fixedBytes 4) (⟨[0xde, 0xad, 0xbe, 0xef], rfl⟩ : ByteArr 4) "deadbeef" := by
  encode_decode [0xde, 0xad, 0xbe, 0xef]
example (cfg : Cfg) (ih : Bool) : (Schema.codec cfg (.fixedBytes 12)).decode cfg ih (.bytes (utf8 "hello world!".toList)) =
    .ok (⟨utf8 "hello world!".toList, by decide⟩ : ByteArr 12) () :=
  decode_hex (.fixedBytes 12) cfg _ rfl (utf8 "hello world!".toList) (by decide) _ rfl _ rfl
-- documentation of `try_from_array`, `is_valid_utf8`, `as_string_lossy`
example : FixedString.asStringLossy (n := 51) ⟨utf8 "さみだれをあつめてはやしもがみがわ".toList, by decide⟩ =
    "さみだれをあつめてはやしもがみがわ".toList := by decide +kernel
example : utf8 "さみだれ".toList = [0xe3, 0x81, 0x95, 0xe3, 0x81, 0xbf, 0xe3, 0x81, 0xa0, 0xe3, 0x82, 0x8c] := by decide
example : (FixedString.fromStr 4 "🦀".toList).toOption.map FixedString.isValidUtf8 = some true := by decide +kernel
example : FixedString.isValidUtf8 (n := 1) ⟨[0xff], rfl⟩ = false := by decide +kernel
example : FixedString.asStringLossy (n := 4) ⟨[0, 0x61, 0xec, 0xad], rfl⟩ = [Char.ofNat 0, 'a', replacement] := by decide +kernel

/-! ### src/parse/mod.rs -/

-- test_skip_exactly, test_skip_exactly_overrun_fails
example (p : Profile) : ∃ s, ByteParser.skipExactly p 1 (.fromBuffer [1, 2, 3, 4, 5]) = .ok () s ∧ s.offset = 1 := by
  cases p <;> exact ⟨_, rfl, rfl⟩
example (p : Profile) : ∃ e s, ByteParser.skipExactly p 10 (.fromBuffer [1, 2, 3, 4, 5]) = .err e s := by
  cases p <;> exact ⟨_, _, rfl⟩
-- test_fast_kv_lookup
example (cfg : Cfg) : (Schema.codec cfg (.dynamic .u30 (.seq (.record (.cons (.fixedBytes 2) (.cons (.int .i8) .nil)))))).toBytesFull cfg
    [((⟨[0xec, 0xad], rfl⟩ : ByteArr 2), 5#8, ()), ((⟨[0x50, 0x50], rfl⟩ : ByteArr 2), 42#8, ())] =
    some [0, 0, 0, 6, 0xec, 0xad, 5, 0x50, 0x50, 42] := by
  obtain ⟨p, a, b, c⟩ := cfg
  cases p <;> cases a <;> cases b <;> cases c <;> decide +kernel
noncomputable def kvParser (p : Profile) (key : Bytes) : PM MemoParser (Option (BitVec 8)) := do
  let n ← LenPref.parse .u30 (MemoParser.ops p)
  (MemoParser.ops p).setFit n
  (MemoParser.ops p).fastKvSearch key 1 (fun v => BitVec.ofNat 8 (ofBe v))
example (p : Profile) : ∃ s, kvParser p [0x50, 0x50] (.fromBuffer [0, 0, 0, 6, 0xec, 0xad, 5, 0x50, 0x50, 42]) = .ok (some 42#8) s := by
  cases p <;> exact ⟨_, iterM_of_iterN (n := 3) rfl⟩
example (p : Profile) : ∃ s, kvParser p [0x49, 0x51] (.fromBuffer [0, 0, 0, 6, 0xec, 0xad, 5, 0x50, 0x50, 42]) = .ok none s := by
  cases p <;> exact ⟨_, iterM_of_iterN (n := 3) rfl⟩

/-! ### src/internal/splitvec.rs -/

/-- The vector of `iter_spans_test`. -/
def spansVec : SplitVec Nat := (List.range 10).foldl (fun v i => (v.extendCurrentFromSlice (List.replicate i i)).splitForce) .new

/-- `n` calls of `next`. -/
def spansOf (p : Profile) : Nat → Spans Nat → Option (List (Option (List Nat)))
  | 0, _ => some []
  | n + 1, s => match s.next p with
    | none => none
    | some (x, s) => (spansOf p n s).map (x :: ·)

example (p : Profile) : spansOf p 11 spansVec.iterSpans = some ((List.range 10).map (fun i => some (List.replicate i i)) ++ [none]) := by
  cases p <;> decide
example : SpanBuffer.new.isEmpty = true := by decide
example : SpanBuffer.new.isEmpty = true ∧ (SpanBuffer.new.addActive 0).isEmpty = false := by decide
example : SpanBuffer.new.isContiguous = true ∧ (SpanBuffer.new.addActive 10).isContiguous = true ∧
    (SpanBuffer.new.addActive 10).flush.isContiguous = true ∧ ((SpanBuffer.new.addActive 10).flush.addActive 10).isContiguous = false := by
  decide
example : (SplitVec.new : SplitVec Nat).isEmpty = true ∧ (SplitVec.new : SplitVec Nat).split.isEmpty = true ∧
    ((SplitVec.new : SplitVec Nat).split.extendCurrent []).isEmpty = false := by decide
example : ((SplitVec.fromVec [1, 2, 3]).pushCurrent 4).intoInner = [1, 2, 3, 4] ∧
    ((SplitVec.fromVec [1, 2, 3]).pushCurrent 4).isContiguous = true := by decide
example : ((SplitVec.fromVec [1, 2, 3]).extendCurrent [4, 5, 6]).intoInner = [1, 2, 3, 4, 5, 6] ∧
    ((SplitVec.fromVec [1, 2, 3]).extendCurrent [4, 5, 6]).isContiguous = true := by decide
example : ((SplitVec.fromVec [1, 2, 3]).extendCurrentFromSlice [4, 5, 6]).intoInner = [1, 2, 3, 4, 5, 6] ∧
    ((SplitVec.fromVec [1, 2, 3]).extendCurrentFromSlice [4, 5, 6]).isContiguous = true := by decide
example : ((SplitVec.fromVec [1, 2, 3]).appendCurrent [4, 5, 6]).1.intoInner = [1, 2, 3, 4, 5, 6] ∧
    ((SplitVec.fromVec [1, 2, 3]).appendCurrent [4, 5, 6]).2 = [] := by decide
example : (SplitVec.new : SplitVec Byte).len = 0 ∧ ((SplitVec.new : SplitVec Byte).extendCurrentFromSlice (List.replicate 32 0)).len = 32 := by
  decide
example : (SplitVec.new : SplitVec Byte).isContiguous = true ∧ (SplitVec.new : SplitVec Byte).split.isContiguous = true ∧
    ((SplitVec.new : SplitVec Byte).split.extendCurrentFromSlice (utf8 "Hello World!".toList)).split.isContiguous = true ∧
    (((SplitVec.new : SplitVec Byte).split.extendCurrentFromSlice (utf8 "Hello World!".toList)).split.extendCurrent []).isContiguous =
      false := by decide

end Verif.Conformance
