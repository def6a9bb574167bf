import Verif.Props.Prims
/-
C17 (`Option`) and C18 (`Nullable`), over arbitrary payload codecs: of the payload only its behaviour on the
bytes in question is assumed.
-/
namespace Verif.Props

open Codec

variable {α : Type} {c : Codec α} {cfg : Cfg}

/-! ### C17 -/

/-- C17, encoding. -/
theorem C17_encode (hc : c.Appending) :
    (option c).toBytes none = some [0x00] ∧ ∀ x, (option c).toBytes (some x) = (c.toBytes x).map (0xff :: ·) := by
  refine ⟨Writes.toBytes (option_writes hc) none, fun x => ?_⟩
  rw [Writes.toBytes (option_writes hc)]
  simp only [Enc.option, Enc.cat]
  cases c.toBytes x <;> rfl

/-- C17, absence. -/
theorem C17_decode_none (c : Codec α) (cfg : Cfg) (rest : Bytes) : (option c).Decodes cfg (0x00 :: rest) none rest :=
  On.decodes (win := False) (fun k => option_refines (k.lawful cfg.prof) (On.any c cfg k)) rfl

/-- C17, presence: whatever the payload codec makes of the bytes behind the flag. -/
theorem C17_decode_some {v rest : Bytes} {a : α} (h : c.Decodes cfg v a rest) :
    (option c).Decodes cfg (0xff :: v) (some a) rest := by
  refine On.decodes (win := False) (fun k => option_refines (k.lawful cfg.prof) (Decodes.on h k)) ?_
  have : Dec.tag .u8 [0x00, 0xff] (0xff :: v) = .ok 0xff v := by
    simp [Dec.tag, D.take, TagWidth.len, ofBe]
  simp only [Dec.option, D.bind_run, this, DecRes.bind_ok, if_true, D.map_run, spot_self]

/-- C17, a payload that fails to decode. -/
theorem C17_payload_error {v : Bytes} {e : ParseError} (h : c.Rejects cfg v e) :
    (option c).Rejects cfg (0xff :: v) e := by
  refine On.rejects (win := False) (fun k => option_refines (k.lawful cfg.prof) (Rejects.on h k)) (.inl id) ?_
  have : Dec.tag .u8 [0x00, 0xff] (0xff :: v) = .ok 0xff v := by
    simp [Dec.tag, D.take, TagWidth.len, ofBe]
  simp only [Dec.option, D.bind_run, this, DecRes.bind_ok, if_true, D.map_run, spot_self, DecRes.bind_err]

/-- C17, every other flag byte is refused, whatever follows, and reported with the valid ones. -/
theorem C17_reject (c : Codec α) (cfg : Cfg) (b : Byte) (rest : Bytes) (h0 : b ≠ 0x00) (h1 : b ≠ 0xff) :
    (option c).Rejects cfg (b :: rest) (.token (.invalidTag .u8 b.toNat (some [0x00, 0xff]))) := by
  refine On.rejects (win := False) (fun k => option_refines (k.lawful cfg.prof) (On.any c cfg k)) (.inl id) ?_
  have h0' : b.toNat ≠ 0 := fun h => h0 (UInt8.toNat_inj.mp h)
  have h1' : b.toNat ≠ 255 := fun h => h1 (UInt8.toNat_inj.mp h)
  have : Dec.tag .u8 [0x00, 0xff] (b :: rest) = .err (.token (.invalidTag .u8 b.toNat (some [0x00, 0xff]))) := by
    simp [Dec.tag, D.take, TagWidth.len, ofBe, h0', h1']
  simp only [Dec.option, D.bind_run, this, DecRes.bind_err]

/-- C17, no flag at all. -/
theorem C17_reject_empty (c : Codec α) (cfg : Cfg) : (option c).Rejects cfg [] (D.shortErr 1 0) :=
  On.rejects (win := False) (fun k => option_refines (k.lawful cfg.prof) (On.any c cfg k)) (.inl id) (by
    simp [Dec.option, Dec.tag, D.take, D.short, TagWidth.len])

/-- C17, round trip: in front of the same bytes `t` as the payload. -/
theorem C17_roundtrip (hc : c.Appending) {o : Option α} {b t : Bytes}
    (h : ∀ x b, o = some x → c.toBytes x = some b → c.Decodes cfg (b ++ t) x t)
    (hb : (option c).toBytes o = some b) : (option c).Decodes cfg (b ++ t) o t := by
  cases o with
  | none =>
    rw [(C17_encode hc).1] at hb
    cases hb
    exact C17_decode_none c cfg t
  | some x =>
    rw [(C17_encode hc).2] at hb
    cases hx : c.toBytes x with
    | none => rw [hx] at hb; cases hb
    | some p =>
      rw [hx] at hb
      cases hb
      exact C17_decode_some (h x p rfl hx)

example (cfg : Cfg) : (option (Codec.int .u16)).toBytes (some 258) = some [0xff, 1, 2] ∧
    (option (Codec.int .u16)).Decodes cfg [0xff, 1, 2, 9] (some 258) [9] :=
  ⟨by decide, C17_roundtrip (o := some 258) (b := [0xff, 1, 2]) (t := [9]) (Writes.appending (int_writes .u16))
    (fun x b _ h => C10_int_roundtrip cfg .u16 x b _ h) (by decide)⟩
example (cfg : Cfg) : (option (Codec.int .u16)).Rejects cfg [0x01, 1, 2]
    (.token (.invalidTag .u8 1 (some [0x00, 0xff]))) := C17_reject _ cfg 1 [1, 2] (by decide) (by decide)

/-! ### C18 -/

/-- C18, encoding. -/
theorem C18_encode (hc : c.Appending) :
    (nullable c).toBytes none = some [] ∧ ∀ x, (nullable c).toBytes (some x) = c.toBytes x :=
  ⟨Writes.toBytes (nullable_writes hc) none, fun x => Writes.toBytes (nullable_writes hc) (some x)⟩

/-- C18, nothing left to read means absence. -/
theorem C18_decode_none (c : Codec α) (cfg : Cfg) : (nullable c).Decodes cfg [] none [] :=
  On.decodes (win := False) (fun k => nullable_refines (k.lawful cfg.prof) (On.any c cfg k)) rfl

/-- C18, otherwise it is for the payload codec. -/
theorem C18_decode_some {v rest : Bytes} {a : α} (hv : v ≠ []) (h : c.Decodes cfg v a rest) :
    (nullable c).Decodes cfg v (some a) rest := by
  refine On.decodes (win := False) (fun k => nullable_refines (k.lawful cfg.prof) (Decodes.on h k)) ?_
  simp only [Dec.nullable, D.ifEmpty, if_neg hv, D.map_run, spot_self, DecRes.bind_ok]

theorem C18_payload_error {v : Bytes} {e : ParseError} (hv : v ≠ []) (h : c.Rejects cfg v e) :
    (nullable c).Rejects cfg v e := by
  refine On.rejects (win := False) (fun k => nullable_refines (k.lawful cfg.prof) (Rejects.on h k)) (.inl id) ?_
  simp only [Dec.nullable, D.ifEmpty, if_neg hv, D.map_run, spot_self, DecRes.bind_err]

/-- C18, round trip, from a window that contains exactly the encoding, for a payload that is not encoded as the
empty string. -/
theorem C18_roundtrip (hc : c.Appending) {o : Option α} {b : Bytes}
    (h : ∀ x b, o = some x → c.toBytes x = some b → c.Decodes cfg b x [])
    (hne : ∀ x b, o = some x → c.toBytes x = some b → b ≠ [])
    (hb : (nullable c).toBytes o = some b) : (nullable c).Decodes cfg b o [] := by
  cases o with
  | none =>
    rw [(C18_encode hc).1] at hb
    cases hb
    exact C18_decode_none c cfg
  | some x =>
    rw [(C18_encode hc).2] at hb
    exact C18_decode_some (hne x b rfl hb) (h x b rfl hb)

/-- C18, the collision: a payload encoded as the empty string is written like absence and read back as
absence. -/
theorem C18_collision (hc : c.Appending) {x : α} (hx : c.toBytes x = some []) :
    (nullable c).toBytes (some x) = (nullable c).toBytes none ∧ (nullable c).Decodes cfg [] none [] :=
  ⟨by rw [(C18_encode hc).1, (C18_encode hc).2, hx], C18_decode_none c cfg⟩

example (cfg : Cfg) : (nullable (Codec.int .u16)).Decodes cfg [1, 2] (some 258) [] :=
  C18_roundtrip (o := some 258) (Writes.appending (int_writes .u16))
    (fun x b _ h => by simpa using C10_int_roundtrip cfg .u16 x b [] h)
    (fun x b _ h => by
      obtain ⟨bs, h1, h2, _⟩ := C10_int_encode .u16 x
      rw [h] at h1
      cases h1
      intro h0
      subst h0
      cases h2)
    (by decide)
-- the hypothesis of the collision is met by the unit type and by opaque bytes
example : Codec.unit.toBytes () = some [] ∧ Codec.bytes.toBytes [] = some [] := ⟨rfl, rfl⟩

end Verif.Props
