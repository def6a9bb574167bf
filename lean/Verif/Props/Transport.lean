import Verif.Check
import Verif.Props.Hex
import Verif.Props.Schema
import Verif.Props.Decode
import Verif.Props.Builder
/-
C58: hex text as a transport of values, as in src/main.rs:5-22.
-/
namespace Verif.Props

open Codec

/-- Lowercase hex digits. -/
def LowerHex (t : List Char) : Prop := ∀ c ∈ t, ('0' ≤ c ∧ c ≤ '9') ∨ ('a' ≤ c ∧ c ≤ 'f')

theorem hexDigit_hexVal {c : Char} {x : Nat} (h : hexVal c = some x) (hl : ('0' ≤ c ∧ c ≤ '9') ∨ ('a' ≤ c ∧ c ≤ 'f')) :
    hexDigit x = c := by
  unfold hexVal at h
  simp only [Char.le_def, UInt32.le_iff_toNat_le] at h hl
  change (if 48 ≤ c.toNat ∧ c.toNat ≤ 57 then some (c.toNat - 48) else if 97 ≤ c.toNat ∧ c.toNat ≤ 102 then
    some (c.toNat - 97 + 10) else if 65 ≤ c.toNat ∧ c.toNat ≤ 70 then some (c.toNat - 65 + 10) else none) = some x at h
  change (48 ≤ c.toNat ∧ c.toNat ≤ 57) ∨ (97 ≤ c.toNat ∧ c.toNat ≤ 102) at hl
  unfold hexDigit
  rcases hl with hl | hl
  · rw [if_pos hl] at h
    cases h
    rw [if_pos (by omega), show 48 + (c.toNat - 48) = c.toNat by omega, Char.ofNat_toNat]
  · rw [if_neg (by omega), if_pos hl] at h
    cases h
    rw [if_neg (by omega), show 87 + (c.toNat - 97 + 10) = c.toNat by omega, Char.ofNat_toNat]

/-- There is one lowercase text for some bytes. -/
theorem lower_unique : ∀ {t : List Char} {bs : Bytes}, LowerHex t → denotes t = some bs → t = bs.flatMap fmt02x
  | [], bs, _, h => by cases h; rfl
  | [_], _, _, h => by cases h
  | c :: d :: cs, bs, hl, h => by
    simp only [denotes] at h
    split at h
    · rename_i x y bs' hx hy hbs
      cases h
      have hx' := hexVal_lt hx
      have hy' := hexVal_lt hy
      have h1 := hexDigit_hexVal hx (hl c (by simp))
      have h2 := hexDigit_hexVal hy (hl d (by simp))
      have hn : (UInt8.ofNat (16 * x + y)).toNat = 16 * x + y := by
        rw [UInt8.toNat_ofNat']
        omega
      rw [List.flatMap_cons, ← lower_unique (fun e he => hl e (by simp [he])) hbs]
      simp only [fmt02x, hn]
      rw [show (16 * x + y) / 16 = x by omega, show (16 * x + y) % 16 = y by omega, h1, h2]
      rfl
    · cases h

theorem plus_lower : ∀ {t : List Char} {bs : Bytes}, LowerHex t → denotesPlus t = some bs → denotes t = some bs
  | [], _, _, h => h
  | [_], _, _, h => h
  | c :: d :: cs, bs, hl, h => by
    have hc : c ≠ '+' := by
      rintro rfl
      exact absurd (hl '+' (by simp)) (by decide)
    simp only [denotesPlus, if_neg hc] at h
    split at h
    · rename_i x y bs' hx hy hbs
      cases h
      simp [denotes, hx, hy, plus_lower (fun e he => hl e (by simp [he])) hbs]
    · cases h

mutual
theorem textFree_of_canonical {cfg : Cfg} : ∀ (s : Schema), s.canonical cfg = true → s.textFree = true
  | .string, h => by cases h
  | .zarithN, _ | .zarithZ, _ | .unit, _ | .bool, _ | .int _, _ | .f64, _ | .rangedInt _ _ _, _ | .rangedFloat _ _, _
  | .bytes, _ | .vecU8, _ | .fixedBytes _, _ | .fixedString _, _ | .cstyle _ _, _ | .hole _, _ => rfl
  | .option s, h => textFree_of_canonical s h
  | .nullable s, h => textFree_of_canonical s h
  | .dynamic _ s, h => textFree_of_canonical s h
  | .vpadded _ s, h => textFree_of_canonical s h
  | .padded n s, h => textFree_of_canonical s ((Bool.and_eq_true _ _).mp h).2
  | .seq s, h => textFree_of_canonical s h
  | .fixSeq _ s, h => textFree_of_canonical s h
  | .limSeq _ s, h => textFree_of_canonical s h
  | .autobox s, h => textFree_of_canonical s h
  | .data _ vs, h => vtextFree_of_canonical vs h
  | .record fs, h => ftextFree_of_canonical fs h
theorem vtextFree_of_canonical {cfg : Cfg} : ∀ (vs : Variants), vs.canonical cfg = true → vs.textFree = true
  | .nil, _ => rfl
  | .cons _ s vs, h => (Bool.and_eq_true _ _).mpr
      ⟨textFree_of_canonical s ((Bool.and_eq_true _ _).mp h).1, vtextFree_of_canonical vs ((Bool.and_eq_true _ _).mp h).2⟩
theorem ftextFree_of_canonical {cfg : Cfg} : ∀ (fs : Fields), fs.canonical cfg = true → fs.textFree = true
  | .nil, _ => rfl
  | .cons s fs, h => (Bool.and_eq_true _ _).mpr
      ⟨textFree_of_canonical s ((Bool.and_eq_true _ _).mp h).1, ftextFree_of_canonical fs ((Bool.and_eq_true _ _).mp h).2⟩
end

/-- C58, out: `encode` with either builder and `into_hex`, or `encode` as a hex string shown as text, all yield
the one lowercase text that denotes the encoding. -/
theorem C58_out (cfg : Cfg) (s : Schema) (x : s.Val) (b : Bytes) (h : (s.codec cfg).toBytes x = some b) :
    ∃ t, denotes t = some b ∧ LowerHex t ∧ t.length = 2 * b.length ∧
      (∃ e, (s.codec cfg).encode strictTarget x = some e ∧ StrictBuilder.ops.intoHex e = t) ∧
      (∃ e, (s.codec cfg).encode memoTarget x = some e ∧ MemoBuilder.ops.intoHex e = t) ∧
      ∃ e, (s.codec cfg).encode hexTarget x = some e ∧ e.toHex = t ∧ e.eqHex t = some true := by
  obtain ⟨-, -, -, h1, h2, -, ⟨m, h3, -, h5⟩, -⟩ := C36_agree cfg s x b h
  obtain ⟨g1, g2, g3⟩ := C33_to_hex ⟨b⟩
  refine ⟨_, g1, g3, g2, ⟨_, h1, rfl⟩, ⟨m, h3, ?_⟩, ⟨_, h2, rfl, C34_equal _ _ g1⟩⟩
  exact congrArg hexOfBytes h5

/-- C58, in: any text denoting the encoding of a well-formed value of a uniquely decodable type, in whatever
case, is decoded to that value, by `try_decode` and the entry points that panic on errors, as text with the feature
`implicit_hexstring` and as a hex string without it. -/
theorem C58_in (cfg : Cfg) (s : Schema) (ht : s.tagsOk) {tl : Tail} (htl : s.tail = some tl) (hl : tl.Allows [])
    (x : s.Val) (hv : s.Valid x) (he : cfg.encLenOverride = false ∨ s.PrefixOk x) (b : Bytes)
    (hb : (s.codec cfg).toBytes x = some b) (hlen : b.length ≤ isizeMax) (t : List Char) (hd : denotes t = some b) :
    (∀ k, k ≠ .slice → (s.codec cfg).tryDecodeFrom cfg true k (.text t) = .ok x ()) ∧
    (s.codec cfg).decode cfg true (.text t) = .ok x () ∧ (s.codec cfg).decodeMemo cfg true (.text t) = .ok x () ∧
    ∃ h, HexString.fromHex t = some (.ok h) ∧ ∀ ih, (s.codec cfg).decode cfg ih (.hex h) = .ok x () ∧
      (s.codec cfg).decodeMemo cfg ih (.hex h) = .ok x () := by
  have h0 := (C33_accepts t b hd).1
  have h1 : ∀ k, k ≠ .slice → (s.codec cfg).tryDecode cfg k b = .ok x () := fun k hk =>
    C51_try_decode_partial cfg s ht htl hl x hv he b hb hlen k (.inr hk)
  have h2 : ∀ k, k ≠ .slice → (s.codec cfg).tryDecodeFrom cfg true k (.text t) = .ok x () := fun k hk =>
    ((C43_text (s.codec cfg) cfg k t).2.1 _ h0).trans (h1 k hk)
  obtain ⟨g1, g2, -⟩ := C43_decode (s.codec cfg) cfg true (.text t) x
  refine ⟨h2, g1.mpr (h2 .byte nofun), g2.mpr (h2 .memo nofun), _, h0, fun ih => ?_⟩
  obtain ⟨g1, g2, -⟩ := C43_decode (s.codec cfg) cfg ih (.hex ⟨b⟩) x
  exact ⟨g1.mpr (h1 .byte nofun), g2.mpr (h1 .memo nofun)⟩

/-- C58: for types without redundant encodings and with complete parses checked, the two directions are inverse to
each other: a lowercase text is decoded to a value exactly if the value is well-formed and encoded as that text. -/
theorem C58_inverse (cfg : Cfg) (hcfg : cfg.encLenOverride = false) (hfull : cfg.completeParse = true) (s : Schema)
    (hz : s.sized = true) (hc : s.canonical cfg = true) (ht : s.tagsOk) {tl : Tail} (htl : s.tail = some tl) (hl : tl.Allows [])
    (t : List Char) (hlow : LowerHex t) (hlen : t.length ≤ isizeMax) (x : s.Val) :
    (s.codec cfg).decode cfg true (.text t) = .ok x () ↔
      s.Valid x ∧ ∃ e, (s.codec cfg).encode strictTarget x = some e ∧ StrictBuilder.ops.intoHex e = t := by
  constructor
  · intro h
    rw [(C43_decode (s.codec cfg) cfg true (.text t) x).1] at h
    obtain ⟨bs, hbs, htry⟩ : ∃ bs, denotes t = some bs ∧ (s.codec cfg).tryDecode cfg .byte bs = .ok x () := by
      cases hf : HexString.fromHex t with
      | none => simp [tryDecodeFrom, Input.toBuffer, hf] at h
      | some r =>
        cases r with
        | error e => rw [(C43_text (s.codec cfg) cfg .byte t).2.2 e hf] at h; cases h
        | ok g =>
          rw [(C43_text (s.codec cfg) cfg .byte t).2.1 g hf] at h
          exact ⟨g.bytes, plus_lower hlow ((C33_exact t g.bytes).mp hf), h⟩
    have htl' : t = hexOfBytes bs := (lower_unique hlow hbs).trans (hexOfBytes_flatMap bs).symm
    have hb : bs.length ≤ isizeMax := by
      have : t.length = 2 * bs.length := by rw [htl']; exact (C33_to_hex ⟨bs⟩).2.1
      omega
    obtain ⟨rest, st, hd, hst, hf⟩ := tryDecode_inv hz hb htry
    rw [finish_complete (k := .byte) hfull (by decide) x hst] at hf
    by_cases hr : rest = []
    · subst hr
      obtain ⟨b, hw, hv⟩ := s.canonical_ cfg hc bs x [] hd
      rw [List.append_nil] at hv
      subst hv
      have hb' : (s.codec cfg).toBytes x = some bs := (toBytes_wire (.inl hcfg)).trans hw
      obtain ⟨-, -, -, h1, -⟩ := C36_agree cfg s x bs hb'
      exact ⟨(s.reencodes cfg (textFree_of_canonical s hc) bs x [] hd).1, _, h1, htl'.symm⟩
    · rw [if_neg hr] at hf; cases hf
  · rintro ⟨hv, e, h1, h2⟩
    rcases C35_targets_agree cfg s x with ⟨_, _, h0, _⟩ | ⟨b, hb, _⟩
    · simp [Codec.encode, h0] at h1
    · obtain ⟨-, -, -, h1', -⟩ := C36_agree cfg s x b hb
      rw [h1] at h1'
      cases h1'
      have hden : denotes t = some b := h2 ▸ (C33_to_hex ⟨b⟩).1
      have hb' : b.length ≤ isizeMax := by
        have : t.length = 2 * b.length := by rw [← h2]; exact (C33_to_hex ⟨b⟩).2.1
        omega
      exact (C58_in cfg s ht htl hl x hv (.inl hcfg) b hb hb' t hden).2.1

theorem check_iff {α : Type} (cfg : Cfg) (c : Codec α) (V : α → Prop) (eq : α → α → Bool) (heq : ∀ a b, eq a b = true ↔ a = b)
    (t : List Char) (x : α) (key : LowerHex t → ∀ x, c.decode cfg true (.text t) = .ok x () ↔
      V x ∧ ∃ e, c.encode strictTarget x = some e ∧ StrictBuilder.ops.intoHex e = t) :
    c.check cfg eq t x = .ok () () ↔ V x ∧ ∃ e, c.encode strictTarget x = some e ∧ StrictBuilder.ops.intoHex e = t := by
  have hlow : ∀ e, StrictBuilder.ops.intoHex e = t → LowerHex t := by
    rintro e rfl
    exact (C33_to_hex ⟨e.vec⟩).2.2
  constructor
  · intro h
    cases hd : c.decode cfg true (.text t) with
    | ok a u =>
      cases u
      rw [Codec.check, hd] at h
      simp only [DecodeOut.andThen, assertThat] at h
      by_cases ha : eq a x = true
      · have := (heq a x).mp ha
        subst this
        cases he : c.encode strictTarget a with
        | none => simp [ha, Codec.encodeStrict, he] at h
        | some e =>
          by_cases hh : StrictBuilder.ops.intoHex e = t
          · rw [← he]; exact (key (hlow e hh) a).mp hd
          · have hne : (StrictBuilder.ops.intoHex e == t) = false := by simpa using hh
            simp [ha, Codec.encodeStrict, he, hne] at h
      · simp [ha] at h
    | err e u => rw [Codec.check, hd] at h; cases h
    | panic => rw [Codec.check, hd] at h; cases h
    | ub => rw [Codec.check, hd] at h; cases h
    | diverge => rw [Codec.check, hd] at h; cases h
  · rintro ⟨hv, e, he, hh⟩
    have hd := (key (hlow e hh) x).mpr ⟨hv, e, he, hh⟩
    have hx : eq x x = true := (heq x x).mpr rfl
    have hb : c.decode cfg true (.bytes (StrictBuilder.ops.intoVec e)) = .ok x () := by
      rw [(C43_decode c cfg true (.bytes _) x).1]
      rw [(C43_decode c cfg true (.text t) x).1] at hd
      have := (C43_text c cfg .byte t).2.1 _ (C33_accepts t e.vec (by rw [← hh]; exact (C33_to_hex ⟨e.vec⟩).1)).1
      exact this.symm.trans hd
    simp [Codec.check, DecodeOut.andThen, assertThat, Codec.encodeStrict, hd, he, hh, hx, hb]

/-- C58: hence `check` passes exactly for the pairs of a value and the text it is encoded as. -/
theorem C58_check (cfg : Cfg) (hcfg : cfg.encLenOverride = false) (hfull : cfg.completeParse = true) (s : Schema)
    (hz : s.sized = true) (hc : s.canonical cfg = true) (ht : s.tagsOk) {tl : Tail} (htl : s.tail = some tl) (hl : tl.Allows [])
    (eq : s.Val → s.Val → Bool) (heq : ∀ a b, eq a b = true ↔ a = b) (t : List Char) (hlen : t.length ≤ isizeMax)
    (x : s.Val) : (s.codec cfg).check cfg eq t x = .ok () () ↔
      s.Valid x ∧ ∃ e, (s.codec cfg).encode strictTarget x = some e ∧ StrictBuilder.ops.intoHex e = t :=
  check_iff cfg (s.codec cfg) s.Valid eq heq t x fun hlow => C58_inverse cfg hcfg hfull s hz hc ht htl hl t hlow hlen

/-- The two calls in `main` (src/main.rs:24-27). -/
theorem C58_main (cfg : Cfg) (hcfg : cfg.encLenOverride = false) (hfull : cfg.completeParse = true) (eq : BitVec 8 → BitVec 8 → Bool)
    (heq : ∀ a b, eq a b = true ↔ a = b) :
    (Schema.codec cfg (.int .u8)).check cfg eq "ff".toList 255#8 = .ok () () ∧
    (Schema.codec cfg (.int .u8)).check cfg eq "42".toList 66#8 = .ok () () :=
  have key (t : List Char) (hlen : t.length ≤ isizeMax) (x : BitVec 8) :=
    (C58_check cfg hcfg hfull (.int .u8) rfl rfl trivial (tl := .any) rfl trivial eq heq t hlen x).mpr
  ⟨key _ (by decide) 255#8 ⟨trivial, ⟨[255]⟩, rfl, rfl⟩, key _ (by decide) 66#8 ⟨trivial, ⟨[66]⟩, rfl, rfl⟩⟩
example : ∃ eq : BitVec 8 → BitVec 8 → Bool, ∀ a b, eq a b = true ↔ a = b := ⟨fun a b => decide (a = b), fun _ _ => decide_eq_true_iff⟩

/-- A larger type meeting the hypotheses. -/
example : Schema.sized (.record (.cons (.dynamic .u16 (.seq (.option (.fixedBytes 4)))) (.cons (.padded 2 .bool) .nil))) = true ∧
    Schema.canonical ⟨.release, false, true, true⟩
      (.record (.cons (.dynamic .u16 (.seq (.option (.fixedBytes 4)))) (.cons (.padded 2 .bool) .nil))) = true ∧
    Schema.tail (.record (.cons (.dynamic .u16 (.seq (.option (.fixedBytes 4)))) (.cons (.padded 2 .bool) .nil))) = some .any := by
  decide

/-- C58 needs its restrictions: uppercase digits, redundant zarith encodings and, unless complete parses are
checked, anything at the end are accepted, but not what is encoded again. -/
theorem C58_redundant (cfg : Cfg) (hcfg : cfg.encLenOverride = false) :
    ((Schema.codec cfg (.int .u8)).decode cfg true (.text "FF".toList) = .ok 255#8 () ∧
      ∃ e, (Schema.codec cfg (.int .u8)).encode strictTarget 255#8 = some e ∧ StrictBuilder.ops.intoHex e = "ff".toList) ∧
    ((Schema.codec cfg .zarithN).decode cfg true (.text "8000".toList) = .ok (0 : Nat) () ∧
      ∃ e, (Schema.codec cfg .zarithN).encode strictTarget (0 : Nat) = some e ∧ StrictBuilder.ops.intoHex e = "00".toList) ∧
    (cfg.completeParse = false → (Schema.codec cfg (.int .u8)).decode cfg true (.text "ff00".toList) = .ok 255#8 ()) := by
  have key : ∀ (s : Schema) (hz : s.sized = true) (t : List Char) (bs : Bytes) (a : s.Val) (rest : Bytes), denotes t = some bs →
      bs.length ≤ isizeMax → s.dec cfg bs = .ok a rest → (rest = [] ∨ cfg.completeParse = false) →
      (s.codec cfg).decode cfg true (.text t) = .ok a () := by
    intro s hz t bs a rest ht hb hd hr
    rw [(C43_decode (s.codec cfg) cfg true (.text t) a).1, (C43_text (s.codec cfg) cfg .byte t).2.1 _ (C33_accepts t bs ht).1]
    have hd' : (s.codec cfg).Decodes cfg bs a rest := Parses.decodes (s.parses cfg) hd
    cases hc : cfg.completeParse with
    | false => exact (C43_without cfg hc s hz .byte bs hb a).mpr ⟨rest, hd'⟩
    | true =>
      rcases hr with rfl | hr
      · exact (C43_with_partial cfg hc s hz .byte (by decide) bs hb a).mpr hd'
      · rw [hc] at hr; cases hr
  refine ⟨⟨key (.int .u8) rfl _ [255] _ [] (by decide) (by decide) rfl (.inl rfl), ⟨[255]⟩, rfl, rfl⟩,
    ⟨key .zarithN rfl _ [0x80, 0] (0 : Nat) [] (by decide) (by decide) rfl (.inl rfl), ⟨[0]⟩, ?_, rfl⟩,
    fun h => key (.int .u8) rfl _ [255, 0] _ [0] (by decide) (by decide) rfl (.inr h)⟩
  have hw : Schema.zarithN.wire (0 : Nat) = some [0] := by simp [Schema.wire, Enc.zarithN, Enc.nat7]
  obtain ⟨-, -, -, h, -⟩ := C36_agree cfg .zarithN (0 : Nat) [0] ((toBytes_wire (s := .zarithN) (.inl hcfg)).trans hw)
  exact h

end Verif.Props
