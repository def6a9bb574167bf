import Verif.Refine.Backend
import Verif.Lemmas.Reencode
import Verif.Lemmas.Estimate
/-
Primitive codecs: C10 (machine integers, doubles), C11 (booleans), C12–C16 (arbitrary-precision numbers),
C22 (opaque bytes).

`c.toBytes x` is `Encode::to_bytes`; `c.Decodes cfg v a rest` says that each of the three parsers, in every
state whose readable bytes are `v`, decodes `a` and leaves `rest` (see Verif/Refine/Backend.lean).
-/
namespace Verif.Props

open Codec

theorem roundTrip {α : Type} {win : Prop} {c : Codec α} {e : Enc α} {d : D α} {V : α → Prop} {k : Tail}
    (hw : c.Writes e) (hd : c.Parses win d) (h : RoundTrips e d V k) {cfg : Cfg} {x : α} {b t : Bytes}
    (hx : V x) (hb : c.toBytes x = some b) (ht : k.Allows t) : c.Decodes cfg (b ++ t) x t :=
  Parses.decodes hd (h x b t hx (Writes.toBytes hw x ▸ hb) ht)

/-! ### C10 -/

/-- Positional value of a byte string, most significant byte first. -/
def beVal : Bytes → Nat
  | [] => 0
  | b :: bs => b.toNat * 256 ^ bs.length + beVal bs

theorem foldl_beVal (bs : Bytes) (acc : Nat) :
    bs.foldl (fun acc b => acc * 256 + b.toNat) acc = acc * 256 ^ bs.length + beVal bs := by
  induction bs generalizing acc with
  | nil => simp [beVal]
  | cons b bs ih =>
    rw [List.foldl_cons, ih, beVal, List.length_cons, Nat.pow_succ', Nat.add_mul, Nat.mul_assoc, Nat.add_assoc]

theorem beVal_eq (bs : Bytes) : beVal bs = ofBe bs := by
  rw [ofBe, foldl_beVal]; simp

/-- Byte strings of equal length are told apart by their positional value. -/
theorem beVal_inj {a b : Bytes} (hl : a.length = b.length) (h : beVal a = beVal b) : a = b := by
  rw [beVal_eq, beVal_eq] at h
  rw [← toBe_ofBe a, ← toBe_ofBe b, hl, h]

theorem IntTy.toInt_emod (t : IntTy) (x : t.Val) : t.toInt x % 2 ^ (8 * t.len) = (x.toNat : Int) := by
  have hp : ((2 ^ (8 * t.len) : Nat) : Int) = 2 ^ (8 * t.len) := by norm_cast
  have hlt := x.isLt
  unfold IntTy.toInt
  split
  · rw [BitVec.toInt_eq_toNat_bmod, ← hp, Int.bmod_emod, Int.emod_eq_of_lt (by omega) (by omega)]
  · rw [← hp, Int.emod_eq_of_lt (by omega) (by omega)]

/-- C10, encoding: an integer of type `t` is written as exactly `t.len` bytes whose positional value, most
significant byte first, is the number modulo `2^(8·len)` (two's complement). -/
theorem C10_int_encode (t : IntTy) (x : t.Val) :
    ∃ bs, (Codec.int t).toBytes x = some bs ∧ bs.length = t.len ∧ (beVal bs : Int) = t.toInt x % 2 ^ (8 * t.len) := by
  refine ⟨toBe t.len x.toNat, Writes.toBytes (int_writes t) x, toBe_length _ _, ?_⟩
  rw [beVal_eq, IntTy.toInt_emod, ofBe_toBe_of_lt]
  rw [← IntTy.pow_eq]
  exact x.isLt

/-- Width in bytes, least and greatest number of an integer type. -/
def intTable : IntTy → Nat × Int × Int
  | .u8 => (1, 0, 255)
  | .i8 => (1, -128, 127)
  | .u16 => (2, 0, 65535)
  | .i16 => (2, -32768, 32767)
  | .u32 => (4, 0, 4294967295)
  | .i32 => (4, -2147483648, 2147483647)
  | .u64 => (8, 0, 18446744073709551615)
  | .i64 => (8, -9223372036854775808, 9223372036854775807)

/-- C10: each type has its width, and its values are the numbers of its range. -/
theorem C10_types (t : IntTy) : t.len = (intTable t).1 ∧ (∀ x, (intTable t).2.1 ≤ t.toInt x ∧ t.toInt x ≤ (intTable t).2.2) ∧
    ∀ z : Int, (intTable t).2.1 ≤ z → z ≤ (intTable t).2.2 → ∃ x, t.toInt x = z := by
  refine ⟨by cases t <;> rfl, fun x => ?_, fun z h1 h2 => ⟨BitVec.ofInt _ z, ?_⟩⟩
  · have h1 := x.isLt
    have h2 := BitVec.toInt_eq_toNat_cond x
    cases t <;> simp only [IntTy.toInt, IntTy.signed, intTable, IntTy.len, if_true, if_false, reduceCtorEq] at * <;> omega
  · cases t <;> simp only [IntTy.toInt, IntTy.signed, intTable, IntTy.len, BitVec.toInt_ofInt, BitVec.toNat_ofInt, Int.bmod, if_true, if_false, reduceCtorEq] at * <;> omega

/-- C10, decoding: any `t.len` bytes decode, to the value whose encoding they are, and whatever follows is
left alone. -/
theorem C10_int_decode (cfg : Cfg) (t : IntTy) (bs rest : Bytes) (h : bs.length = t.len) :
    ∃ x, (Codec.int t).toBytes x = some bs ∧ (Codec.int t).Decodes cfg (bs ++ rest) x rest := by
  have hd : Dec.int t (bs ++ rest) = .ok (BitVec.ofNat _ (ofBe bs)) rest := by
    simp only [Dec.int, D.map_run, D.take_append h, DecRes.bind_ok]
  refine ⟨_, ?_, Parses.decodes (int_parses (win := False) t) hd⟩
  obtain ⟨b, he, hv⟩ := Canonical.int t _ _ _ hd
  rw [Writes.toBytes (int_writes t), he, List.append_cancel_right hv]

/-- C10, round trip. -/
theorem C10_int_roundtrip (cfg : Cfg) (t : IntTy) (x : t.Val) (b rest : Bytes) (hb : (Codec.int t).toBytes x = some b) :
    (Codec.int t).Decodes cfg (b ++ rest) x rest :=
  roundTrip (int_writes t) (int_parses (win := False) t) (.int t) trivial hb trivial

/-- C10, too few bytes: an error. -/
theorem C10_int_short (cfg : Cfg) (t : IntTy) (v : Bytes) (h : v.length < t.len) :
    (Codec.int t).Rejects cfg v (D.shortErr t.len v.length) :=
  Parses.rejects (int_parses (win := False) t) (.inl id) (by
    simp only [Dec.int, D.map_run, D.take, if_neg (Nat.not_le.mpr h), D.short, if_pos t.len_le, DecRes.bind_err])

/-- C10 for doubles: the eight bytes of the bit pattern, most significant first, in both directions. -/
theorem C10_f64 (cfg : Cfg) :
    (∀ x : BitVec 64, ∃ bs, Codec.f64.toBytes x = some bs ∧ bs.length = 8 ∧ beVal bs = x.toNat) ∧
    (∀ bs rest : Bytes, bs.length = 8 → ∃ x, Codec.f64.toBytes x = some bs ∧ Codec.f64.Decodes cfg (bs ++ rest) x rest) ∧
    (∀ x b rest, Codec.f64.toBytes x = some b → Codec.f64.Decodes cfg (b ++ rest) x rest) := by
  refine ⟨fun x => ?_, fun bs rest h => C10_int_decode cfg .u64 bs rest h,
    fun x b rest h => C10_int_roundtrip cfg .u64 x b rest h⟩
  refine ⟨toBe 8 x.toNat, Writes.toBytes f64_writes x, toBe_length _ _, ?_⟩
  rw [beVal_eq, ofBe_toBe_of_lt x.isLt]

example : (Codec.int .i16).toBytes (-2) = some [0xff, 0xfe] := by decide
example (cfg : Cfg) : (Codec.int .i16).Decodes cfg [0xff, 0xfe, 7] (-2) [7] :=
  C10_int_roundtrip cfg .i16 (-2) [0xff, 0xfe] [7] (by decide)
example : Codec.f64.toBytes 0x3ff8000000000000 = some [0x3f, 0xf8, 0, 0, 0, 0, 0, 0] := by decide

/-! ### C11 -/

/-- C11, encoding and decoding of the two values. -/
theorem C11_bool (cfg : Cfg) (rest : Bytes) :
    Codec.bool.toBytes true = some [0xff] ∧ Codec.bool.toBytes false = some [0x00] ∧
    Codec.bool.Decodes cfg (0xff :: rest) true rest ∧ Codec.bool.Decodes cfg (0x00 :: rest) false rest :=
  ⟨rfl, rfl, Parses.decodes (bool_parses (win := False)) rfl, Parses.decodes (bool_parses (win := False)) rfl⟩

/-- C11, any other byte is refused and reported. -/
theorem C11_bool_reject (cfg : Cfg) (b : Byte) (rest : Bytes) (h1 : b ≠ 0xff) (h2 : b ≠ 0x00) :
    Codec.bool.Rejects cfg (b :: rest) (.token (.invalidBoolean b)) :=
  Parses.rejects (bool_parses (win := False)) (.inl id) (by
    simp only [Dec.bool, D.bind_run, D.byte, DecRes.bind_ok, if_neg h1, if_neg h2, D.throw_run])

/-- C11, every accepted byte re-encodes to itself. -/
theorem C11_bool_canonical (cfg : Cfg) (k : Backend) (v : Bytes) (vs : List Bytes) (s s' : k.State) (x : Bool)
    (h : k.Holds v vs s) (hp : Codec.bool.parse (k.ops cfg.prof) s = .ok x s') :
    ∃ b rest, v = b :: rest ∧ Codec.bool.toBytes x = some [b] ∧ k.Holds rest vs s' := by
  have hw : Dec.bool v ≠ .wild := by
    cases v with
    | nil => simp [Dec.bool, D.byte]
    | cons b v => simp only [Dec.bool, D.bind_run, D.byte, DecRes.bind_ok]; split <;> (try split) <;> simp
  obtain ⟨rest, hd, hr⟩ := Parses.inv (bool_parses (win := False)) h hp hw
  obtain ⟨b, he, hv⟩ := Canonical.bool v x rest hd
  cases x <;> cases he <;> exact ⟨_, rest, hv, rfl, hr⟩

example (cfg : Cfg) : Codec.bool.Rejects cfg [0x01] (.token (.invalidBoolean 1)) :=
  C11_bool_reject cfg 1 [] (by decide) (by decide)

/-! ### C12, C13 -/

theorem toBytes_N (n : Nat) : Codec.zarithN.toBytes n = some (Enc.nat7 n) := Writes.toBytes zarithN_writes n
theorem toBytes_Z (z : Int) : Codec.zarithZ.toBytes z = some (Enc.int7 z) := Writes.toBytes zarithZ_writes z

/-- C12: every natural number has an encoding, and it decodes to the number whatever follows. -/
theorem C12_N_roundtrip (cfg : Cfg) (n : Nat) :
    ∃ b, Codec.zarithN.toBytes n = some b ∧ ∀ rest, Codec.zarithN.Decodes cfg (b ++ rest) n rest :=
  ⟨_, toBytes_N n, fun _ =>
    roundTrip zarithN_writes (zarithN_parses (win := False)) .zarithN trivial (toBytes_N n) trivial⟩

/-- C13: every integer has an encoding, and it decodes to the integer whatever follows. -/
theorem C13_Z_roundtrip (cfg : Cfg) (z : Int) :
    ∃ b, Codec.zarithZ.toBytes z = some b ∧ ∀ rest, Codec.zarithZ.Decodes cfg (b ++ rest) z rest :=
  ⟨_, toBytes_Z z, fun _ =>
    roundTrip zarithZ_writes (zarithZ_parses (win := False)) .zarithZ trivial (toBytes_Z z) trivial⟩

example : Codec.zarithN.toBytes 300 = some [0xac, 0x02] := by
  rw [toBytes_N]; simp [Enc.nat7]
example : Codec.zarithZ.toBytes (-300) = some [0xec, 0x04] := by
  rw [toBytes_Z]; simp [Enc.int7, Enc.nat7]

/-! ### C14 -/

theorem terminated_ne_wild (v : Bytes) : Dec.terminated v ≠ .wild := by
  rcases split_first (fun b => b.toNat < 128) v with h | ⟨init, last, rest, rfl, h1, h2⟩
  · rw [Dec.terminated, D.until_, D.until'_none _ h]; simp
  · rw [Dec.terminated, D.until_, D.until'_some _ h1 h2]; simp

theorem zarithN_ne_wild (v : Bytes) : Dec.zarithN v ≠ .wild := by
  have := terminated_ne_wild v
  simp only [Dec.zarithN, D.map_run]
  cases h : Dec.terminated v <;> simp_all

theorem zarithZ_ne_wild (v : Bytes) : Dec.zarithZ v ≠ .wild := by
  have := terminated_ne_wild v
  simp only [Dec.zarithZ, D.map_run]
  cases h : Dec.terminated v <;> simp_all

/-- C14, minimality: when some parser decodes `n` from `v` and leaves `rest`, then at least as many bytes have
been used as the encoding of `n` has. -/
theorem C14_N_minimal (cfg : Cfg) (n : Nat) (b : Bytes) (hb : Codec.zarithN.toBytes n = some b)
    (k : Backend) (v rest : Bytes) (vs : List Bytes) (s s' : k.State) (h : k.Holds v vs s)
    (hp : Codec.zarithN.parse (k.ops cfg.prof) s = .ok n s') (h' : k.Holds rest vs s') :
    b.length + rest.length ≤ v.length := by
  obtain ⟨r, hd, hr⟩ := Parses.inv (zarithN_parses (win := False)) h hp (zarithN_ne_wild v)
  have hrr := k.holds_unique hr h'
  subst hrr
  obtain ⟨_, b', he, hl⟩ := Reencodes.zarithN v n r hd
  rw [toBytes_N] at hb
  cases hb; cases he
  exact hl

theorem C14_Z_minimal (cfg : Cfg) (z : Int) (b : Bytes) (hb : Codec.zarithZ.toBytes z = some b)
    (k : Backend) (v rest : Bytes) (vs : List Bytes) (s s' : k.State) (h : k.Holds v vs s)
    (hp : Codec.zarithZ.parse (k.ops cfg.prof) s = .ok z s') (h' : k.Holds rest vs s') :
    b.length + rest.length ≤ v.length := by
  obtain ⟨r, hd, hr⟩ := Parses.inv (zarithZ_parses (win := False)) h hp (zarithZ_ne_wild v)
  have hrr := k.holds_unique hr h'
  subst hrr
  obtain ⟨_, b', he, hl⟩ := Reencodes.zarithZ v z r hd
  rw [toBytes_Z] at hb
  cases hb; cases he
  exact hl

/-- Exactly the last byte has a clear top bit, and it is not zero unless it is the only one. -/
def WellTerminated (b : Bytes) : Prop :=
  ∃ init last, b = init ++ [last] ∧ (∀ x ∈ init, 128 ≤ x.toNat) ∧ last.toNat < 128 ∧ (init ≠ [] → last ≠ 0)

theorem nat7_wellTerminated (n : Nat) : WellTerminated (Enc.nat7 n) ∧ (n ≠ 0 → (Enc.nat7 n).getLast? ≠ some 0) := by
  induction n using Nat.strongRecOn with
  | _ n ih =>
    rw [Enc.nat7]
    split
    · rename_i h
      have ho : (UInt8.ofNat n).toNat = n := byte_ofNat_toNat (by omega)
      refine ⟨⟨[], UInt8.ofNat n, rfl, by simp, by omega, by simp⟩, fun h0 => ?_⟩
      simp only [List.getLast?_singleton, ne_eq, Option.some.injEq]
      intro he
      rw [he] at ho
      exact h0 ho.symm
    · rename_i h
      obtain ⟨⟨init, last, he, h1, h2, h3⟩, h4⟩ := ih (n / 128) (by omega)
      have h4 := h4 (by omega)
      rw [he] at h4 ⊢
      refine ⟨⟨UInt8.ofNat (n % 128 + 128) :: init, last, rfl, ?_, h2, ?_⟩, ?_⟩
      · intro x hx
        rcases List.mem_cons.mp hx with rfl | hx
        · rw [byte_ofNat_toNat (by omega)]; omega
        · exact h1 x hx
      · intro _ h0
        subst h0
        exact h4 (by simp)
      · intro _ h0
        rw [← List.cons_append] at h0
        simp only [List.getLast?_append, List.getLast?_singleton, Option.some_or, Option.some.injEq] at h0 h4
        exact h4 (by rw [h0])

theorem int7_wellTerminated (z : Int) : WellTerminated (Enc.int7 z) := by
  unfold Enc.int7
  simp only
  split
  · rename_i h
    refine ⟨[], _, rfl, by simp, ?_, by simp⟩
    split <;> rw [byte_ofNat_toNat (by omega)] <;> omega
  · rename_i h
    obtain ⟨⟨init, last, he, h1, h2, h3⟩, h4⟩ := nat7_wellTerminated (z.natAbs / 64)
    have h4 := h4 (by omega)
    rw [he] at h4 ⊢
    refine ⟨_ :: init, last, rfl, ?_, h2, ?_⟩
    · intro x hx
      rcases List.mem_cons.mp hx with rfl | hx
      · split <;> rw [byte_ofNat_toNat (by omega)] <;> omega
      · exact h1 x hx
    · intro _ h0
      subst h0
      exact h4 (by simp)

/-- C14, shape of the encodings (in particular they are not empty). -/
theorem C14_N_shape (n : Nat) (b : Bytes) (hb : Codec.zarithN.toBytes n = some b) : WellTerminated b := by
  rw [toBytes_N] at hb
  cases hb
  exact (nat7_wellTerminated n).1

theorem C14_Z_shape (z : Int) (b : Bytes) (hb : Codec.zarithZ.toBytes z = some b) : WellTerminated b := by
  rw [toBytes_Z] at hb
  cases hb
  exact int7_wellTerminated z

-- a non-minimal encoding of 1 in two bytes is decoded too, which makes minimality worth stating
example (cfg : Cfg) : Codec.zarithN.Decodes cfg [0x81, 0x00] 1 [] ∧ Codec.zarithN.toBytes 1 = some [0x01] :=
  ⟨Parses.decodes (zarithN_parses (win := False)) rfl, by rw [toBytes_N]; simp [Enc.nat7]⟩

/-! ### C15 -/

/-- The value `Σ dᵢ·128ⁱ` of the low seven bits, least significant first. -/
def leVal7 : Bytes → Nat
  | [] => 0
  | b :: bs => b.toNat % 128 + 128 * leVal7 bs

/-- The value of a signed encoding: in the first byte six bits and the sign (bit 6), then seven bits each. -/
def leVal7s : Bytes → Int
  | [] => 0
  | b :: bs => (if b.toNat / 64 % 2 = 1 then -1 else 1) * ((b.toNat % 64 + 64 * leVal7 bs : Nat) : Int)

theorem leVal7_eq (bs : Bytes) : leVal7 bs = Dec.val7 bs := by
  induction bs with
  | nil => rfl
  | cons b bs ih => rw [leVal7, ih]; rfl

theorem leVal7s_eq (bs : Bytes) : leVal7s bs = Dec.ival7 bs := by
  cases bs with
  | nil => rfl
  | cons b bs =>
    simp only [leVal7s, Dec.ival7, leVal7_eq]
    split <;> simp

/-- `pre` ends with the first byte that has a clear top bit. -/
def FirstClear (pre : Bytes) : Prop :=
  ∃ init last, pre = init ++ [last] ∧ (∀ x ∈ init, 128 ≤ x.toNat) ∧ last.toNat < 128

/-- C15, acceptance: the bytes up to and including the first one with a clear top bit are decoded, to their
positional value. -/
theorem C15_decode (cfg : Cfg) (pre rest : Bytes) (h : FirstClear pre) :
    Codec.zarithN.Decodes cfg (pre ++ rest) (leVal7 pre) rest ∧
    Codec.zarithZ.Decodes cfg (pre ++ rest) (leVal7s pre) rest := by
  obtain ⟨init, last, rfl, h1, h2⟩ := h
  have ht : Dec.terminated (init ++ [last] ++ rest) = .ok (init ++ [last]) rest := by
    rw [List.append_assoc, Dec.terminated, D.until_]
    simp only [List.singleton_append]
    rw [D.until'_some [] (fun b hb => by have := h1 b hb; simp; omega) (by simpa using h2)]
    rfl
  constructor
  · refine Parses.decodes (zarithN_parses (win := False)) ?_
    simp only [Dec.zarithN, D.map_run, ht, DecRes.bind_ok, leVal7_eq]
  · refine Parses.decodes (zarithZ_parses (win := False)) ?_
    simp only [Dec.zarithZ, D.map_run, ht, DecRes.bind_ok, leVal7s_eq]

/-- C15, refusal: when no readable byte has a clear top bit, decoding fails and reports the readable bytes. -/
theorem C15_reject (cfg : Cfg) (v : Bytes) (h : ∀ b ∈ v, 128 ≤ b.toNat) :
    Codec.zarithN.Rejects cfg v (.token (.nonTerminating v)) ∧
    Codec.zarithZ.Rejects cfg v (.token (.nonTerminating v)) := by
  have ht : Dec.terminated v = .err (.token (.nonTerminating v)) := by
    rw [Dec.terminated, D.until_, D.until'_none [] fun b hb => by have := h b hb; simp; omega]
    rfl
  constructor
  · exact Parses.rejects (zarithN_parses (win := False)) (.inl id) (by simp only [Dec.zarithN, D.map_run, ht, DecRes.bind_err])
  · exact Parses.rejects (zarithZ_parses (win := False)) (.inl id) (by simp only [Dec.zarithZ, D.map_run, ht, DecRes.bind_err])

/-- C15: the two cases are all there is. -/
theorem C15_dichotomy (v : Bytes) : (∃ pre rest, v = pre ++ rest ∧ FirstClear pre) ∨ ∀ b ∈ v, 128 ≤ b.toNat := by
  rcases split_first (fun b => b.toNat < 128) v with h | ⟨init, last, rest, rfl, h1, h2⟩
  · exact .inr fun b hb => by have := h b hb; simp at this; omega
  · exact .inl ⟨init ++ [last], rest, by simp, init, last, rfl,
      fun b hb => by have := h1 b hb; simp at this; omega, by simpa using h2⟩

theorem decodes_same {α : Type} {c : Codec α} {cfg : Cfg} {v rest rest' : Bytes} {a b : α} (hv : v.length ≤ isizeMax)
    (ha : c.Decodes cfg v a rest) (hb : c.Decodes cfg v b rest') : a = b := by
  obtain ⟨s1, e1, _⟩ := ha .slice [] _ (Backend.holds_init .slice hv)
  obtain ⟨s2, e2, _⟩ := hb .slice [] _ (Backend.holds_init .slice hv)
  rw [e1] at e2
  exact (Out.ok.inj e2).1

/-- C15: two terminated strings decode to the same number exactly if they have equal positional value. -/
theorem C15_same (cfg : Cfg) (a b : Bytes) (ha : FirstClear a) (hb : FirstClear b)
    (la : a.length ≤ isizeMax) (lb : b.length ≤ isizeMax) :
    ((∃ n, Codec.zarithN.Decodes cfg a n [] ∧ Codec.zarithN.Decodes cfg b n []) ↔ leVal7 a = leVal7 b) ∧
    ((∃ z, Codec.zarithZ.Decodes cfg a z [] ∧ Codec.zarithZ.Decodes cfg b z []) ↔ leVal7s a = leVal7s b) := by
  obtain ⟨na, za⟩ := C15_decode cfg a [] ha
  obtain ⟨nb, zb⟩ := C15_decode cfg b [] hb
  rw [List.append_nil] at na za nb zb
  constructor
  · constructor
    · rintro ⟨n, h1, h2⟩
      rw [← decodes_same la h1 na, ← decodes_same lb h2 nb]
    · exact fun h => ⟨leVal7 a, na, h ▸ nb⟩
  · constructor
    · rintro ⟨n, h1, h2⟩
      rw [← decodes_same la h1 za, ← decodes_same lb h2 zb]
    · exact fun h => ⟨leVal7s a, za, h ▸ zb⟩

example : FirstClear [0xff, 0x80, 0x01] ∧ leVal7 [0xff, 0x80, 0x01] = 127 + 128 * 128 ∧
    leVal7s [0xff, 0x80, 0x01] = -(63 + 64 * 128) :=
  ⟨⟨[0xff, 0x80], 0x01, rfl, by decide, by decide⟩, rfl, rfl⟩

/-! ### C16 -/

/-- C16 for `Z`. -/
theorem C16_Z_estimate (z : Int) (b : Bytes) (hb : Codec.zarithZ.toBytes z = some b) :
    Codec.zarithZ.estimate z = b.length := by
  rw [toBytes_Z] at hb
  cases hb
  exact estimateZ z

/-- C16 for `N` except 0. Missing: the estimate for 0, which is wrong (`C16_N_estimate_fails_at_zero`). -/
theorem C16_N_estimate_partial (n : Nat) (h : n ≠ 0) (b : Bytes) (hb : Codec.zarithN.toBytes n = some b) :
    Codec.zarithN.estimate n = b.length := by
  rw [toBytes_N] at hb
  cases hb
  exact divCeil_bits h

/-- The code violates C16: `N(0)` is estimated at 0 bytes and encoded in one. -/
theorem C16_N_estimate_fails_at_zero :
    Codec.zarithN.toBytes 0 = some [0x00] ∧ Codec.zarithN.estimate 0 = 0 := by
  refine ⟨?_, ?_⟩
  · rw [toBytes_N]; simp [Enc.nat7]
  · simp [Codec.estimate, Codec.zarithN, bits_zero, divCeil]

example : Codec.zarithN.estimate 300 = 2 :=
  C16_N_estimate_partial 300 (by decide) [0xac, 0x02] (by rw [toBytes_N]; simp [Enc.nat7])
example : Codec.zarithZ.estimate (-64) = 2 :=
  C16_Z_estimate (-64) [0xc0, 0x01] (by rw [toBytes_Z]; simp [Enc.int7, Enc.nat7])

/-! ### C22 -/

/-- C22: `Bytes` and `Vec<u8>` are written verbatim, also behind what a buffer already holds, and decode to
all that is readable. -/
theorem C22_bytes (cfg : Cfg) (v : Bytes) :
    (∀ buf, Codec.bytes.writeToVec v buf = some (buf ++ v)) ∧ (∀ buf, Codec.vecU8.writeToVec v buf = some (buf ++ v)) ∧
    Codec.bytes.Decodes cfg v v [] ∧ Codec.vecU8.Decodes cfg v v [] :=
  ⟨fun buf => Writes.writeToVec bytes_writes v buf, fun buf => Writes.writeToVec vecU8_writes v buf,
    Parses.decodes (bytes_parses (win := False)) rfl, Parses.decodes (vecU8_parses (win := False)) rfl⟩

example (cfg : Cfg) : Codec.bytes.Decodes cfg [1, 2, 3] [1, 2, 3] [] := (C22_bytes cfg [1, 2, 3]).2.2.1

end Verif.Props
