import Verif.Convert
import Verif.Props.Dynamic
import Verif.Props.Ranged
/-
C53 (`length_prefix`), C54 (`N`/`Z` to machine integers), and the `f32` part of C32.
-/
namespace Verif.Props

open Codec

variable {α : Type} {c : Codec α} {cfg : Cfg}

/-! ### C53 -/

theorem lenPref_tryFrom (p : Profile) (S : LenPref) (l : Nat) :
    S.tryFrom p l = some (if l ≤ S.maxLen then some l else none) := by
  have hstd : ∀ t : IntTy, t.signed = false → (IntTy.tryFrom t l).map BitVec.toNat =
      if (l : Int) ≤ t.hi then some l else none := by
    intro t ht
    by_cases h : (l : Int) ≤ t.hi
    · have h' : l < 256 ^ t.len := by
        simp only [IntTy.hi, ht, Bool.false_eq_true, if_false] at h
        have : (256 : Nat) ^ t.len = 2 ^ (8 * t.len) := by rw [Nat.pow_mul]
        have h2 : ((2 ^ (8 * t.len) : Nat) : Int) = 2 ^ (8 * t.len) := by simp
        omega
      rw [if_pos h, IntTy.tryFrom_nat ht h']
      rw [Option.map_some, BitVec.toNat_ofNat, Nat.mod_eq_of_lt (by rw [Nat.pow_mul]; exact h')]
    · rw [if_neg h, IntTy.tryFrom, if_neg (fun h' => h h'.2)]
      rfl
  have hif : ∀ {P Q : Prop} [Decidable P] [Decidable Q], (P ↔ Q) →
      (if P then some l else none) = if Q then some l else none := by
    intro P Q _ _ h
    by_cases hp : P
    · rw [if_pos hp, if_pos (h.mp hp)]
    · rw [if_neg hp, if_neg (fun hq => hp (h.mpr hq))]
  cases S with
  | u8 =>
    rw [LenPref.tryFrom, hstd _ rfl]
    congr 1
    exact hif (by simp [IntTy.hi, IntTy.signed, IntTy.len, LenPref.maxLen]; omega)
  | u16 =>
    rw [LenPref.tryFrom, hstd _ rfl]
    congr 1
    exact hif (by simp [IntTy.hi, IntTy.signed, IntTy.len, LenPref.maxLen]; omega)
  | u30 =>
    have hm : LenPref.u30.maxLen = LenPref.u30Max := rfl
    by_cases h : l ≤ LenPref.u30.maxLen
    · have h32 : l < 256 ^ IntTy.u32.len := by
        rw [hm] at h; simp only [IntTy.len, LenPref.u30Max] at h ⊢; omega
      rw [if_pos h, LenPref.tryFrom, RangedInt.tryFromNum, restrict, if_neg (by omega), if_pos (by omega),
        if_pos (by omega)]
      simp only [RangedInt.fromNumericUnchecked, Int.le_refl, if_true, IntTy.tryFrom_nat rfl h32,
        BitVec.toNat_ofNat]
      rw [Nat.mod_eq_of_lt (by rw [Nat.pow_mul]; exact h32)]
    · rw [if_neg h, LenPref.tryFrom, RangedInt.tryFromNum, restrict, if_neg (by omega), if_pos (by omega),
        if_neg (by omega), if_neg (by omega)]

/-- C53 (without the feature that trusts length estimates): `length_prefix` is the number of payload bytes if the
prefix type can express it, else the error with both numbers; it panics only if the payload has no encoding. -/
theorem C53_length_prefix (hc : c.Appending) (hcfg : cfg.encLenOverride = false) (S : LenPref) (x : α) :
    (c.toBytes x = none → c.lengthPrefix cfg S x = none) ∧
    (∀ w, c.toBytes x = some w → w.length ≤ S.maxLen → c.lengthPrefix cfg S x = some (.ok w.length)) ∧
    (∀ w, c.toBytes x = some w → S.maxLen < w.length →
      c.lengthPrefix cfg S x = some (.error (.tooWide S.maxLen w.length))) := by
  have hl := encLen_eq (cfg := cfg) hc x
  simp only [Enc.lenOf, hcfg, Bool.false_eq_true, if_false] at hl
  refine ⟨fun h => ?_, fun w h hw => ?_, fun w h hw => ?_⟩
  · simp only [Codec.lengthPrefix, hl, h, Option.map_none]
  · simp only [Codec.lengthPrefix, hl, h, Option.map_some, lenPref_tryFrom, if_pos hw]
  · simp only [Codec.lengthPrefix, hl, h, Option.map_some, lenPref_tryFrom, if_neg (Nat.not_le.mpr hw)]
    rw [if_neg (fun ⟨_, h'⟩ => h' hw)]

/-- C53: `length_prefix` foretells encoding.  It is `Ok n` exactly if the value can be encoded, and then the
encoding begins with the prefix announcing `n`, followed by `n` bytes; it is `Err` exactly if encoding panics
although the payload alone can be encoded. -/
theorem C53_foretells (hc : c.Appending) (hcfg : cfg.encLenOverride = false) (S : LenPref) (x : α) :
    (∀ n, c.lengthPrefix cfg S x = some (.ok n) ↔
      ∃ p w, (dynamic cfg S c).toBytes x = some (p ++ w) ∧ p.length = S.len ∧ beVal p = n ∧ w.length = n) ∧
    ((∃ e, c.lengthPrefix cfg S x = some (.error e)) ↔
      (dynamic cfg S c).toBytes x = none ∧ ∃ w, c.toBytes x = some w) := by
  obtain ⟨h1, h2, h3⟩ := C53_length_prefix hc hcfg S x
  cases hx : c.toBytes x with
  | none =>
    have hn : (dynamic cfg S c).toBytes x = none := by
      cases hd : (dynamic cfg S c).toBytes x with
      | none => rfl
      | some b =>
        obtain ⟨_, _, _, h, _⟩ := (C19_encode hc hcfg S x b).mp hd
        rw [hx] at h; cases h
    rw [h1 hx, hn]
    refine ⟨fun n => ⟨nofun, ?_⟩, nofun, ?_⟩
    · rintro ⟨_, _, h, _⟩; cases h
    · rintro ⟨_, _, h⟩; cases h
  | some w =>
    by_cases hw : w.length ≤ S.maxLen
    · have hd : (dynamic cfg S c).toBytes x = some (toBe S.len w.length ++ w) :=
        (C19_encode hc hcfg S x _).mpr ⟨_, w, rfl, hx, toBe_length _ _, by
          rw [beVal_eq, ofBe_toBe_of_lt (Nat.lt_of_le_of_lt hw S.maxLen_lt)], hw⟩
      rw [h2 w hx hw]
      refine ⟨fun n => ⟨?_, ?_⟩, nofun, ?_⟩
      · intro h
        cases h
        exact ⟨_, w, hd, toBe_length _ _, by rw [beVal_eq, ofBe_toBe_of_lt (Nat.lt_of_le_of_lt hw S.maxLen_lt)], rfl⟩
      · rintro ⟨p, w', h, hp, _, rfl⟩
        rw [hd] at h
        have := congrArg List.length (Option.some.inj h)
        rw [List.length_append, List.length_append, toBe_length, hp] at this
        rw [show w.length = w'.length by omega]
      · rintro ⟨h, _⟩
        rw [hd] at h; cases h
    · have hw := Nat.not_le.mp hw
      have hd := (C45_prefix_exact hc hcfg S x).2 w hx hw
      rw [h3 w hx hw, hd]
      refine ⟨fun n => ⟨nofun, ?_⟩, fun _ => ⟨rfl, w, rfl⟩, fun _ => ⟨_, rfl⟩⟩
      rintro ⟨_, _, h, _⟩
      cases h

/-- Non-vacuity: both outcomes. -/
example : Codec.bytes.lengthPrefix ⟨.debug, false, false, false⟩ .u8 [1, 2, 3] = some (.ok 3) := rfl
example (w : Bytes) (hw : w.length = 256) :
    Codec.bytes.lengthPrefix ⟨.debug, false, false, false⟩ .u8 w = some (.error (.tooWide 255 256)) := by
  have := (C53_length_prefix (cfg := ⟨.debug, false, false, false⟩) bytes_writes.appending rfl .u8 w).2.2 w
    (Writes.toBytes bytes_writes w) (by rw [hw]; decide)
  rw [hw] at this
  exact this

/-! ### C54 -/

/-- C54: converting an arbitrary-precision number to a machine integer succeeds exactly if some value of the type
stands for the number, and then gives that value. -/
theorem C54_to_machine (t : IntTy) :
    (∀ (n : Nat) (v : t.Val), N.tryInto t n = some v ↔ t.toInt v = n) ∧
    (∀ (n : Int) (v : t.Val), Z.tryInto t n = some v ↔ t.toInt v = n) := by
  have key : ∀ (n : Int) (v : t.Val), t.tryFrom n = some v ↔ t.toInt v = n := by
    intro n v
    constructor
    · exact toInt_tryFrom
    · rintro rfl
      exact tryFrom_toInt v
  exact ⟨fun n v => key n v, key⟩

/-- Non-vacuity: 255 fits a byte, 256 does not, and -1 fits only the signed types. -/
example : N.tryInto .u8 255 = some 255#8 ∧ N.tryInto .u8 256 = none ∧ Z.tryInto .u16 (-1) = none ∧
    Z.tryInto .i16 (-1) = some 0xffff#16 := ⟨rfl, rfl, rfl, rfl⟩

/-! ### C32: single precision -/

/-- IEEE 754 binary32: sign, 8 bits of exponent, 23 bits of mantissa; `none` is NaN.  Units of 2^-149. -/
def floatValue32 (x : BitVec 32) : Option FloatValue :=
  let negative : Bool := x.toNat / 2 ^ 31 = 1
  let e : Nat := x.toNat / 2 ^ 23 % 2 ^ 8
  let m : Nat := x.toNat % 2 ^ 23
  if e = 255 then
    if m ≠ 0 then none
    else if negative then some .negInf else some .posInf
  else
    let mag : Int := if e = 0 then m else ((2 ^ 23 + m) * 2 ^ (e - 1) : Nat)
    some (.finite (if negative then - mag else mag))

/-- The same number in units of 2^-1074. -/
def FloatValue.rescale : FloatValue → FloatValue
  | .negInf => .negInf
  | .finite n => .finite (n * 2 ^ 925)
  | .posInf => .posInf

/-- The value of a double built from its parts. -/
theorem floatValue_parts {s e m : Nat} (hs : s < 2) (he : e < 2048) (hm : m < 2 ^ 52) :
    floatValue (BitVec.ofNat 64 (s * 2 ^ 63 + (e * 2 ^ 52 + m))) =
      if e = 2047 then if m ≠ 0 then none else if (decide (s = 1)) then some .negInf else some .posInf
      else some (.finite (if (decide (s = 1)) then - (if e = 0 then (m : Int) else ((2 ^ 52 + m) * 2 ^ (e - 1) : Nat))
        else (if e = 0 then (m : Int) else ((2 ^ 52 + m) * 2 ^ (e - 1) : Nat)))) := by
  have h : (BitVec.ofNat 64 (s * 2 ^ 63 + (e * 2 ^ 52 + m))).toNat = s * 2 ^ 63 + (e * 2 ^ 52 + m) := by
    rw [BitVec.toNat_ofNat, Nat.mod_eq_of_lt (by omega)]
  have h1 : (s * 2 ^ 63 + (e * 2 ^ 52 + m)) / 2 ^ 63 = s := by omega
  have h2 : (s * 2 ^ 63 + (e * 2 ^ 52 + m)) / 2 ^ 52 % 2 ^ 11 = e := by omega
  have h3 : (s * 2 ^ 63 + (e * 2 ^ 52 + m)) % 2 ^ 52 = m := by omega
  simp only [floatValue, h, h1, h2, h3]

theorem rescale_norm {a i j k l : Nat} (h : i + j = k + l) :
    ((a * 2 ^ i * 2 ^ j : Nat) : Int) = ((a * 2 ^ k : Nat) : Int) * 2 ^ l := by
  have : a * 2 ^ i * 2 ^ j = a * 2 ^ k * 2 ^ l := by
    rw [Nat.mul_assoc, Nat.mul_assoc, ← Nat.pow_add, ← Nat.pow_add, h]
  rw [this, Int.natCast_mul, Int.natCast_pow]
  rfl

theorem rescale_sub {m i j k l : Nat} (hk : 2 ^ k ≤ m) (h : i + j = l) :
    (((2 ^ k * 2 ^ i + (m - 2 ^ k) * 2 ^ i) * 2 ^ j : Nat) : Int) = (m : Int) * 2 ^ l := by
  rw [← Nat.add_mul, Nat.add_sub_cancel' hk, rescale_norm (k := 0) (l := l) (by omega), Nat.pow_zero, Nat.mul_one]

/-- Widening is exact: the double stands for the same number (NaN for NaN). -/
theorem C32_f32_exact (x : BitVec 32) : floatValue (F32.widen x) = (floatValue32 x).map FloatValue.rescale := by
  have hx := x.isLt
  simp only [F32.widen, floatValue32]
  generalize x.toNat = n at hx
  have hs : n / 2 ^ 31 < 2 := by omega
  have he : n / 2 ^ 23 % 2 ^ 8 < 256 := Nat.mod_lt _ (by decide)
  have hm : n % 2 ^ 23 < 2 ^ 23 := Nat.mod_lt _ (by decide)
  generalize n / 2 ^ 31 = s at hs
  generalize n / 2 ^ 23 % 2 ^ 8 = e at he
  generalize n % 2 ^ 23 = m at hm
  have hcast : ∀ (a : Nat) (b : Int), (a : Int) = b * 2 ^ 925 →
      (if decide (s = 1) = true then - (a : Int) else a) = (if decide (s = 1) = true then - b else b) * 2 ^ 925 := by
    intro a b h
    split
    · rw [h, Int.neg_mul]
    · exact h
  by_cases h1 : e = 255
  · rw [if_pos h1, if_pos h1]
    by_cases h2 : m = 0
    · rw [if_pos h2, floatValue_parts hs (by omega) (by omega)]
      simp only [h2, ne_eq, not_true_eq_false, if_false, if_true]
      split <;> rfl
    · rw [if_neg h2, floatValue_parts hs (by omega) (by omega)]
      rw [if_pos rfl, if_pos (by omega), if_pos h2]
      rfl
  rw [if_neg h1, if_neg h1]
  by_cases h2 : e = 0
  · rw [if_pos h2]
    by_cases h3 : m = 0
    · subst h3
      rw [if_pos rfl]
      have := floatValue_parts (m := 0) (e := 0) hs (by decide) (by decide)
      rw [Nat.zero_mul, Nat.zero_add] at this
      rw [this, if_neg (by decide)]
      simp only [if_true, h2, Option.map_some, FloatValue.rescale]
      exact congrArg _ (congrArg _ (hcast 0 0 (by omega)))
    · rw [if_neg h3]
      have hk1 : 2 ^ m.log2 ≤ m := Nat.log2_self_le h3
      have hk2 : m < 2 ^ (m.log2 + 1) := Nat.lt_log2_self
      have hk3 : m.log2 < 23 := (Nat.log2_lt h3).mpr hm
      generalize m.log2 = k at hk1 hk2 hk3
      have hp : 2 ^ k * 2 ^ (52 - k) = 2 ^ 52 := by rw [← Nat.pow_add]; congr 1; omega
      have hlt : (m - 2 ^ k) * 2 ^ (52 - k) < 2 ^ 52 := by
        rw [← hp]
        exact Nat.mul_lt_mul_of_pos_right (by rw [Nat.pow_succ] at hk2; omega) (Nat.two_pow_pos _)
      rw [floatValue_parts hs (by omega) hlt, if_neg (by omega)]
      simp only [show ¬ k + 874 = 0 by omega, if_false, h2, if_true, Option.map_some, FloatValue.rescale]
      refine congrArg _ (congrArg _ (hcast _ _ ?_))
      rw [← hp]
      exact rescale_sub hk1 (by omega)
  · rw [if_neg h2, floatValue_parts hs (by omega) (by omega), if_neg (by omega)]
    simp only [show ¬ e + 896 = 0 by omega, h2, if_false, Option.map_some, FloatValue.rescale]
    refine congrArg _ (congrArg _ (hcast _ _ ?_))
    rw [show 2 ^ 52 + m * 2 ^ 29 = (2 ^ 23 + m) * 2 ^ 29 by omega]
    exact rescale_norm (by omega)

/-- C32, the constructor from single precision: accepts exactly the numbers in range, and the value accepted is the
double that stands for the same number. -/
theorem C32_f32 (min max : BitVec 64) (x : BitVec 32) :
    (∀ y, RangedFloat.tryFromF32 min max x = .ok y → FloatLe min y ∧ FloatLe y max ∧
      floatValue y = (floatValue32 x).map FloatValue.rescale) ∧
    ((∃ y, RangedFloat.tryFromF32 min max x = .ok y) ↔
      ∃ a lo hi, floatValue32 x = some a ∧ floatValue min = some lo ∧ floatValue max = some hi ∧
        lo.le a.rescale ∧ a.rescale.le hi) := by
  have hc := C32_constructors min max (F32.widen x)
  have hr : RangedFloat.tryFromF32 min max x = RangedFloat.tryFromF64 min max (F32.widen x) := rfl
  have hw := C32_f32_exact x
  rw [hr]
  by_cases h : FloatLe min (F32.widen x) ∧ FloatLe (F32.widen x) max
  · rw [(hc.1 h).1]
    refine ⟨fun y hy => ?_, fun _ => ?_, fun _ => ⟨_, rfl⟩⟩
    · cases hy
      exact ⟨h.1, h.2, hw⟩
    · obtain ⟨⟨lo, b, h1, h2, h3⟩, b', hi, h4, h5, h6⟩ := h
      rw [h2] at h4
      cases h4
      rw [hw] at h2
      cases hv : floatValue32 x with
      | none => rw [hv] at h2; cases h2
      | some a =>
        rw [hv] at h2
        cases h2
        exact ⟨a, lo, hi, rfl, h1, h5, h3, h6⟩
  · obtain ⟨⟨e, he⟩, _⟩ := hc.2 h
    rw [he]
    refine ⟨nofun, nofun, ?_⟩
    rintro ⟨a, lo, hi, h1, h2, h3, h4, h5⟩
    rw [h1] at hw
    exact absurd ⟨⟨lo, _, h2, hw, h4⟩, _, hi, hw, h3, h5⟩ h

/-- Non-vacuity: 1.0f32 is accepted between 0 and 2; the smallest subnormal is not zero; infinity and NaN are
rejected. -/
example : RangedFloat.tryFromF32 0 0x4000000000000000 0x3f800000 = .ok 0x3ff0000000000000 := rfl
example : RangedFloat.tryFromF32 0 0x4000000000000000 0x00000001 = .ok 0x36a0000000000000 := rfl
example : RangedFloat.tryFromF32 0 0x4000000000000000 0x7f800000 = .error (.overflow 0x4000000000000000 0x7ff0000000000000) := rfl

end Verif.Props
