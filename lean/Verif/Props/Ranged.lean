import Verif.RangedNum
import Verif.Props.Prims
/-
C31 (`RangedInt`), C32 (`RangedFloat`), C50 (the distinguished values of `RangedInt`).
-/
namespace Verif.Props

open Codec

/-! ### C31 -/

/-- The number a ranged integer stands for (src/int.rs:84-110, documentation). -/
def number (t : IntTy) (min : Int) (x : t.Val) : Int := if min ≤ 0 then t.toInt x else min + t.toInt x

/-- The ranges that the documentation allows (src/int.rs:112-120). -/
def SoundRange (min max : Int) : Prop := -2 ^ 30 ≤ min ∧ min ≤ max ∧ max ≤ 2 ^ 30 - 1

/-- The backer can hold the range. -/
def Backs (t : IntTy) (min max : Int) : Prop := if min ≤ 0 then t.lo ≤ min ∧ max ≤ t.hi else max - min ≤ t.hi

theorem inRange_iff {min max : Int} (t : IntTy) (x : t.Val) :
    Enc.inRange min max (t.toInt x) ↔ min ≤ number t min x ∧ number t min x ≤ max := by
  simp only [Enc.inRange, number]
  by_cases h : 0 < min
  · rw [if_pos h, if_neg (Int.not_le.mpr h)]; omega
  · rw [if_neg h, if_pos (Int.not_lt.mp h)]

/-- C31, encoding: the encoding of the backer for values in range, a panic for others (which only unsafe code can
make). -/
theorem C31_encode (t : IntTy) (min max : Int) (x : t.Val) : (Codec.rangedInt t min max).toBytes x =
    if min ≤ number t min x ∧ number t min x ≤ max then (Codec.int t).toBytes x else none := by
  rw [Writes.toBytes (rangedInt_writes t min max), Writes.toBytes (int_writes t)]
  simp only [Enc.rangedInt, Enc.int, inRange_iff]

/-- C31, decoding a value in range. -/
theorem C31_decode (cfg : Cfg) (t : IntTy) (min max : Int) (x : t.Val) (b rest : Bytes)
    (h : min ≤ number t min x ∧ number t min x ≤ max) (hb : (Codec.int t).toBytes x = some b) :
    (Codec.rangedInt t min max).Decodes cfg (b ++ rest) x rest := by
  rw [Writes.toBytes (int_writes t)] at hb
  refine Parses.decodes (rangedInt_parses (win := False) t min max) ?_
  exact RoundTrips.rangedInt t min max x b rest trivial (by
    rw [Enc.rangedInt, if_pos ((inRange_iff t x).mpr h)]; exact hb) trivial

/-- C31, rejecting a value out of range. -/
theorem C31_reject (cfg : Cfg) (t : IntTy) (min max : Int) (x : t.Val) (b rest : Bytes)
    (h : ¬ (min ≤ number t min x ∧ number t min x ≤ max)) (hb : (Codec.int t).toBytes x = some b) :
    ∃ e, (Codec.rangedInt t min max).Rejects cfg (b ++ rest) (.external (.intRangeViolation e)) := by
  rw [Writes.toBytes (int_writes t)] at hb
  have h1 := RoundTrips.int t x b rest trivial hb trivial
  cases hr : restrict (t.toInt x) min max with
  | ok => exact absurd ((inRange_iff t x).mp (restrict_ok_iff.mp hr)) h
  | error e =>
    refine ⟨e, Parses.rejects (rangedInt_parses (win := False) t min max) (.inl id) ?_⟩
    simp only [Dec.rangedInt, D.bind_run, h1, DecRes.bind_ok, hr]
    rfl

/-- C31, together with C10: every input with at least as many bytes as the backer starts with the encoding of exactly
one backer value, and is accepted iff that value is in range. -/
theorem C31_exact (cfg : Cfg) (t : IntTy) (min max : Int) (bs rest : Bytes) (hb : bs.length = t.len) :
    ∃ x, (Codec.int t).toBytes x = some bs ∧
      ((min ≤ number t min x ∧ number t min x ≤ max) → (Codec.rangedInt t min max).Decodes cfg (bs ++ rest) x rest) ∧
      (¬ (min ≤ number t min x ∧ number t min x ≤ max) →
        ∃ e, (Codec.rangedInt t min max).Rejects cfg (bs ++ rest) (.external (.intRangeViolation e))) := by
  obtain ⟨x, hx, _⟩ := C10_int_decode cfg t bs rest hb
  exact ⟨x, hx, fun h => C31_decode cfg t min max x bs rest h hx, fun h => C31_reject cfg t min max x bs rest h hx⟩

/-- C31, too few bytes. -/
theorem C31_short (cfg : Cfg) (t : IntTy) (min max : Int) (v : Bytes) (h : v.length < t.len) :
    (Codec.rangedInt t min max).Rejects cfg v (D.shortErr t.len v.length) := by
  refine Parses.rejects (rangedInt_parses (win := False) t min max) (.inl id) ?_
  simp only [Dec.rangedInt, Dec.int, D.bind_run, D.map_run, D.take, if_neg (Nat.not_le.mpr h), D.short,
    if_pos t.len_le, DecRes.bind_err]

theorem toInt_tryFrom {t : IntTy} {n : Int} {v : t.Val} (h : t.tryFrom n = some v) : t.toInt v = n := by
  simp only [IntTy.tryFrom] at h
  split at h
  · rename_i hr
    cases h
    simp only [IntTy.toInt]
    cases t <;> simp [IntTy.lo, IntTy.hi, IntTy.signed, IntTy.len] at hr ⊢ <;>
      first
      | (rw [Int.bmod_def]; omega)
      | (rw [Int.emod_eq_of_lt hr.1 (by omega)]; omega)
  · cases h

theorem tryFrom_toInt {t : IntTy} (v : t.Val) : t.tryFrom (t.toInt v) = some v := by
  have hb : t.lo ≤ t.toInt v ∧ t.toInt v ≤ t.hi := by
    have h1 := v.isLt
    have h2 := v.toInt_lt
    have h3 := v.le_toInt
    cases t <;> simp only [IntTy.lo, IntTy.hi, IntTy.toInt, IntTy.signed, IntTy.len] at * <;>
      constructor <;> simp <;> omega
  rw [IntTy.tryFrom, if_pos hb, IntTy.toInt]
  congr 1
  split
  · exact BitVec.ofInt_toInt
  · rw [BitVec.ofInt_natCast, BitVec.ofNat_toNat, BitVec.setWidth_eq]

theorem tryFrom_isSome {t : IntTy} {n : Int} (h1 : t.lo ≤ n) (h2 : n ≤ t.hi) : ∃ v, t.tryFrom n = some v :=
  ⟨_, if_pos ⟨h1, h2⟩⟩

theorem lo_le_zero (t : IntTy) : t.lo ≤ 0 := by cases t <;> decide

theorem i32_cast {n : Int} (h : -2 ^ 31 ≤ n ∧ n ≤ 2 ^ 31 - 1) : IntTy.i32.toInt (IntTy.i32.cast n) = n :=
  toInt_tryFrom (t := .i32) (if_pos h)

/-- C31, `to_i32` on a sound range: the number the value stands for. -/
theorem C31_to_i32 (p : Profile) (t : IntTy) (min max : Int) (hs : SoundRange min max) (v : t.Val)
    (h : min ≤ number t min v ∧ number t min v ≤ max) : RangedInt.toI32 p t min max v = some (number t min v) := by
  have hr := restrict_ok_iff.mpr ((inRange_iff t v).mpr h)
  unfold SoundRange at hs
  simp only [RangedInt.toI32, hr]
  by_cases hm : min ≤ 0
  · have hn : number t min v = t.toInt v := if_pos hm
    rw [hn] at h
    rw [if_pos hm, i32_cast (by omega), hn]
  · have hn : number t min v = min + t.toInt v := if_neg hm
    rw [hn] at h
    have hw : wrapI32 p (t.toInt v + min) = some (t.toInt v + min) := if_pos (by omega)
    rw [if_neg hm, i32_cast (by omega), hw, hn, Int.add_comm]

/-- C31, `try_from_i32` and `from_i32` on a sound range: exactly the numbers of the range are accepted, and `to_i32`
gives them back; others are never accepted (an error, or in debug builds, for `x < MIN - 2^31`, an overflow panic), and
`from_i32` panics on them. -/
theorem C31_from_i32 (p : Profile) (t : IntTy) (min max : Int) (hs : SoundRange min max) (hb : Backs t min max) (x : Int)
    (hx : -2 ^ 31 ≤ x ∧ x ≤ 2 ^ 31 - 1) :
    (min ≤ x ∧ x ≤ max → ∃ v, RangedInt.tryFromI32 p t min max x = some (.ok v) ∧ number t min v = x ∧
      RangedInt.fromI32 p t min max x = some v ∧ RangedInt.toI32 p t min max v = some x) ∧
    (¬ (min ≤ x ∧ x ≤ max) → ((∃ e, RangedInt.tryFromI32 p t min max x = some (.error e)) ∨
      (p = .debug ∧ x < min - 2 ^ 31 ∧ RangedInt.tryFromI32 p t min max x = none)) ∧
      RangedInt.fromI32 p t min max x = none) := by
  have hs' := hs
  unfold SoundRange at hs
  unfold Backs at hb
  have h0 := lo_le_zero t
  have hno : (∃ e, RangedInt.tryFromI32 p t min max x = some (.error e)) ∨
      (p = .debug ∧ x < min - 2 ^ 31 ∧ RangedInt.tryFromI32 p t min max x = none) → RangedInt.fromI32 p t min max x = none := by
    rintro (⟨e, h⟩ | ⟨_, _, h⟩) <;> simp only [RangedInt.fromI32, h]
  refine ⟨fun h => ?_, fun h => have := ?_; ⟨this, hno this⟩⟩
  · obtain ⟨v, h1, h2⟩ : ∃ v, RangedInt.tryFromI32 p t min max x = some (.ok v) ∧ number t min v = x := by
      by_cases hm : min ≤ 0
      · rw [if_pos hm] at hb
        obtain ⟨v, hv⟩ := tryFrom_isSome (t := t) (n := x) (by omega) (by omega)
        have hr : restrict x min max = .ok () := restrict_ok_iff.mpr (by unfold Enc.inRange; split <;> omega)
        exact ⟨v, by simp only [RangedInt.tryFromI32, if_pos hm, hr, hv], by rw [number, if_pos hm, toInt_tryFrom hv]⟩
      · rw [if_neg hm] at hb
        obtain ⟨v, hv⟩ := tryFrom_isSome (t := t) (n := x - min) (by omega) (by omega)
        have hr : restrict (x - min) min max = .ok () := restrict_ok_iff.mpr (by unfold Enc.inRange; split <;> omega)
        refine ⟨v, ?_, by rw [number, if_neg hm, toInt_tryFrom hv]; omega⟩
        have hw : wrapI32 p (x - min) = some (x - min) := if_pos (by omega)
        simp only [RangedInt.tryFromI32, if_neg hm, hw, hr, hv]
    exact ⟨v, h1, h2, by simp only [RangedInt.fromI32, h1], by
      rw [← h2]
      exact C31_to_i32 p t min max hs' v (by rw [h2]; exact h)⟩
  · by_cases hm : min ≤ 0
    · left
      cases hr : restrict x min max with
      | ok => exact absurd (restrict_ok_iff.mp hr) (by unfold Enc.inRange; split <;> omega)
      | error e => exact ⟨e, by simp only [RangedInt.tryFromI32, if_pos hm, hr]⟩
    · have key : ∀ u, wrapI32 p (x - min) = some u → ¬ (0 ≤ u ∧ u ≤ max - min) →
          ∃ e, RangedInt.tryFromI32 p t min max x = some (.error e) := by
        intro u hu hne
        cases hr : restrict u min max with
        | ok => exact absurd (restrict_ok_iff.mp hr) (by unfold Enc.inRange; split <;> omega)
        | error e => exact ⟨e, by simp only [RangedInt.tryFromI32, if_neg hm, hu, hr]⟩
      by_cases hw : -2 ^ 31 ≤ x - min ∧ x - min ≤ 2 ^ 31 - 1
      · exact .inl (key (x - min) (if_pos hw) (by omega))
      · cases p with
        | debug =>
          refine .inr ⟨rfl, by omega, ?_⟩
          have hn : wrapI32 .debug (x - min) = none := if_neg hw
          simp only [RangedInt.tryFromI32, if_neg hm, hn]
        | release =>
          have hn : wrapI32 .release (x - min) = some (Int.bmod (x - min) (2 ^ 32)) := if_neg hw
          refine .inl (key _ hn ?_)
          have : Int.bmod (x - min) (2 ^ 32) = x - min + 2 ^ 32 := by rw [Int.bmod_def]; omega
          omega

/-- C31, a number of the range that the backing type has no value for is refused without naming a bound. -/
theorem C31_unfit (p : Profile) (t : IntTy) (min max : Int) (hs : SoundRange min max) (x : Int)
    (hx : -2 ^ 31 ≤ x ∧ x ≤ 2 ^ 31 - 1) (h : min ≤ x ∧ x ≤ max) (hn : ∀ v : t.Val, number t min v ≠ x) :
    RangedInt.tryFromI32 p t min max x = some (.error .failed) := by
  unfold SoundRange at hs
  by_cases hm : min ≤ 0
  · have hr : restrict x min max = .ok () := restrict_ok_iff.mpr (by unfold Enc.inRange; split <;> omega)
    cases hv : t.tryFrom x with
    | none => simp only [RangedInt.tryFromI32, if_pos hm, hr, hv]
    | some v => exact absurd (by rw [number, if_pos hm, toInt_tryFrom hv]) (hn v)
  · have hr : restrict (x - min) min max = .ok () := restrict_ok_iff.mpr (by unfold Enc.inRange; split <;> omega)
    have hw : wrapI32 p (x - min) = some (x - min) := if_pos (by omega)
    cases hv : t.tryFrom (x - min) with
    | none => simp only [RangedInt.tryFromI32, if_neg hm, hw, hr, hv]
    | some v => exact absurd (by rw [number, if_neg hm, toInt_tryFrom hv]; omega) (hn v)

example (p : Profile) : RangedInt.tryFromI32 p .u8 0 1000 300 = some (.error .failed) :=
  C31_unfit p .u8 0 1000 (by unfold SoundRange; decide) 300 (by decide) (by decide) fun v h => by
    have : number .u8 0 v = IntTy.u8.toInt v := if_pos (by decide)
    rw [this] at h
    have hl : IntTy.u8.toInt v = (v.toNat : Int) := rfl
    have : v.toNat < 256 := v.isLt
    omega

/-- C31, `from_underlying` and `try_from_underlying` accept exactly the values in range, unchanged; `to_underlying`
gives them back. -/
theorem C31_underlying (t : IntTy) (min max : Int) (x : t.Val) :
    (min ≤ number t min x ∧ number t min x ≤ max → RangedInt.tryFromUnderlying t min max x = .ok x ∧
      RangedInt.fromUnderlying t min max x = some x ∧ RangedInt.toUnderlying t min max x = some x) ∧
    (¬ (min ≤ number t min x ∧ number t min x ≤ max) → (∃ e, RangedInt.tryFromUnderlying t min max x = .error e) ∧
      RangedInt.fromUnderlying t min max x = none ∧ RangedInt.toUnderlying t min max x = none) := by
  refine ⟨fun h => ?_, fun h => ?_⟩
  · have hr := restrict_ok_iff.mpr ((inRange_iff t x).mpr h)
    simp only [RangedInt.tryFromUnderlying, RangedInt.fromUnderlying, RangedInt.toUnderlying, hr, and_self]
  · cases hr : restrict (t.toInt x) min max with
    | ok => exact absurd ((inRange_iff t x).mp (restrict_ok_iff.mp hr)) h
    | error e =>
      simp only [RangedInt.tryFromUnderlying, RangedInt.fromUnderlying, RangedInt.toUnderlying, hr, and_self, and_true]
      exact ⟨e, rfl⟩

/-- C31, the `TryFrom` implementations for ranges with `MIN <= 0`: exactly the numbers of the range are accepted.
Missing: `MIN > 0`, where it fails (`C31_try_from_fails`). -/
theorem C31_try_from_partial (p : Profile) (t : IntTy) (min max : Int) (hs : SoundRange min max) (hb : Backs t min max)
    (hm : min ≤ 0) (n : Int) :
    (min ≤ n ∧ n ≤ max → ∃ v, RangedInt.tryFromNum p t min max n = some (.ok v) ∧ number t min v = n) ∧
    (¬ (min ≤ n ∧ n ≤ max) → ∃ e, RangedInt.tryFromNum p t min max n = some (.error e)) := by
  unfold SoundRange at hs
  unfold Backs at hb
  rw [if_pos hm] at hb
  refine ⟨fun h => ?_, fun h => ?_⟩
  · obtain ⟨v, hv⟩ := tryFrom_isSome (t := t) (n := n) (by omega) (by omega)
    have hr : restrict n min max = .ok () := restrict_ok_iff.mpr (by unfold Enc.inRange; split <;> omega)
    exact ⟨v, by simp only [RangedInt.tryFromNum, RangedInt.fromNumericUnchecked, hr, if_pos hm, hv],
      by rw [number, if_pos hm, toInt_tryFrom hv]⟩
  · cases hr : restrict n min max with
    | ok => exact absurd (restrict_ok_iff.mp hr) (by unfold Enc.inRange; split <;> omega)
    | error e => exact ⟨e, by simp only [RangedInt.tryFromNum, hr]⟩

/-- C31 fails for `TryFrom` with `MIN > 0`, for every sound such range: a number below `MIN` that is at most `MAX - MIN`
panics instead of being refused, and the number `MAX` is refused although it is in range. -/
theorem C31_try_from_fails (p : Profile) (t : IntTy) (min max : Int) (hs : SoundRange min max) (hm : 0 < min) :
    (∃ e, RangedInt.tryFromNum p t min max max = some (.error e)) ∧
    (∀ n, 0 ≤ n → n < min → n ≤ max - min → t.signed = false → RangedInt.tryFromNum p t min max n = none) := by
  unfold SoundRange at hs
  refine ⟨?_, fun n h0 h1 h2 ht => ?_⟩
  · cases hr : restrict max min max with
    | ok => exact absurd (restrict_ok_iff.mp hr) (by unfold Enc.inRange; split <;> omega)
    | error e => exact ⟨e, by simp only [RangedInt.tryFromNum, hr]⟩
  · have hr : restrict n min max = .ok () := restrict_ok_iff.mpr (by unfold Enc.inRange; split <;> omega)
    have hi : IntTy.i32.tryFrom n = some (BitVec.ofInt _ n) := if_pos (by
      simp only [IntTy.lo, IntTy.hi, IntTy.signed, IntTy.len, if_true]; omega)
    have hw : wrapI32 p (n - min) = some (n - min) := if_pos (by omega)
    have hf : t.tryFrom (n - min) = none := if_neg (by
      simp only [IntTy.lo, ht, Bool.false_eq_true, if_false]; omega)
    simp only [RangedInt.tryFromNum, RangedInt.fromNumericUnchecked, hr, if_neg (Int.not_le.mpr hm), hi, hw, hf]

/-- C31, and a number in range is accepted by `TryFrom` also when `MIN > 0`, if it is at most `MAX - MIN`. -/
theorem C31_try_from_low_partial (p : Profile) (t : IntTy) (min max : Int) (hs : SoundRange min max) (hb : Backs t min max)
    (hm : 0 < min) (n : Int) (h1 : min ≤ n) (h2 : n ≤ max - min) :
    ∃ v, RangedInt.tryFromNum p t min max n = some (.ok v) ∧ number t min v = n := by
  unfold SoundRange at hs
  unfold Backs at hb
  have hm' := Int.not_le.mpr hm
  have h0 := lo_le_zero t
  rw [if_neg hm'] at hb
  obtain ⟨v, hv⟩ := tryFrom_isSome (t := t) (n := n - min) (by omega) (by omega)
  have hr : restrict n min max = .ok () := restrict_ok_iff.mpr (by unfold Enc.inRange; split <;> omega)
  have hi : IntTy.i32.tryFrom n = some (BitVec.ofInt _ n) := if_pos (by
    simp only [IntTy.lo, IntTy.hi, IntTy.signed, IntTy.len, if_true]; omega)
  have hw : wrapI32 p (n - min) = some (n - min) := if_pos (by omega)
  refine ⟨v, ?_, by rw [number, if_neg hm', toInt_tryFrom hv]; omega⟩
  simp only [RangedInt.tryFromNum, RangedInt.fromNumericUnchecked, hr, if_neg hm', hi, hw, hv]

/-- C31, `TryFrom` for ranges with `MIN > 0`, exactly: the number is compared with `0..=MAX - MIN` instead of the range;
one that passes is stored as its distance from `MIN` if the backer has that number, and panics otherwise.  So with a
signed backer numbers below `MIN` are accepted, and the value that results is not in the range. -/
theorem C31_try_from_exact (p : Profile) (t : IntTy) (min max : Int) (hs : SoundRange min max) (hm : 0 < min) (n : Int) :
    (¬ (0 ≤ n ∧ n ≤ max - min) → ∃ e, RangedInt.tryFromNum p t min max n = some (.error e)) ∧
    (0 ≤ n ∧ n ≤ max - min → ∀ v : t.Val, number t min v = n → RangedInt.tryFromNum p t min max n = some (.ok v)) ∧
    (0 ≤ n ∧ n ≤ max - min → (∀ v : t.Val, number t min v ≠ n) → RangedInt.tryFromNum p t min max n = none) := by
  unfold SoundRange at hs
  have hm' := Int.not_le.mpr hm
  refine ⟨fun h => ?_, fun h v hv => ?_, fun h hv => ?_⟩
  · cases hr : restrict n min max with
    | ok => exact absurd (restrict_ok_iff.mp hr) (by unfold Enc.inRange; split <;> omega)
    | error e => exact ⟨e, by simp only [RangedInt.tryFromNum, hr]⟩
  all_goals
    have hr : restrict n min max = .ok () := restrict_ok_iff.mpr (by unfold Enc.inRange; split <;> omega)
    have hi : IntTy.i32.tryFrom n = some (BitVec.ofInt _ n) := if_pos (by
      simp only [IntTy.lo, IntTy.hi, IntTy.signed, IntTy.len, if_true]; omega)
    have hw : wrapI32 p (n - min) = some (n - min) := if_pos (by omega)
    simp only [RangedInt.tryFromNum, RangedInt.fromNumericUnchecked, hr, if_neg hm', hi, hw]
  · rw [number, if_neg hm'] at hv
    have : t.tryFrom (n - min) = some v := by
      have hx := tryFrom_toInt v
      rwa [show t.toInt v = n - min by omega] at hx
    rw [this]
  · cases ht : t.tryFrom (n - min) with
    | none => rfl
    | some v =>
      refine absurd ?_ (hv v)
      rw [number, if_neg hm', toInt_tryFrom ht]; omega

/-- `RangedInt<u8, 1023, 1025>` of the documentation (src/int.rs:316). -/
example (cfg : Cfg) : (Codec.rangedInt .u8 1023 1025).Decodes cfg [2, 9] 2 [9] :=
  C31_decode cfg .u8 1023 1025 2 [2] [9] (by decide) (by decide)
example (cfg : Cfg) : ∃ e, (Codec.rangedInt .u8 1023 1025).Rejects cfg [3, 9] (.external (.intRangeViolation e)) :=
  C31_reject cfg .u8 1023 1025 3 [3] [9] (by decide) (by decide)
example : SoundRange 1023 1025 ∧ Backs .u8 1023 1025 ∧ SoundRange (-100) 100 ∧ Backs .i8 (-100) 100 := by
  simp [SoundRange, Backs, IntTy.lo, IntTy.hi, IntTy.signed, IntTy.len]
example (p : Profile) : RangedInt.tryFromI32 p .u8 1023 1025 1024 = some (.ok 1) := by
  cases p <;> rfl
/-- `RangedInt::<u8, 10, 100>::try_from(95)` is refused, `try_from(5)` panics. -/
example (p : Profile) : (∃ e, RangedInt.tryFromNum p .u8 10 100 95 = some (.error e)) ∧
    RangedInt.tryFromNum p .u8 10 100 5 = none := by
  cases p <;> exact ⟨⟨_, rfl⟩, rfl⟩

/-- `RangedInt::<i8, 10, 100>::try_from(5)` is accepted, and stands for 5. -/
example (p : Profile) : ∃ v, RangedInt.tryFromNum p .i8 10 100 5 = some (.ok v) ∧ number .i8 10 v = 5 := by
  cases p <;> exact ⟨-5, rfl, rfl⟩

/-! ### C50 -/

/-- C50 for `MIN <= 0`: `min_val`, `max_val` and `default` stand for the least and the greatest number of the range
and the one closest to zero, and converting to a wide enough integer type gives the number.  Missing: `MIN > 0`,
where it fails (`C50_fails`). -/
theorem C50_constants_partial (t : IntTy) (min max : Int) (hs : SoundRange min max) (hb : Backs t min max)
    (hm : min ≤ 0) :
    number t min (RangedInt.minVal t min) = min ∧ number t min (RangedInt.maxVal t max) = max ∧
    (∃ v, RangedInt.default t min max = some v ∧ min ≤ number t min v ∧ number t min v ≤ max ∧
      ∀ n, min ≤ n → n ≤ max → (number t min v).natAbs ≤ n.natAbs) ∧
    (∀ (dest : IntTy) (v : t.Val), dest.lo ≤ number t min v → number t min v ≤ dest.hi →
      dest.toInt (RangedInt.into t dest v) = number t min v ∧ RangedInt.tryInto t dest v = some (RangedInt.into t dest v)) ∧
    (∀ (dest : IntTy) (v : t.Val), ¬ (dest.lo ≤ number t min v ∧ number t min v ≤ dest.hi) →
      RangedInt.tryInto t dest v = none) := by
  unfold SoundRange at hs
  unfold Backs at hb
  rw [if_pos hm] at hb
  have hc : ∀ n, min ≤ n → n ≤ max → number t min (t.cast n) = n := fun n h1 h2 => by
    rw [number, if_pos hm]
    exact toInt_tryFrom (t := t) (if_pos (by omega))
  have hn : ∀ v : t.Val, number t min v = t.toInt v := fun v => if_pos hm
  refine ⟨hc min (by omega) (by omega), hc max (by omega) (by omega), ?_, fun dest v h1 h2 => ?_, fun dest v h => ?_⟩
  · refine ⟨_, if_pos hs.2.1, ?_⟩
    rw [if_neg (Int.not_lt.mpr hm)]
    by_cases h0 : max < 0
    · rw [if_pos h0, hc max (by omega) (by omega)]
      exact ⟨by omega, by omega, fun n h1 h2 => by omega⟩
    · rw [if_neg h0, hc 0 (by omega) (by omega)]
      exact ⟨by omega, by omega, fun n h1 h2 => by omega⟩
  · rw [hn] at h1 h2 ⊢
    exact ⟨toInt_tryFrom (t := dest) (if_pos ⟨h1, h2⟩), if_pos ⟨h1, h2⟩⟩
  · rw [hn] at h
    exact if_neg h

/-- C50 fails for `MIN > 0`: in `RangedInt<u8, 1, 10>` the least value stands for 2, the greatest one and in
`RangedInt<u8, 10, 12>` also the default one for no number of the range (their `to_i32` panics), and the conversion
of the value standing for 1 gives 0. -/
theorem C50_fails (p : Profile) :
    number .u8 1 (RangedInt.minVal .u8 1) = 2 ∧ RangedInt.toI32 p .u8 1 10 (RangedInt.maxVal .u8 10) = none ∧
    (∃ v, RangedInt.default .u8 10 12 = some v ∧ RangedInt.toI32 p .u8 10 12 v = none) ∧
    (∃ v, RangedInt.tryFromI32 p .u8 1 10 1 = some (.ok v) ∧ IntTy.i32.toInt (RangedInt.into .u8 .i32 v) = 0) := by
  cases p <;> exact ⟨by decide, by decide, ⟨_, rfl, by decide⟩, ⟨_, rfl, by decide⟩⟩

/-- C50 for `MIN > 0`, to the letter, where the backer can hold the bounds themselves: the constants are stored as if `MIN` were
not positive, so that `min_val` and `default` stand for twice `MIN` and `max_val` for the number `MIN` above `MAX`, which is not
in the range; converting a value to another integer type gives the number less `MIN`. -/
theorem C50_positive (p : Profile) (t : IntTy) (min max : Int) (hs : SoundRange min max) (hm : 0 < min) (hb : max ≤ t.hi) :
    number t min (RangedInt.minVal t min) = 2 * min ∧ number t min (RangedInt.maxVal t max) = min + max ∧
    RangedInt.toI32 p t min max (RangedInt.maxVal t max) = none ∧
    RangedInt.default t min max = some (RangedInt.minVal t min) ∧
    (RangedInt.toI32 p t min max (RangedInt.minVal t min) = if 2 * min ≤ max then some (2 * min) else none) ∧
    (∀ (dest : IntTy) (v : t.Val), RangedInt.tryInto t dest v =
      if dest.lo ≤ number t min v - min ∧ number t min v - min ≤ dest.hi then some (RangedInt.into t dest v) else none) ∧
    (∀ (dest : IntTy) (v : t.Val), dest.lo ≤ number t min v - min → number t min v - min ≤ dest.hi →
      dest.toInt (RangedInt.into t dest v) = number t min v - min) := by
  have hs' := hs
  unfold SoundRange at hs
  have hlo : t.lo ≤ 0 := by cases t <;> decide
  have hn : ∀ v : t.Val, number t min v = min + t.toInt v := fun v => if_neg (Int.not_le.mpr hm)
  have hc : ∀ n, 0 ≤ n → n ≤ max → t.toInt (t.cast n) = n := fun n h1 h2 => toInt_tryFrom (t := t) (if_pos (by omega))
  have h1 : number t min (RangedInt.minVal t min) = 2 * min := by
    rw [hn, RangedInt.minVal, hc min (by omega) (by omega)]
    omega
  have h2 : number t min (RangedInt.maxVal t max) = min + max := by
    rw [hn, RangedInt.maxVal, hc max (by omega) (by omega)]
  have hnone : ∀ v : t.Val, ¬ (min ≤ number t min v ∧ number t min v ≤ max) → RangedInt.toI32 p t min max v = none := by
    intro v h
    obtain ⟨e, he⟩ := ((C31_underlying t min max v).2 h).1
    unfold RangedInt.tryFromUnderlying at he
    unfold RangedInt.toI32
    split at he
    · cases he
    · rename_i heq; rw [heq]
  have hsub : ∀ v : t.Val, number t min v - min = t.toInt v := fun v => by rw [hn]; omega
  refine ⟨h1, h2, hnone _ (by rw [h2]; omega), ?_, ?_, fun dest v => ?_, fun dest v h3 h4 => ?_⟩
  · rw [RangedInt.default, if_pos hs.2.1, if_pos hm]
    rfl
  · split
    · rename_i h
      rw [C31_to_i32 p t min max hs' _ (by rw [h1]; omega), h1]
    · rename_i h
      exact hnone _ (by rw [h1]; omega)
  · rw [hsub]
    rfl
  · rw [hsub] at h3 h4 ⊢
    exact toInt_tryFrom (t := dest) (if_pos ⟨h3, h4⟩)

example : SoundRange 10 12 ∧ (0 : Int) < 10 ∧ (12 : Int) ≤ IntTy.u8.hi := by unfold SoundRange; decide

/-! ### C32 -/

/-- The value of a double that is not NaN, in units of 2^-1074. -/
inductive FloatValue where
  | negInf
  | finite (n : Int)
  | posInf

def FloatValue.le : FloatValue → FloatValue → Prop
  | .negInf, _ => True
  | _, .posInf => True
  | .finite m, .finite n => m ≤ n
  | _, _ => False

/-- IEEE 754 binary64: sign, 11 bits of exponent, 52 bits of mantissa; `none` is NaN. -/
def floatValue (x : BitVec 64) : Option FloatValue :=
  let negative : Bool := x.toNat / 2 ^ 63 = 1
  let e : Nat := x.toNat / 2 ^ 52 % 2 ^ 11
  let m : Nat := x.toNat % 2 ^ 52
  if e = 2047 then
    if m ≠ 0 then none
    else if negative then some .negInf else some .posInf
  else
    let mag : Int := if e = 0 then m else ((2 ^ 52 + m) * 2 ^ (e - 1) : Nat)
    some (.finite (if negative then - mag else mag))

/-- IEEE `x <= y`: neither is NaN and the values are in order. -/
def FloatLe (x y : BitVec 64) : Prop := ∃ a b, floatValue x = some a ∧ floatValue y = some b ∧ a.le b

/-- The magnitude that belongs to the lower 63 bits. -/
def magnitude (k : Nat) : Nat := if k / 2 ^ 52 = 0 then k else (2 ^ 52 + k % 2 ^ 52) * 2 ^ (k / 2 ^ 52 - 1)

theorem magnitude_lt {a b : Nat} (h : a < b) : magnitude a < magnitude b := by
  have hle : a / 2 ^ 52 ≤ b / 2 ^ 52 := Nat.div_le_div_right (Nat.le_of_lt h)
  by_cases he : a / 2 ^ 52 = b / 2 ^ 52
  · unfold magnitude
    rw [he]
    split
    · exact h
    · exact Nat.mul_lt_mul_of_pos_right (by omega) (Nat.two_pow_pos _)
  · have hlt : a / 2 ^ 52 < b / 2 ^ 52 := by omega
    have h1 : magnitude a < 2 ^ (52 + a / 2 ^ 52) := by
      unfold magnitude
      split
      · rename_i h0
        rw [h0]
        have := Nat.lt_of_div_eq_zero (by decide) h0
        simpa using this
      · rename_i h0
        have : (2 : Nat) ^ (52 + a / 2 ^ 52) = 2 ^ 53 * 2 ^ (a / 2 ^ 52 - 1) := by
          rw [← Nat.pow_add]
          congr 1
          omega
        rw [this]
        exact Nat.mul_lt_mul_of_pos_right (by omega) (Nat.two_pow_pos _)
    have h2 : 2 ^ (52 + a / 2 ^ 52) ≤ magnitude b := by
      unfold magnitude
      rw [if_neg (by omega)]
      calc 2 ^ (52 + a / 2 ^ 52) ≤ 2 ^ (52 + (b / 2 ^ 52 - 1)) := Nat.pow_le_pow_right (by decide) (by omega)
        _ = 2 ^ 52 * 2 ^ (b / 2 ^ 52 - 1) := Nat.pow_add ..
        _ ≤ _ := Nat.mul_le_mul_right _ (by omega)
    omega

theorem magnitude_le_iff {a b : Nat} : magnitude a ≤ magnitude b ↔ a ≤ b := by
  constructor
  · intro h
    by_cases hab : a ≤ b
    · exact hab
    · have := magnitude_lt (Nat.not_le.mp hab); omega
  · intro h
    rcases Nat.lt_or_eq_of_le h with h | h
    · exact Nat.le_of_lt (magnitude_lt h)
    · rw [h]; exact Nat.le_refl _

theorem magnitude_zero : magnitude 0 = 0 := rfl

theorem magnitude_eq_zero {a : Nat} (h : magnitude a = 0) : a = 0 := by
  have := (magnitude_le_iff (a := a) (b := 0)).mp (by rw [h]; exact Nat.zero_le _)
  omega

/-- Doubles by sign and lower 63 bits. -/
theorem floatValue_eq (x : BitVec 64) : floatValue x =
    if x.toNat % 2 ^ 63 > 0x7ff0000000000000 then none
    else if x.toNat % 2 ^ 63 = 0x7ff0000000000000 then some (if x.toNat ≥ 2 ^ 63 then .negInf else .posInf)
    else some (.finite (if x.toNat ≥ 2 ^ 63 then -(magnitude (x.toNat % 2 ^ 63) : Int) else magnitude (x.toNat % 2 ^ 63))) := by
  have hx := x.isLt
  unfold floatValue
  generalize x.toNat = n at hx
  have he : n % 2 ^ 63 / 2 ^ 52 = n / 2 ^ 52 % 2 ^ 11 := by omega
  have hm : n % 2 ^ 63 % 2 ^ 52 = n % 2 ^ 52 := by omega
  by_cases h1 : n / 2 ^ 52 % 2 ^ 11 = 2047
  · by_cases h2 : n % 2 ^ 52 = 0
    · have h3 : ¬ n % 2 ^ 63 > 0x7ff0000000000000 := by omega
      have h4 : n % 2 ^ 63 = 0x7ff0000000000000 := by omega
      by_cases h5 : n ≥ 2 ^ 63
      · have h6 : n / 2 ^ 63 = 1 := by omega
        simp [h1, h2, h4, h5, h6]
      · have h6 : ¬ n / 2 ^ 63 = 1 := by omega
        simp only [h1, h2, h4, h5, h6]
        rfl
    · have h3 : n % 2 ^ 63 > 0x7ff0000000000000 := by omega
      simp only [h1, h2, h3, ne_eq, not_false_eq_true, if_true]
  · have h3 : ¬ n % 2 ^ 63 > 0x7ff0000000000000 := by omega
    have h4 : ¬ n % 2 ^ 63 = 0x7ff0000000000000 := by omega
    have hmag : (if n / 2 ^ 52 % 2 ^ 11 = 0 then ((n % 2 ^ 52 : Nat) : Int)
        else (((2 ^ 52 + n % 2 ^ 52) * 2 ^ (n / 2 ^ 52 % 2 ^ 11 - 1) : Nat) : Int)) = (magnitude (n % 2 ^ 63) : Int) := by
      unfold magnitude
      rw [he, hm]
      split
      · congr 1; omega
      · rfl
    have hs : decide (n / 2 ^ 63 = 1) = decide (n ≥ 2 ^ 63) := decide_eq_decide.mpr (by omega)
    simp only [h1, h3, h4, if_false, hmag, hs, decide_eq_true_eq]

theorem le_iff (x y : BitVec 64) : F64.le x y = true ↔
    ¬ x.toNat % 2 ^ 63 > 0x7ff0000000000000 ∧ ¬ y.toNat % 2 ^ 63 > 0x7ff0000000000000 ∧
      (if x.toNat ≥ 2 ^ 63 then - Int.ofNat (x.toNat % 2 ^ 63) else Int.ofNat (x.toNat % 2 ^ 63)) ≤
      (if y.toNat ≥ 2 ^ 63 then - Int.ofNat (y.toNat % 2 ^ 63) else Int.ofNat (y.toNat % 2 ^ 63)) := by
  have h : F64.le x y = true ↔ F64.isNan x = false ∧ F64.isNan y = false ∧ F64.key x ≤ F64.key y := by
    simp [F64.le, and_assoc]
  rw [h]
  simp only [F64.isNan, decide_eq_false_iff_not]
  exact Iff.rfl

/-- The comparison of the model is the IEEE one. -/
theorem le_iff_floatLe (x y : BitVec 64) : F64.le x y = true ↔ FloatLe x y := by
  have hx := x.isLt
  have hy := y.isLt
  rw [le_iff]
  simp only [FloatLe, floatValue_eq]
  generalize x.toNat = a at hx
  generalize y.toNat = b at hy
  have key : ∀ u v, (∃ a b, some u = some a ∧ some v = some b ∧ FloatValue.le a b) ↔ u.le v := fun u v =>
    ⟨fun ⟨_, _, h1, h2, h⟩ => by cases h1; cases h2; exact h, fun h => ⟨u, v, rfl, rfl, h⟩⟩
  have hab := magnitude_le_iff (a := a % 2 ^ 63) (b := b % 2 ^ 63)
  have hba := magnitude_le_iff (a := b % 2 ^ 63) (b := a % 2 ^ 63)
  have ha0 := magnitude_eq_zero (a := a % 2 ^ 63)
  have hb0 := magnitude_eq_zero (a := b % 2 ^ 63)
  have ha0' : a % 2 ^ 63 = 0 → magnitude (a % 2 ^ 63) = 0 := fun h => by rw [h]; rfl
  have hb0' : b % 2 ^ 63 = 0 → magnitude (b % 2 ^ 63) = 0 := fun h => by rw [h]; rfl
  generalize magnitude (a % 2 ^ 63) = ma at *
  generalize magnitude (b % 2 ^ 63) = mb at *
  by_cases h1 : a % 2 ^ 63 > 0x7ff0000000000000
  · simp [h1]
  by_cases h2 : b % 2 ^ 63 > 0x7ff0000000000000
  · simp [h1, h2]
  simp only [h1, h2, if_false, not_false_eq_true, true_and]
  by_cases h3 : a % 2 ^ 63 = 0x7ff0000000000000 <;> by_cases h4 : b % 2 ^ 63 = 0x7ff0000000000000 <;>
    by_cases h5 : a ≥ 2 ^ 63 <;> by_cases h6 : b ≥ 2 ^ 63 <;>
    simp only [h3, h4, h5, h6, if_true, if_false, key, Int.ofNat_eq_natCast] <;>
    simp only [FloatValue.le, iff_true, iff_false] <;> omega

/-- C32, encoding: that of the double. -/
theorem C32_encode (min max x : BitVec 64) : (Codec.rangedFloat min max).toBytes x = Codec.f64.toBytes x := by
  rw [Writes.toBytes (rangedFloat_writes min max), Writes.toBytes f64_writes]

/-- C32, decoding: a double in range, bit by bit. -/
theorem C32_decode (cfg : Cfg) (min max x : BitVec 64) (b rest : Bytes) (h : FloatLe min x ∧ FloatLe x max)
    (hm : FloatLe min max) (hb : Codec.f64.toBytes x = some b) :
    (Codec.rangedFloat min max).Decodes cfg (b ++ rest) x rest := by
  simp only [← le_iff_floatLe] at h hm
  rw [Writes.toBytes f64_writes] at hb
  exact Parses.decodes (rangedFloat_parses (win := False) min max)
    (RoundTrips.rangedFloat min max x b rest ⟨h.1, h.2, hm⟩ hb trivial)

/-- C32, rejecting a double out of range, and any double if a bound is NaN or the bounds are inverted. -/
theorem C32_reject (cfg : Cfg) (min max x : BitVec 64) (b rest : Bytes)
    (h : ¬ (FloatLe min x ∧ FloatLe x max ∧ FloatLe min max)) (hb : Codec.f64.toBytes x = some b) :
    ∃ e, (Codec.rangedFloat min max).Rejects cfg (b ++ rest) (.external (.floatRangeViolation e)) := by
  simp only [← le_iff_floatLe] at h
  rw [Writes.toBytes f64_writes] at hb
  have h1 := RoundTrips.f64 x b rest trivial hb trivial
  cases hr : restrictFloat x min max with
  | ok y =>
    simp only [restrictFloat] at hr
    split at hr
    · split at hr
      · split at hr
        · exact absurd ⟨by assumption, by assumption, by assumption⟩ h
        · cases hr
      · cases hr
    · cases hr
  | error e =>
    refine ⟨e, Parses.rejects (rangedFloat_parses (win := False) min max) (.inl id) ?_⟩
    simp only [Dec.rangedFloat, D.bind_run, h1, DecRes.bind_ok, hr]
    rfl

theorem floatLe_trans {x y z : BitVec 64} (h1 : FloatLe x y) (h2 : FloatLe y z) : FloatLe x z := by
  rw [← le_iff_floatLe] at h1 h2 ⊢
  simp only [F64.le, Bool.and_eq_true, decide_eq_true_eq] at h1 h2 ⊢
  exact ⟨⟨h1.1.1, h2.1.2⟩, by omega⟩

/-- C32: every eight bytes are accepted iff the double they encode is in range (the bounds are in order then). -/
theorem C32_exact (cfg : Cfg) (min max : BitVec 64) (bs rest : Bytes) (hb : bs.length = 8) :
    ∃ x, Codec.f64.toBytes x = some bs ∧
      (FloatLe min x ∧ FloatLe x max → (Codec.rangedFloat min max).Decodes cfg (bs ++ rest) x rest) ∧
      (¬ (FloatLe min x ∧ FloatLe x max) →
        ∃ e, (Codec.rangedFloat min max).Rejects cfg (bs ++ rest) (.external (.floatRangeViolation e))) := by
  obtain ⟨x, hx, _⟩ := (C10_f64 cfg).2.1 bs rest hb
  exact ⟨x, hx, fun h => C32_decode cfg min max x bs rest h (floatLe_trans h.1 h.2) hx,
    fun h => C32_reject cfg min max x bs rest (fun h' => h ⟨h'.1, h'.2.1⟩) hx⟩

/-- C32, NaN is never accepted. -/
theorem C32_nan (cfg : Cfg) (min max x : BitVec 64) (b rest : Bytes) (h : floatValue x = none)
    (hb : Codec.f64.toBytes x = some b) :
    ∃ e, (Codec.rangedFloat min max).Rejects cfg (b ++ rest) (.external (.floatRangeViolation e)) :=
  C32_reject cfg min max x b rest (fun ⟨_, ⟨_, _, h1, _⟩, _⟩ => by rw [h] at h1; cases h1) hb

/-- C32, the constructors accept the same doubles as the decoder and keep every bit. -/
theorem C32_constructors (min max x : BitVec 64) :
    (FloatLe min x ∧ FloatLe x max → RangedFloat.tryFromF64 min max x = .ok x ∧ RangedFloat.fromF64 min max x = some x ∧
      RangedFloat.getValidated min max x = .ok x) ∧
    (¬ (FloatLe min x ∧ FloatLe x max) → (∃ e, RangedFloat.tryFromF64 min max x = .error e) ∧
      RangedFloat.fromF64 min max x = none ∧ ∃ e, RangedFloat.getValidated min max x = .error e) := by
  refine ⟨fun h => ?_, fun h => ?_⟩
  · have hm := floatLe_trans h.1 h.2
    simp only [← le_iff_floatLe] at h hm
    simp [RangedFloat.tryFromF64, RangedFloat.fromF64, RangedFloat.getValidated, restrictFloat, h.1, h.2, hm]
  · simp only [← le_iff_floatLe] at h
    have h' : ∃ e, restrictFloat x min max = .error e := by
      simp only [restrictFloat]
      split
      · split
        · rename_i h1
          rw [if_neg (fun h2 => h ⟨h1, h2⟩)]
          exact ⟨_, rfl⟩
        · exact ⟨_, rfl⟩
      · exact ⟨_, rfl⟩
    refine ⟨h', ?_, h'⟩
    simp only [RangedFloat.fromF64, Bool.and_eq_true]
    rw [if_neg h]

/-- C32, the default value is in range: zero, if zero is, and else the bound closer to zero; with inverted or NaN bounds there is none (a panic). -/
theorem C32_default (min max : BitVec 64) :
    (FloatLe min max → ∃ x, RangedFloat.default min max = some x ∧ FloatLe min x ∧ FloatLe x max ∧
      (FloatLe min 0 → FloatLe 0 max → x = 0) ∧ (¬ FloatLe min 0 → x = min) ∧ (¬ FloatLe 0 max → x = max)) ∧
    (¬ FloatLe min max → RangedFloat.default min max = none) := by
  simp only [← le_iff_floatLe]
  refine ⟨fun h => ?_, fun h => by simp only [RangedFloat.default, F64.clamp]; rw [if_neg h]⟩
  refine ⟨_, by simp only [RangedFloat.default, F64.clamp]; rw [if_pos h], ?_⟩
  have hz : F64.isNan 0#64 = false := by decide
  have hk : F64.key 0#64 = 0 := by decide
  have hle : ∀ a b, F64.le a b = true ↔ F64.isNan a = false ∧ F64.isNan b = false ∧ F64.key a ≤ F64.key b := by
    intro a b
    simp [F64.le, and_assoc]
  have hlt : ∀ a b, F64.lt a b = true ↔ F64.isNan a = false ∧ F64.isNan b = false ∧ F64.key a < F64.key b := by
    intro a b
    simp [F64.lt, and_assoc]
  obtain ⟨hn1, hn2, h⟩ := (hle _ _).mp h
  simp only [hle, hlt]
  by_cases h1 : 0 < F64.key min
  · have h2 : ¬ F64.key max < F64.key min := by omega
    have h3 : ¬ F64.key min ≤ 0 := by omega
    have h4 : ¬ F64.key max < 0 := by omega
    simp [h1, hn1, hn2, h2, h3, h4, h, hz, hk]
  · by_cases h2 : F64.key max < 0
    · have h3 : ¬ 0 ≤ F64.key max := by omega
      simp [h1, hn1, hn2, h2, h3, h, hz, hk]
    · have h3 : F64.key min ≤ 0 := by omega
      have h4 : 0 ≤ F64.key max := by omega
      simp [h1, hn1, hn2, h2, h3, h4, hz, hk]

example : FloatLe 0xbff0000000000000 0x8000000000000000 ∧ FloatLe 0x8000000000000000 0 ∧ FloatLe 0 0x8000000000000000 ∧
    ¬ FloatLe 0x7ff8000000000000 0x7ff8000000000000 ∧ FloatLe 0x3ff0000000000000 0x7ff0000000000000 := by
  simp only [← le_iff_floatLe]; decide
example (cfg : Cfg) : (Codec.rangedFloat 0 0x3ff0000000000000).Decodes cfg [0x3f, 0xe0, 0, 0, 0, 0, 0, 0, 9]
    0x3fe0000000000000 [9] :=
  C32_decode cfg _ _ _ [0x3f, 0xe0, 0, 0, 0, 0, 0, 0] [9] (by simp only [← le_iff_floatLe]; decide)
    (by simp only [← le_iff_floatLe]; decide) (by decide)

end Verif.Props
