import Verif.RangeCheck
import Verif.Props.Ranged
/-
C63: the feature `invalid_range_checking`.
-/
namespace Verif.Props

open Codec

open RangedInt in
theorem sanity_iff (min max : Int) : Checked.sanity min max = true ↔ SoundRange min max := by
  simp only [Checked.sanity, SoundRange, Bool.and_eq_true, decide_eq_true_iff]
  omega

/-- C63: for ranges that the documentation allows the feature changes nothing. -/
theorem C63_sound (p : Profile) (t : IntTy) (min max : Int) (hs : SoundRange min max) :
    (∀ x, RangedInt.Checked.tryFromUnderlying t min max x = some (RangedInt.tryFromUnderlying t min max x)) ∧
    (∀ x, RangedInt.Checked.fromUnderlying t min max x = RangedInt.fromUnderlying t min max x) ∧
    (∀ n, RangedInt.Checked.tryFromI32 p t min max n = RangedInt.tryFromI32 p t min max n) ∧
    (∀ n, RangedInt.Checked.fromI32 p t min max n = RangedInt.fromI32 p t min max n) ∧
    (∀ x, RangedInt.Checked.toUnderlying t min max x = RangedInt.toUnderlying t min max x) ∧
    (∀ x, RangedInt.Checked.toI32 p t min max x = RangedInt.toI32 p t min max x) ∧
    Codec.checkedRangedInt t min max = Codec.rangedInt t min max := by
  have h := (sanity_iff min max).mpr hs
  have a : ∀ {α : Type} (r : Option α), RangedInt.Checked.asserting min max r = r := fun r => if_pos h
  refine ⟨fun x => a _, fun x => ?_, fun n => a _, fun n => ?_, fun x => a _, fun x => a _, ?_⟩
  · simp only [RangedInt.Checked.fromUnderlying, RangedInt.fromUnderlying, RangedInt.Checked.tryFromUnderlying, a]
    cases RangedInt.tryFromUnderlying t min max x <;> rfl
  · simp only [RangedInt.Checked.fromI32, RangedInt.fromI32, RangedInt.Checked.tryFromI32, a]
    rfl
  · simp only [Codec.checkedRangedInt, Codec.rangedInt, RangedInt.Checked.toUnderlying, RangedInt.Checked.tryFromUnderlying, a]
    rfl

/-- C63: for other ranges the checked functions panic on every argument, and nothing can be encoded. -/
theorem C63_unsound (p : Profile) (t : IntTy) (min max : Int) (hs : ¬ SoundRange min max) :
    (∀ x, RangedInt.Checked.tryFromUnderlying t min max x = none ∧ RangedInt.Checked.fromUnderlying t min max x = none ∧
      RangedInt.Checked.toUnderlying t min max x = none ∧ RangedInt.Checked.toI32 p t min max x = none ∧
      (∀ (τ : Type) (T : TargetOps τ) (w : τ), (Codec.checkedRangedInt t min max).write T x w = none) ∧
      (Codec.checkedRangedInt t min max).toBytes x = none) ∧
    (∀ n, RangedInt.Checked.tryFromI32 p t min max n = none ∧ RangedInt.Checked.fromI32 p t min max n = none) := by
  have h : RangedInt.Checked.sanity min max = false := by
    rw [← Bool.not_eq_true, sanity_iff]; exact hs
  have a : ∀ {α : Type} (r : Option α), RangedInt.Checked.asserting min max r = none := fun r => if_neg (by rw [h]; nofun)
  refine ⟨fun x => ⟨a _, ?_, a _, a _, fun τ T w => ?_, ?_⟩, fun n => ⟨a _, ?_⟩⟩
  · simp only [RangedInt.Checked.fromUnderlying, RangedInt.Checked.tryFromUnderlying, a]
  · simp only [Codec.checkedRangedInt, RangedInt.Checked.toUnderlying, a, W.panic]
  · simp only [Codec.toBytes, Codec.writeToVec, Codec.checkedRangedInt, RangedInt.Checked.toUnderlying, a, W.panic]
  · simp only [RangedInt.Checked.fromI32, RangedInt.Checked.tryFromI32, a]

/-- C63: decoding with such a range panics as soon as the bytes of the backer are there; fewer bytes are an error as
usual. -/
theorem C63_unsound_decode (cfg : Cfg) (t : IntTy) (min max : Int) (hs : ¬ SoundRange min max) :
    (∀ v : Bytes, t.len ≤ v.length → (Codec.checkedRangedInt t min max).Panics cfg v) ∧
    (∀ v : Bytes, v.length < t.len → (Codec.checkedRangedInt t min max).Rejects cfg v (D.shortErr t.len v.length)) := by
  refine ⟨fun v hv k vs s h => ?_, fun v hv k vs s h => ?_⟩
  · obtain ⟨x, _, hd⟩ := C10_int_decode cfg t (v.take t.len) (v.drop t.len) (by simp; omega)
    rw [List.take_append_drop] at hd
    obtain ⟨s', h1, _⟩ := hd k vs s h
    simp only [Codec.checkedRangedInt, M.bind_run, h1, Out.bind_ok, ((C63_unsound cfg.prof t min max hs).1 x).1]
    rfl
  · obtain ⟨e, s', h1, h2⟩ := C10_int_short cfg t v hv k vs s h
    exact ⟨e, s', by simp only [Codec.checkedRangedInt, M.bind_run, h1, Out.bind_err], h2⟩

/-- C63: with the feature, whatever `to_i32` returns is in the range of the type and a native integer of 31 bits. -/
theorem C63_to_i32 (p : Profile) (t : IntTy) (min max : Int) (x : t.Val) (n : Int)
    (h : RangedInt.Checked.toI32 p t min max x = some n) :
    n = number t min x ∧ min ≤ n ∧ n ≤ max ∧ -2 ^ 30 ≤ n ∧ n ≤ 2 ^ 30 - 1 := by
  by_cases hs : SoundRange min max
  · rw [(C63_sound p t min max hs).2.2.2.2.2.1] at h
    by_cases hr : min ≤ number t min x ∧ number t min x ≤ max
    · rw [C31_to_i32 p t min max hs x hr] at h
      cases h
      obtain ⟨h1, h2, h3⟩ := hs
      exact ⟨rfl, hr.1, hr.2, by omega, by omega⟩
    · have := mt (fun h => (inRange_iff t x).mp (restrict_ok_iff.mp h)) hr
      simp only [RangedInt.toI32] at h
      split at h
      · cases h
      · rename_i hr' ; exact absurd hr' this
  · rw [((C63_unsound p t min max hs).1 x).2.2.2.1] at h
    cases h

/-- C63: without the feature the functions documented to check the range do not: `from_underlying`, `to_underlying` and
`to_i32` accept values of types that the documentation does not allow, which are encoded and decoded. -/
theorem C63_fails (p : Profile) : ¬ SoundRange 0 (2 ^ 31 - 1) ∧
    RangedInt.fromUnderlying .i32 0 (2 ^ 31 - 1) 0x40000000 = some 0x40000000 ∧
    RangedInt.toUnderlying .i32 0 (2 ^ 31 - 1) 0x40000000 = some 0x40000000 ∧
    RangedInt.toI32 p .i32 0 (2 ^ 31 - 1) 0x40000000 = some (2 ^ 30) ∧
    (Codec.rangedInt .i32 0 (2 ^ 31 - 1)).toBytes 0x40000000 = some [0x40, 0, 0, 0] := by
  refine ⟨by unfold SoundRange; omega, by decide, by decide, by cases p <;> decide, by decide⟩

/-- C63: even with the feature, values of such types can be made: `default`, `min_val` and `max_val` check nothing, and
encoding what they return panics. -/
theorem C63_latent (t : IntTy) (min max : Int) (hs : ¬ SoundRange min max) (h : min ≤ max) :
    (∃ x, RangedInt.default t min max = some x ∧ (Codec.checkedRangedInt t min max).toBytes x = none) ∧
    (Codec.checkedRangedInt t min max).toBytes (RangedInt.minVal t min) = none ∧
    (Codec.checkedRangedInt t min max).toBytes (RangedInt.maxVal t max) = none := by
  have a := fun x => ((C63_unsound .debug t min max hs).1 x).2.2.2.2.2
  exact ⟨⟨_, if_pos h, a _⟩, a _, a _⟩

/-- `u30` and `i31` are allowed, and so is a range above zero. -/
example : SoundRange 0 0x3fffffff ∧ SoundRange (-0x40000000) 0x3fffffff ∧ SoundRange 1023 1025 := by
  unfold SoundRange; omega
example : RangedInt.Checked.toI32 .debug .u8 1023 1025 2 = some 1025 := by decide
example : ¬ SoundRange 5 4 ∧ ¬ SoundRange 0 (2 ^ 30) ∧ ¬ SoundRange (-2 ^ 30 - 1) 0 := by unfold SoundRange; omega

end Verif.Props
