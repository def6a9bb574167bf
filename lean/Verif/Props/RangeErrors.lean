import Verif.Convert
import Verif.Props.Ranged
/-
C68: the error with which a number out of range is refused names the bound it violates.
-/
namespace Verif.Props

open Codec

/-- Which error the documentation of `BoundsError::restrict` (src/error.rs:170-186) promises for the number `n` and
`min <= 0`. -/
inductive Blame (min max n : Int) : BoundsError Int → Prop
  | bounds : max < min → Blame min max n (.invalidBounds min max)
  | below : min ≤ max → n < min → Blame min max n (.underflow min n)
  | above : min ≤ max → max < n → Blame min max n (.overflow max n)

/-- Which error it promises for `min > 0`, where `n` is the distance from `min`. -/
inductive BlameOffset (min max n : Int) : BoundsError Int → Prop
  | negative : n < 0 → BlameOffset min max n (.illegalNegative min n)
  | bounds : 0 ≤ n → max < min → BlameOffset min max n (.invalidBounds min max)
  | above : min ≤ max → 0 ≤ n → max - min < n → BlameOffset min max n (.overflow (max - min) n)

/-- The bound violated by a number. -/
def Blames (min max n : Int) (e : BoundsError Int) : Prop :=
  (min ≤ 0 ∧ Blame min max n e) ∨ (0 < min ∧ BlameOffset min max n e)

theorem restrict_blames {min max n : Int} {e : BoundsError Int} : restrict n min max = .error e ↔ Blames min max n e := by
  constructor
  · intro h
    simp only [restrict] at h
    split at h
    · rename_i hm
      refine .inr ⟨hm, ?_⟩
      split at h
      · rename_i h1; cases h; exact .negative h1
      · split at h
        · rename_i h1 h2; cases h; exact .bounds (by omega) h2
        · split at h
          · rename_i h1 h2 h3; cases h; exact .above (by omega) (by omega) (by omega)
          · cases h
    · rename_i hm
      refine .inl ⟨by omega, ?_⟩
      split at h
      · split at h
        · cases h
        · split at h
          · rename_i h1; cases h; exact .bounds h1
          · cases h; exact .above (by omega) (by omega)
      · split at h
        · rename_i h1; cases h; exact .bounds h1
        · cases h; exact .below (by omega) (by omega)
  · rintro (⟨hm, h⟩ | ⟨hm, h⟩)
    · cases h with
      | bounds h =>
        simp only [restrict, if_neg (show ¬ min > 0 by omega), if_pos (show min > max by omega)]
        by_cases h1 : n ≥ min
        · rw [if_pos h1, if_neg (by omega)]
        · rw [if_neg h1]
      | below h1 h2 =>
        simp only [restrict, if_neg (show ¬ min > 0 by omega), if_neg (show ¬ n ≥ min by omega),
          if_neg (show ¬ min > max by omega)]
      | above h1 h2 =>
        simp only [restrict, if_neg (show ¬ min > 0 by omega), if_pos (show n ≥ min by omega),
          if_neg (show ¬ n ≤ max by omega), if_neg (show ¬ min > max by omega)]
    · cases h with
      | negative h => simp only [restrict, if_pos (show min > 0 by omega), if_pos h]
      | bounds h1 h2 => simp only [restrict, if_pos (show min > 0 by omega), if_neg (show ¬ n < 0 by omega), if_pos h2]
      | above h1 h2 h3 =>
        simp only [restrict, if_pos (show min > 0 by omega), if_neg (show ¬ n < 0 by omega),
          if_neg (show ¬ max < min by omega), if_pos (show n > max - min by omega)]

/-- C68, ranged integers, the value of the backer: decoding and `try_from_underlying` refuse it with the bound it
violates, and with nothing else. -/
theorem C68_underlying (cfg : Cfg) (t : IntTy) (min max : Int) (x : t.Val) (e : BoundsError Int) :
    (RangedInt.tryFromUnderlying t min max x = .error e ↔ Blames min max (t.toInt x) e) ∧
    (Blames min max (t.toInt x) e → ∀ b rest, (Codec.int t).toBytes x = some b →
      (Codec.rangedInt t min max).Rejects cfg (b ++ rest) (.external (.intRangeViolation e))) := by
  constructor
  · rw [← restrict_blames]
    simp only [RangedInt.tryFromUnderlying]
    cases restrict (t.toInt x) min max <;> simp
  · intro h b rest hb
    rw [Writes.toBytes (int_writes t)] at hb
    have h1 := RoundTrips.int t x b rest trivial hb trivial
    refine Parses.rejects (rangedInt_parses (win := False) t min max) (.inl id) ?_
    simp only [Dec.rangedInt, D.bind_run, h1, DecRes.bind_ok, restrict_blames.mpr h]
    rfl

/-- C68, ranged integers, numbers: `try_from_i32` and `TryFrom` refuse a number with the bound it violates.  (For `MIN > 0`
the bound is that of the distance from `MIN`, which `TryFrom` confuses with the number, see `C31_try_from_fails`.) -/
theorem C68_number (p : Profile) (t : IntTy) (min max n : Int) (e : BoundsError Int) :
    (min ≤ 0 → Blames min max n e → RangedInt.tryFromI32 p t min max n = some (.error e)) ∧
    (0 < min → -2 ^ 31 ≤ n - min → n ≤ 2 ^ 31 - 1 → Blames min max (n - min) e →
      RangedInt.tryFromI32 p t min max n = some (.error e)) ∧
    (RangedInt.tryFromNum p t min max n = some (.error e) ↔ Blames min max n e) := by
  refine ⟨fun hm h => ?_, fun hm h1 h2 h => ?_, ?_⟩
  · simp only [RangedInt.tryFromI32, if_pos hm, restrict_blames.mpr h]
  · have : wrapI32 p (n - min) = some (n - min) := by
      simp only [wrapI32]
      rw [if_pos (by omega)]
    simp only [RangedInt.tryFromI32, if_neg (show ¬ min ≤ 0 by omega), this, restrict_blames.mpr h]
  · rw [← restrict_blames]
    simp only [RangedInt.tryFromNum]
    cases restrict n min max with
    | error e => simp
    | ok =>
      simp only
      cases RangedInt.fromNumericUnchecked p t min n <;> simp

/-- C68: a number is refused exactly if there is a violated bound, and that is unique. -/
theorem C68_unique (min max n : Int) {e e' : BoundsError Int} (h : Blames min max n e) (h' : Blames min max n e') :
    e = e' := by
  rw [← restrict_blames] at h h'
  rw [h] at h'
  cases h'
  rfl

/-- The order of two doubles, neither of which is NaN. -/
def FloatLt (x y : BitVec 64) : Prop := FloatLe x y ∧ ¬ FloatLe y x

/-- C68, ranged floats: a double that is refused is below the lower bound, above the upper bound or NaN (then it is
said to be below), unless the bounds are inverted or NaN; the error tells which, with the bound and the double. -/
theorem C68_float (cfg : Cfg) (min max x : BitVec 64) :
    (¬ FloatLe min max → RangedFloat.tryFromF64 min max x = .error (.invalidBounds min max)) ∧
    (FloatLe min max → FloatLt x min → RangedFloat.tryFromF64 min max x = .error (.underflow min x)) ∧
    (FloatLe min max → FloatLt max x → RangedFloat.tryFromF64 min max x = .error (.overflow max x)) ∧
    (FloatLe min max → floatValue x = none → RangedFloat.tryFromF64 min max x = .error (.underflow min x)) ∧
    (¬ (FloatLe min x ∧ FloatLe x max) → ¬ FloatLe min max ∨ FloatLt x min ∨ FloatLt max x ∨ floatValue x = none) ∧
    (∀ e, RangedFloat.tryFromF64 min max x = .error e → RangedFloat.getValidated min max x = .error e ∧
      ∀ b rest, Codec.f64.toBytes x = some b →
        (Codec.rangedFloat min max).Rejects cfg (b ++ rest) (.external (.floatRangeViolation e))) ∧
    (∀ y e, F32.widen y = x → RangedFloat.tryFromF64 min max x = .error e →
      RangedFloat.tryFromF32 min max y = .error e) := by
  have hval : floatValue x = none ↔ F64.isNan x = true := by
    rw [floatValue_eq]
    simp only [F64.isNan, decide_eq_true_eq]
    constructor
    · intro h
      by_cases hn : x.toNat % 2 ^ 63 > 0x7ff0000000000000
      · exact hn
      · rw [if_neg hn] at h
        repeat' split at h
        all_goals cases h
    · intro h
      rw [if_pos h]
  have hle : ∀ a b, F64.le a b = true ↔ F64.isNan a = false ∧ F64.isNan b = false ∧ F64.key a ≤ F64.key b := by
    intro a b
    simp [F64.le, and_assoc]
  simp only [FloatLt, ← le_iff_floatLe, RangedFloat.tryFromF64, hval]
  refine ⟨fun h => ?_, fun h h1 => ?_, fun h h1 => ?_, fun h h1 => ?_, fun h => ?_, fun e h => ⟨h, fun b rest hb => ?_⟩,
    fun y e hy h => ?_⟩
  · simp only [restrictFloat, if_neg h]
  · simp only [restrictFloat, if_pos h, if_neg h1.2]
  · have h2 : F64.le min x = true := by
      rw [hle] at h h1 ⊢
      exact ⟨h.1, h1.1.2.1, Int.le_trans h.2.2 h1.1.2.2⟩
    simp only [restrictFloat, if_pos h, if_pos h2, if_neg h1.2]
  · have h2 : ¬ F64.le min x = true := by rw [hle]; simp [h1]
    simp only [restrictFloat, if_pos h, if_neg h2]
  · by_cases hm : F64.le min max = true
    · right
      cases hn : F64.isNan x with
      | true => exact .inr (.inr rfl)
      | false =>
        simp only [hle, hn] at h hm ⊢
        simp only [hm.1, hm.2.1, true_and, Bool.false_eq_true, or_false] at h ⊢
        omega
    · exact .inl hm
  · rw [Writes.toBytes f64_writes] at hb
    have h1 := RoundTrips.f64 x b rest trivial hb trivial
    refine Parses.rejects (rangedFloat_parses (win := False) min max) (.inl id) ?_
    simp only [Dec.rangedFloat, D.bind_run, h1, DecRes.bind_ok, h]
    rfl
  · subst hy
    exact h

/-- The hypotheses are met: 7 is above -3..5, 2 is five below 7..9. -/
example (cfg : Cfg) : (Codec.rangedInt .i8 (-3) 5).Rejects cfg [7, 1] (.external (.intRangeViolation (.overflow 5 7))) ∧
    RangedInt.tryFromI32 .debug .u8 7 9 2 = some (.error (.illegalNegative 7 (-5))) :=
  ⟨(C68_underlying cfg .i8 (-3) 5 (7 : BitVec 8) _).2 (.inl ⟨by decide, .above (by decide) (by decide)⟩) [7] [1] (by decide),
    (C68_number .debug .u8 7 9 2 _).2.1 (by decide) (by decide) (by decide) (.inr ⟨by decide, .negative (by decide)⟩)⟩

example : FloatLe 0 0x3ff0000000000000 ∧ FloatLt 0x3ff0000000000000 0x4000000000000000 := by
  simp only [FloatLt, ← le_iff_floatLe]; decide

end Verif.Props
