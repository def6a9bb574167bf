import Verif.RangedNum
/-
`RangedInt` with the feature `invalid_range_checking` (src/int.rs), which adds assertions on the bounds to five
functions.  Everything else in src/int.rs is the same with and without the feature.
-/
namespace Verif

namespace RangedInt.Checked

variable (p : Profile) (t : IntTy) (min max : Int)

/-- src/int.rs:161-162 `SANITY`. -/
def sanity : Bool := decide (min ≥ -0x40000000) && decide (max ≤ 0x3fffffff) && decide (min ≤ max)

/-- `assert!(Self::SANITY, ..)` before the rest of a function; `none` is the panic. -/
def asserting {α : Type} (rest : Option α) : Option α := if sanity min max then rest else none

/-- src/int.rs:220-231 `try_from_underlying`. -/
def tryFromUnderlying (x : t.Val) : Option (Except (BoundsError Int) t.Val) :=
  asserting min max (some (RangedInt.tryFromUnderlying t min max x))

/-- src/int.rs:200-202 `from_underlying`. -/
def fromUnderlying (x : t.Val) : Option t.Val := match tryFromUnderlying t min max x with
  | some (.ok x) => some x
  | _ => none

/-- src/int.rs:259-276 `try_from_i32`. -/
def tryFromI32 (x : Int) : Option (Except (BoundsError Int) t.Val) :=
  asserting min max (RangedInt.tryFromI32 p t min max x)

/-- src/int.rs:252-257 `from_i32`. -/
def fromI32 (x : Int) : Option t.Val := match tryFromI32 p t min max x with
  | some (.ok v) => some v
  | _ => none

/-- src/int.rs:322-335 `to_underlying`. -/
def toUnderlying (x : t.Val) : Option t.Val := asserting min max (RangedInt.toUnderlying t min max x)

/-- src/int.rs:350-369 `to_i32`; formatting (src/int.rs:495-511) is that of its result. -/
def toI32 (x : t.Val) : Option Int := asserting min max (RangedInt.toI32 p t min max x)

end RangedInt.Checked

/-- `RangedInt<I, MIN, MAX>` as its underlying value: src/int.rs:513-544. -/
def Codec.checkedRangedInt (t : IntTy) (min max : Int) : Codec t.Val where
  write T x :=
    match RangedInt.Checked.toUnderlying t min max x with
    | some x => W.add ((int t).write T x) (W.resolveZero T)
    | none => W.panic
  parse P := do
    let raw ← (int t).parse P
    match RangedInt.Checked.tryFromUnderlying t min max raw with
    | some r => M.ofExcept r (fun e => .external (.intRangeViolation e))
    | none => M.panic
  known := some t.len
  unknown _ := t.len

end Verif
