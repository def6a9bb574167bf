import Verif.Codec.Prim
/-
Constructors and conversions of `RangedInt` (src/int.rs) and `RangedFloat` (src/float.rs).  A ranged integer is its
underlying value, a ranged float the bit pattern of its value.  The feature `invalid_range_checking` is off here
(with it: `RangeCheck`).
`none` is a panic.
-/
namespace Verif

/-- `i32` arithmetic on numbers: overflow panics in debug builds and wraps in release builds. -/
def wrapI32 (p : Profile) (n : Int) : Option Int :=
  if -2 ^ 31 ≤ n ∧ n ≤ 2 ^ 31 - 1 then some n
  else match p with
    | .debug => none
    | .release => some (Int.bmod n (2 ^ 32))

namespace RangedInt

variable (p : Profile) (t : IntTy) (min max : Int)

/-- src/int.rs:200-202 `from_underlying`. -/
def fromUnderlying (x : t.Val) : Option t.Val := match tryFromUnderlying t min max x with
  | .ok x => some x
  | .error _ => none

/-- src/int.rs:235-250 `from_numeric_unchecked` on the number `n`. -/
def fromNumericUnchecked (n : Int) : Option t.Val :=
  if min ≤ 0 then t.tryFrom n
  else match IntTy.i32.tryFrom n with
    | none => none
    | some _ => match wrapI32 p (n - min) with
      | none => none
      | some d => t.tryFrom d

/-- src/int.rs:259-276 `try_from_i32`. -/
def tryFromI32 (x : Int) : Option (Except (BoundsError Int) t.Val) :=
  match if min ≤ 0 then some x else wrapI32 p (x - min) with
  | none => none
  | some u => match restrict u min max with
    | .error e => some (.error e)
    | .ok _ => match t.tryFrom u with
      | some v => some (.ok v)
      | none => some (.error .failed)

/-- src/int.rs:252-257 `from_i32`. -/
def fromI32 (x : Int) : Option t.Val := match tryFromI32 p t min max x with
  | some (.ok v) => some v
  | _ => none

/-- src/int.rs:350-369 `to_i32`. -/
def toI32 (x : t.Val) : Option Int :=
  match restrict (t.toInt x) min max with
  | .error _ => none
  | .ok _ =>
    let y := IntTy.i32.toInt (IntTy.i32.cast (t.toInt x))
    if min ≤ 0 then some y else wrapI32 p (y + min)

/-- src/int.rs:375-386 `default`: `(0 as i32).clamp(MIN, MAX) as $t`; `clamp` asserts `MIN <= MAX`. -/
def default : Option t.Val :=
  if min ≤ max then some (t.cast (if 0 < min then min else if max < 0 then max else 0)) else none

/-- src/int.rs:395-414 `MIN`, `min_val`. -/
def minVal : t.Val := t.cast min

/-- src/int.rs:399-420 `MAX`, `max_val`. -/
def maxVal : t.Val := t.cast max

/-- src/int.rs:428-439 `From<RangedInt<$backer, MIN, MAX>> for $dest`. -/
def into (dest : IntTy) (x : t.Val) : dest.Val := dest.cast (t.toInt x)

/-- src/int.rs:441-454 `TryFrom<RangedInt<$backer, MIN, MAX>> for $dest`; `none` is the error. -/
def tryInto (dest : IntTy) (x : t.Val) : Option dest.Val := dest.tryFrom (t.toInt x)

/-- src/int.rs:456-476 `TryFrom<$src> for RangedInt<$backer, MIN, MAX>` on the number `n`. -/
def tryFromNum (n : Int) : Option (Except (BoundsError Int) t.Val) :=
  match restrict n min max with
  | .error e => some (.error e)
  | .ok _ => match fromNumericUnchecked p t min n with
    | some v => some (.ok v)
    | none => none

end RangedInt

namespace F64

/-- `x < y`. -/
def lt (x y : BitVec 64) : Bool := !isNan x && !isNan y && decide (key x < key y)

/-- `f64::clamp`: `assert!(min <= max)`, then the two comparisons. -/
def clamp (x min max : BitVec 64) : Option (BitVec 64) :=
  if le min max then
    let x := if lt x min then min else x
    some (if lt max x then max else x)
  else none

end F64

namespace RangedFloat

variable (min max : BitVec 64)

/-- src/float.rs:146-149 `default`. -/
def default : Option (BitVec 64) := F64.clamp 0 min max

/-- src/float.rs:193-197 `try_from_f64` (also 312-321 `TryFrom<f64>` and 245-247 `prevalidate_f64`). -/
def tryFromF64 (x : BitVec 64) : Except (BoundsError (BitVec 64)) (BitVec 64) := restrictFloat x min max

/-- src/float.rs:216-222 `from_f64`. -/
def fromF64 (x : BitVec 64) : Option (BitVec 64) := if F64.le min x && F64.le x max then some x else none

/-- src/float.rs:289-291 `get_validated`. -/
def getValidated (x : BitVec 64) : Except (BoundsError (BitVec 64)) (BitVec 64) := restrictFloat x min max

end RangedFloat

end Verif
