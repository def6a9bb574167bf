import Verif.Codec.Basic
/-
Codecs of primitive types.
-/
namespace Verif

namespace Codec

/-- `()`: src/prim.rs:5-28, `LEN` src/conv/len.rs:94. -/
def unit : Codec Unit where
  write _ _ := W.zero
  parse _ := pure ()
  known := some 0
  unknown _ := 0

/-- `bool`: src/prim.rs:98-111, `LEN` src/conv/len.rs:95. -/
def bool : Codec Bool where
  write T x := W.add (W.push (T.pushOne (match x with | true => 0xff | false => 0x00))) (W.resolveZero T)
  parse P := P.takeBool
  known := some 1
  unknown _ := 1

/-- Machine integers: src/int.rs:546-575. `from_be_bytes` of a signed type is the same bit pattern. -/
def int (t : IntTy) : Codec t.Val where
  write T x := W.add (W.push (T.pushAll (toBe t.len x.toNat))) (W.resolveZero T)
  parse P := (fun bs => BitVec.ofNat _ (ofBe bs)) <$> P.takeFixed t.len
  known := some t.len
  unknown _ := t.len

/-- `f64` as its bit pattern: src/float.rs:323-333. -/
def f64 : Codec (BitVec 64) where
  write T x := (int .u64).write T x
  parse P := (int .u64).parse P
  known := some 8
  unknown _ := 8

end Codec

/-! ### ranged numbers -/

/-- src/error.rs:187-242 `BoundsError::restrict`; the conversions to `Ext` (i64 or i128) are exact. -/
def restrict (val min max : Int) : Except (BoundsError Int) Unit :=
  if min > 0 then
    if val < 0 then .error (.illegalNegative min val)
    else if max < min then .error (.invalidBounds min max)
    else if val > max - min then .error (.overflow (max - min) val)
    else .ok ()
  else if val ≥ min then
    if val ≤ max then .ok ()
    else if min > max then .error (.invalidBounds min max)
    else .error (.overflow max val)
  else if min > max then .error (.invalidBounds min max)
  else .error (.underflow min val)

/-- src/error.rs:246-264 `BoundsError::restrict_float`. -/
def restrictFloat (val min max : BitVec 64) : Except (BoundsError (BitVec 64)) (BitVec 64) :=
  if F64.le min max then
    if F64.le min val then
      if F64.le val max then .ok val else .error (.overflow max val)
    else .error (.underflow min val)
  else .error (.invalidBounds min max)

/-- `?` on a `Result` inside parser code (the error is converted to a `ParseError`). -/
def M.ofExcept {σ ε α : Type} (r : Except ε α) (f : ε → ParseError) : PM σ α :=
  match r with
  | .ok a => pure a
  | .error e => M.throw (f e)

namespace RangedInt

variable (t : IntTy) (min max : Int)

/-- src/int.rs:220-231 `try_from_underlying` (feature `invalid_range_checking` off). -/
def tryFromUnderlying (x : t.Val) : Except (BoundsError Int) t.Val :=
  match restrict (t.toInt x) min max with
  | .ok _ => .ok x
  | .error e => .error e

/-- src/int.rs:322-335 `to_underlying`; `none` is the panic. -/
def toUnderlying (x : t.Val) : Option t.Val :=
  match restrict (t.toInt x) min max with
  | .ok _ => some x
  | .error _ => none

end RangedInt

namespace Codec

/-- `RangedInt<I, MIN, MAX>` as its underlying value: src/int.rs:513-544. -/
def rangedInt (t : IntTy) (min max : Int) : Codec t.Val where
  write T x :=
    match RangedInt.toUnderlying t min max x with
    | some x => W.add ((int t).write T x) (W.resolveZero T)
    | none => W.panic
  parse P := do
    let raw ← (int t).parse P
    M.ofExcept (RangedInt.tryFromUnderlying t min max raw) (fun e => .external (.intRangeViolation e))
  known := some t.len
  unknown _ := t.len

/-- `RangedFloat<MIN, MAX>` as the bit pattern of its value: src/float.rs:335-349. -/
def rangedFloat (min max : BitVec 64) : Codec (BitVec 64) where
  write T x := f64.write T x
  parse P := do
    let raw ← f64.parse P
    M.ofExcept (restrictFloat raw min max) (fun e => .external (.floatRangeViolation e))
  known := some 8
  unknown _ := 8

end Codec

/-! ### byte and character strings -/

/-- `[u8; N]` -/
def ByteArr (n : Nat) : Type := { bs : Bytes // bs.length = n }

instance (n : Nat) : DecidableEq (ByteArr n) := inferInstanceAs (DecidableEq { bs : Bytes // bs.length = n })

namespace Codec

/-- `FixedBytes<N>`: src/fixed.rs:241-274. `take_fixed` yields an array: the impossible other case is a panic
here. -/
def fixedBytes (n : Nat) : Codec (ByteArr n) where
  write T x := W.add (W.push (T.pushMany x.1)) (W.resolveZero T)
  parse P := do
    let bs ← P.takeFixed n
    if h : bs.length = n then pure ⟨bs, h⟩ else M.panic
  known := some n
  unknown _ := n

/-- `FixedString<N>`: src/fixed.rs:418-482 (contents need not be UTF-8). -/
def fixedString (n : Nat) : Codec (ByteArr n) where
  write T x := W.add (W.push (T.pushAll x.1)) (W.resolveZero T)
  parse P := do
    let bs ← P.takeFixed n
    if h : bs.length = n then pure ⟨bs, h⟩ else M.panic
  known := some n
  unknown _ := n

/-- `Vec<u8>`: src/conv/mod.rs:370-395; estimate src/conv/len.rs:195-219 (1 byte per element). -/
def vecU8 : Codec Bytes where
  write T x := W.add (W.push (T.pushAll x)) (W.resolveZero T)
  parse P := do
    let n ← P.remainder
    P.takeDynamic n
  known := none
  unknown x := x.length * 1

/-- `Bytes`: src/schema.rs:541-577. -/
def bytes : Codec Bytes where
  write T x := vecU8.write T x
  parse P := do
    let n ← P.remainder
    P.takeDynamic n
  known := none
  unknown x := x.length

/-- `String` as its list of characters: src/conv/mod.rs:397-409. -/
def string : Codec (List Char) where
  write T x := W.add (W.push (T.pushAll (utf8 x))) (W.resolveZero T)
  parse P := do
    let n ← P.remainder
    let buf ← P.takeDynamic n
    pure (lossy buf)
  known := none
  unknown x := (utf8 x).length * 1

end Codec

/-! ### arbitrary-precision numbers -/

/-- `*last ^= 0x80` on the last byte, then `^= 0x80` on every byte (src/zarith.rs:129-137, 316-325). -/
def toggleTop (ret : Bytes) : Bytes :=
  (ret.modify (ret.length - 1) (· ^^^ 0x80)).map (· ^^^ 0x80)

/-- src/zarith.rs:122-139 `N::serialize`. -/
def serializeN (n : Nat) : Bytes := toggleTop ((toRadix n).map UInt8.ofNat)

/-- src/zarith.rs:114-120 `N::deserialize`; `none` is the panic. -/
def deserializeN (bytes : Bytes) : Option Nat := fromRadix (bytes.map fun b => (b &&& 0x7f).toNat)

/-- src/zarith.rs:294-328 `Z::serialize`. -/
def serializeZ (z : Int) : Bytes :=
  let abs := z.natAbs <<< 1
  let ret := (toRadix abs).map UInt8.ofNat
  let ret := ret.modify 0 (· >>> 1)
  let ret := if z < 0 then ret.modify 0 (· ||| 0x40) else ret
  toggleTop ret

/-- src/zarith.rs:244-268 `Z::deserialize`; `none` is the panic. -/
def deserializeZ (bytes : Bytes) : Option Int :=
  match bytes with
  | [] => none
  | first :: rest =>
    let minus := first &&& 0x40 ≠ 0
    let bot6 := first &&& 0x3f
    match fromRadix (rest.map fun b => (b &&& 0x7f).toNat) with
    | some i =>
      let i := (i <<< 6) ||| bot6.toNat
      some (if minus then -(i : Int) else (i : Int))
    | none => none

/-- `match … { Some(x) => x, None => panic!() }` -/
def M.ofOption {σ α : Type} (o : Option α) : PM σ α :=
  match o with
  | some a => pure a
  | none => M.panic

namespace Codec

/-- `N`: src/zarith.rs:12-29, 104-111. -/
noncomputable def zarithN : Codec Nat where
  write T x := W.add (W.push (T.pushAll (serializeN x))) (W.resolveZero T)
  parse P := do
    let bs ← P.takeSelfTerminating (fun b => b &&& 0x80 = 0)
    M.ofOption (deserializeN bs)
  known := none
  unknown x := divCeil (bits x) 7

/-- `Z`: src/zarith.rs:12-29, 231-241. -/
noncomputable def zarithZ : Codec Int where
  write T x := W.add (W.push (T.pushAll (serializeZ x))) (W.resolveZero T)
  parse P := do
    let bs ← P.takeSelfTerminating (fun b => b &&& 0x80 = 0)
    M.ofOption (deserializeZ bs)
  known := none
  unknown x := let n := bits x.natAbs; if n ≤ 6 then 1 else 1 + divCeil (n - 6) 7

end Codec

end Verif
