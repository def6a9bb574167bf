import Verif.RangedNum
import Verif.Codec.Comb
/-
Conversions between codec types and machine types: `Dynamic::length_prefix`, `N`/`Z` to machine integers, `f32` to
`RangedFloat`.
-/
namespace Verif

namespace LenPref

/-- `S::try_from(usize)` followed by `Into<usize>`: u8/u16 (std), u30 (src/int.rs:456-476, 428-439).  The outer
`none` is a panic, the inner one the error (which `length_prefix` drops). -/
def tryFrom (p : Profile) (S : LenPref) (l : Nat) : Option (Option Nat) :=
  match S with
  | .u8 => some ((IntTy.tryFrom .u8 l).map BitVec.toNat)
  | .u16 => some ((IntTy.tryFrom .u16 l).map BitVec.toNat)
  | .u30 => match RangedInt.tryFromNum p .u32 0 u30Max l with
    | none => none
    | some (.error _) => some none
    | some (.ok v) => some (some (BitVec.toNat v))

end LenPref

/-- src/dynamic.rs:126-145 `Dynamic::length_prefix` (the prefix as a number); `none` is a panic, of `enc_len` or
of the `debug_assert!`. -/
def Codec.lengthPrefix {α : Type} (cfg : Cfg) (S : LenPref) (c : Codec α) (x : α) : Option (Except WidthError Nat) :=
  match c.encLen cfg x with
  | none => none
  | some actual => match S.tryFrom cfg.prof actual with
    | none => none
    | some (some v) => some (.ok v)
    | some none =>
      if cfg.prof = .debug ∧ ¬ actual > S.maxLen then none
      else some (.error (.tooWide S.maxLen actual))

/-- src/zarith.rs:80-97 `TryFrom<N>` for u8, u16, u32, u64 (num-bigint's `TryFrom<BigUint>`). -/
def N.tryInto (t : IntTy) (n : Nat) : Option t.Val := t.tryFrom n

/-- src/zarith.rs:200-219 `TryFrom<Z>` for the signed and unsigned machine integers. -/
def Z.tryInto (t : IntTy) (n : Int) : Option t.Val := t.tryFrom n

/-- `f64::from(f32)` on bit patterns.  The payload of a NaN is not specified by Rust; here it is kept and made
quiet, and nothing below depends on it. -/
def F32.widen (x : BitVec 32) : BitVec 64 :=
  let n := x.toNat
  let s := n / 2 ^ 31
  let e := n / 2 ^ 23 % 2 ^ 8
  let m := n % 2 ^ 23
  let low : Nat :=
    if e = 255 then 2047 * 2 ^ 52 + (if m = 0 then 0 else 2 ^ 51 + m % 2 ^ 22 * 2 ^ 29)
    else if e = 0 then
      if m = 0 then 0 else (m.log2 + 874) * 2 ^ 52 + (m - 2 ^ m.log2) * 2 ^ (52 - m.log2)
    else (e + 896) * 2 ^ 52 + m * 2 ^ 29
  BitVec.ofNat 64 (s * 2 ^ 63 + low)

/-- src/float.rs:259-262 `prevalidate_f32`, 300-309 `TryFrom<f32>`. -/
def RangedFloat.tryFromF32 (min max : BitVec 64) (x : BitVec 32) : Except (BoundsError (BitVec 64)) (BitVec 64) :=
  restrictFloat (F32.widen x) min max

end Verif
