import Verif.Schema
/-
`write_to`, `unknown`, `estimate` and `enc_len` with counts of type `usize`, as the code has them: additions panic in debug
builds and wrap around in release builds.  (Everywhere else counts are unbounded.)  The constants `KNOWN` are computed at
compile time and are unbounded here; so are the counts that single `push_*` calls report.
-/
namespace Verif

namespace W

variable {τ : Type} (p : Profile)

/-- `a + b` on `usize`, evaluated left to right. -/
def addU (a b : W τ) : W τ := fun t =>
  match a t with
  | none => none
  | some (n, t) =>
    match b t with
    | none => none
    | some (m, t) => match uadd p n m with
      | none => none
      | some k => some (k, t)

/-- `a + b + …`, which adds from the left. -/
def leftU (acc : W τ) : List (W τ) → W τ
  | [] => acc
  | w :: ws => leftU (addU p acc w) ws

/-- `#( … + )* z` as `write_all_to!` (src/conv/mod.rs:40-46) and encode_derive/src/lib.rs:22-60 have it. -/
def allU : List (W τ) → W τ → W τ
  | [], z => z
  | w :: ws, z => leftU p w (ws ++ [z])

end W

/-- `a + b` of two computations of a `usize`. -/
def addN (p : Profile) (a b : Option Nat) : Option Nat :=
  match a, b with
  | some n, some m => uadd p n m
  | _, _ => none

/-- `a + b + …` -/
def leftN (p : Profile) (acc : Option Nat) : List (Option Nat) → Option Nat
  | [] => acc
  | x :: xs => leftN p (addN p acc x) xs

/-- `#( … )+*` (estimable_derive/src/lib.rs:111-166), and `0` for no terms. -/
def sumN (p : Profile) : List (Option Nat) → Option Nat
  | [] => some 0
  | x :: xs => leftN p x xs

/-- The traits `Encode` and `Estimable` for a type, with counts of type `usize`; `none` is a panic. -/
structure Machine (α : Type) : Type 1 where
  write : {τ : Type} → TargetOps τ → α → W τ
  known : Option Nat
  unknown : α → Option Nat

namespace Machine

variable {α : Type}

/-- src/conv/len.rs:160-162 `Estimable::estimate`. -/
def estimate (c : Machine α) (x : α) : Option Nat := match c.known with
  | some n => some n
  | none => c.unknown x

/-- src/conv/mod.rs:159-161, 178-192 `EncodeLength::enc_len`. -/
def encLen (cfg : Cfg) (c : Machine α) (x : α) : Option Nat :=
  if cfg.encLenOverride then c.estimate x
  else match c.write sinkTarget x sinkTarget.create with
    | some (n, _) => some n
    | none => none

/-- src/conv/mod.rs:88-90, 121-125 `Encode::to_bytes`. -/
def toBytes (c : Machine α) (x : α) : Option Bytes :=
  match c.write vecTarget x [] with
  | some (_, t) => some t
  | none => none

variable (p : Profile)

/-- `()`: src/prim.rs:5-28. -/
def unit : Machine Unit where
  write _ _ := W.zero
  known := some 0
  unknown _ := some 0

/-- `bool`: src/prim.rs:98-111. -/
def bool : Machine Bool where
  write T x := W.addU p (W.push (T.pushOne (match x with | true => 0xff | false => 0x00))) (W.resolveZero T)
  known := some 1
  unknown _ := some 1

/-- Machine integers: src/int.rs:546-575. -/
def int (t : IntTy) : Machine t.Val where
  write T x := W.addU p (W.push (T.pushAll (toBe t.len x.toNat))) (W.resolveZero T)
  known := some t.len
  unknown _ := some t.len

/-- `f64`: src/float.rs:323-333. -/
def f64 : Machine (BitVec 64) where
  write T x := (int p .u64).write T x
  known := some 8
  unknown _ := some 8

/-- `RangedInt<I, MIN, MAX>`: src/int.rs:513-544. -/
def rangedInt (t : IntTy) (min max : Int) : Machine t.Val where
  write T x :=
    match RangedInt.toUnderlying t min max x with
    | some x => W.addU p ((int p t).write T x) (W.resolveZero T)
    | none => W.panic
  known := some t.len
  unknown _ := some t.len

/-- `FixedBytes<N>`: src/fixed.rs:241-274. -/
def fixedBytes (n : Nat) : Machine (ByteArr n) where
  write T x := W.addU p (W.push (T.pushMany x.1)) (W.resolveZero T)
  known := some n
  unknown _ := some n

/-- `FixedString<N>`: src/fixed.rs:412-440. -/
def fixedString (n : Nat) : Machine (ByteArr n) where
  write T x := W.addU p (W.push (T.pushAll x.1)) (W.resolveZero T)
  known := some n
  unknown _ := some n

/-- `Vec<u8>`: src/conv/mod.rs:370-395, src/conv/len.rs:195-219. -/
def vecU8 : Machine Bytes where
  write T x := W.addU p (W.push (T.pushAll x)) (W.resolveZero T)
  known := none
  unknown x := some (x.length * 1)

/-- `Bytes`: src/schema.rs. -/
def bytes : Machine Bytes where
  write T x := (vecU8 p).write T x
  known := none
  unknown x := some x.length

/-- `String`: src/conv/mod.rs:397-409, src/conv/len.rs:195-219. -/
def string : Machine (List Char) where
  write T x := W.addU p (W.push (T.pushAll (utf8 x))) (W.resolveZero T)
  known := none
  unknown x := some ((utf8 x).length * 1)

/-- `N`: src/zarith.rs:14-19 and 104-111; `bits() as usize` keeps what fits into a `usize`. -/
def zarithN : Machine Nat where
  write T x := W.addU p (W.push (T.pushAll (serializeN x))) (W.resolveZero T)
  known := none
  unknown x := some (divCeil (bits x % usizeMod) 7)

/-- `Z`: src/zarith.rs:14-19 and 231-241; likewise. -/
def zarithZ : Machine Int where
  write T x := W.addU p (W.push (T.pushAll (serializeZ x))) (W.resolveZero T)
  known := none
  unknown x := let n := bits x.natAbs % usizeMod; if n ≤ 6 then some 1 else uadd p 1 (divCeil (n - 6) 7)

/-- `Option<T>`: src/conv/mod.rs:411-428, src/conv/len.rs:176-193. -/
def option (c : Machine α) : Machine (Option α) where
  write T x :=
    W.addU p
      (match x with
        | some val => W.addU p (W.push (T.pushOne 0xff)) (c.write T val)
        | none => W.push (T.pushOne 0x00))
      (W.resolveZero T)
  known := match c.known with
    | some 0 => some 1
    | _ => none
  unknown x := match x with
    | none => some 1
    | some x => addN p (some 1) (c.estimate x)

/-- `Nullable<T>`: src/schema.rs:313-349. -/
def nullable (c : Machine α) : Machine (Option α) where
  write T x := match x with
    | some x => W.addU p (c.write T x) (W.resolveZero T)
    | none => W.resolveZero T
  known := match c.known with
    | some 0 => some 0
    | _ => none
  unknown x := match x with
    | some x => c.estimate x
    | none => some 0

/-- The `write_to` of a length prefix, as `LenPref.write`. -/
def prefixWrite (S : LenPref) {τ : Type} (T : TargetOps τ) (l : Nat) : W τ :=
  match S with
  | .u8 => match IntTy.tryFrom .u8 l with
    | some x => (int p .u8).write T x
    | none => W.panic
  | .u16 => match IntTy.tryFrom .u16 l with
    | some x => (int p .u16).write T x
    | none => W.panic
  | .u30 =>
    match restrict l 0 LenPref.u30Max with
    | .ok _ => match IntTy.tryFrom .u32 l with
      | some x => (rangedInt p .u32 0 LenPref.u30Max).write T x
      | none => W.panic
    | .error _ => W.panic

/-- `Dynamic<S, T>`: src/dynamic.rs:202-216, 359-397. -/
def dynamic (cfg : Cfg) (S : LenPref) (c : Machine α) : Machine α where
  write T x :=
    match c.encLen cfg x with
    | none => W.panic
    | some l =>
      if l ≤ S.maxLen then fun t => match uadd p l S.len with
        | none => none
        | some k => W.allU p [prefixWrite p S T l, c.write T x] (W.resolveZero T) (T.anticipate k t)
      else W.panic
  known := match c.known with
    | some n => some (S.len + n)
    | none => none
  unknown x := addN p (some S.len) (c.unknown x)

/-- `VPadded<T, N>`: src/dynamic.rs:457-490. -/
def vpadded (c : Machine α) : Machine α where
  write T x := c.write T x
  known := c.known
  unknown x := c.unknown x

/-- `Padded<T, N>`: src/schema.rs:181-232. -/
def padded (n : Nat) (c : Machine α) : Machine α where
  write T x := W.addU p (W.addU p (c.write T x) (W.push (T.pushMany (List.replicate n 0)))) (W.resolveZero T)
  known := match c.known with
    | some m => some (m + n)
    | none => none
  unknown x := addN p (c.unknown x) (some n)

/-- `iter().map(|x| x.write_to(buf)).sum()`, which starts with 0. -/
def writeList (c : Machine α) {τ : Type} (T : TargetOps τ) (xs : List α) : W τ :=
  W.leftU p W.zero (xs.map fun x => c.write T x)

/-- `Sequence<T>`: src/seq/mod.rs:213-237; `LimSeq<T, N>`: src/seq/lim.rs:279-308. -/
def seq (c : Machine α) : Machine (List α) where
  write T xs := W.addU p (writeList p c T xs) (W.resolveZero T)
  known := none
  unknown xs := leftN p (some 0) (xs.map c.estimate)

/-- `FixSeq<T, N>`: src/seq/fix.rs:256-297. -/
def fixSeq (n : Nat) (c : Machine α) : Machine (List α) where
  write T xs := W.addU p (writeList p c T xs) (W.resolveZero T)
  known := match c.known with
    | some m => some (n * m)
    | none => none
  unknown xs := leftN p (some 0) (xs.map c.unknown)

/-- As `Codec.hole`. -/
def hole : Machine Empty where
  write _ x := nomatch x
  known := none
  unknown x := nomatch x

/-- `write_to` of a tag, as `TagWidth.write`. -/
def tagWrite (w : TagWidth) {τ : Type} (T : TargetOps τ) (tag : Nat) : W τ :=
  W.addU p (W.push (T.pushAll (toBe w.len tag))) (W.resolveZero T)

/-- `cstyle!`: src/adt.rs:85-117. -/
def cstyle (w : TagWidth) (tags : List Nat) : Machine (CEnum tags) where
  write T x := tagWrite p w T x.1
  known := some w.len
  unknown _ := some w.len

end Machine

/-- The arms of a `data!` enum: src/adt.rs:355-378. -/
structure VMachine (β : Type) : Type 1 where
  write : (w : TagWidth) → {τ : Type} → TargetOps τ → β → W τ
  unknown : TagWidth → β → Option Nat

/-- The fields of a record with derived traits: encode_derive/src/lib.rs:22-60, estimable_derive/src/lib.rs:75-170. -/
structure FMachine (β : Type) : Type 1 where
  write : {τ : Type} → TargetOps τ → β → List (W τ)
  known : Option Nat
  unknown : β → List (Option Nat)

namespace VMachine

def nil : VMachine Empty where
  write _ _ _ x := nomatch x
  unknown _ x := nomatch x

def cons {α β : Type} (p : Profile) (tag : Nat) (c : Machine α) (v : VMachine β) : VMachine (α ⊕ β) where
  write w _ T x := match x with
    | .inl x => W.allU p [Machine.tagWrite p w T tag, c.write T x] (W.resolveZero T)
    | .inr y => v.write w T y
  unknown w x := match x with
    | .inl x => addN p (some w.len) (c.estimate x)
    | .inr y => v.unknown w y

end VMachine

namespace FMachine

def nil : FMachine Unit where
  write _ _ := []
  known := some 0
  unknown _ := []

def cons {α β : Type} (c : Machine α) (f : FMachine β) : FMachine (α × β) where
  write T x := c.write T x.1 :: f.write T x.2
  known := match c.known, f.known with
    | some m, some n => some (m + n)
    | _, _ => none
  unknown x := c.unknown x.1 :: f.unknown x.2

end FMachine

namespace Machine

/-- `data!`: src/adt.rs:355-378. -/
def data {β : Type} (w : TagWidth) (v : VMachine β) : Machine β where
  write T x := v.write w T x
  known := none
  unknown x := v.unknown w x

/-- A record with derived `Encode` and `Estimable`. -/
def record {β : Type} (p : Profile) (f : FMachine β) : Machine β where
  write T x := W.allU p (f.write T x) (W.resolveZero T)
  known := f.known
  unknown x := sumN p (f.unknown x)

end Machine

mutual
/-- The code the library and its macros provide for the type, with counts of type `usize`. -/
def Schema.machine (cfg : Cfg) : (s : Schema) → Machine s.Val
  | .unit => Machine.unit
  | .bool => Machine.bool cfg.prof
  | .int t => Machine.int cfg.prof t
  | .f64 => Machine.f64 cfg.prof
  | .rangedInt t min max => Machine.rangedInt cfg.prof t min max
  | .rangedFloat _ _ => Machine.f64 cfg.prof
  | .zarithN => Machine.zarithN cfg.prof
  | .zarithZ => Machine.zarithZ cfg.prof
  | .bytes => Machine.bytes cfg.prof
  | .vecU8 => Machine.vecU8 cfg.prof
  | .string => Machine.string cfg.prof
  | .fixedBytes n => Machine.fixedBytes cfg.prof n
  | .fixedString n => Machine.fixedString cfg.prof n
  | .option s => Machine.option cfg.prof (s.machine cfg)
  | .nullable s => Machine.nullable cfg.prof (s.machine cfg)
  | .dynamic S s => Machine.dynamic cfg.prof cfg S (s.machine cfg)
  | .vpadded _ s => Machine.vpadded (s.machine cfg)
  | .padded n s => Machine.padded cfg.prof n (s.machine cfg)
  | .seq s => Machine.seq cfg.prof (s.machine cfg)
  | .fixSeq n s => Machine.fixSeq cfg.prof n (s.machine cfg)
  | .limSeq _ s => Machine.seq cfg.prof (s.machine cfg)
  | .autobox s => Machine.vpadded (s.machine cfg)
  | .hole _ => Machine.hole
  | .cstyle w tags => Machine.cstyle cfg.prof w tags
  | .data w vs => Machine.data w (vs.machine cfg)
  | .record fs => Machine.record cfg.prof (fs.machine cfg)
def Variants.machine (cfg : Cfg) : (vs : Variants) → VMachine vs.Val
  | .nil => VMachine.nil
  | .cons tag s vs => VMachine.cons cfg.prof tag (s.machine cfg) (vs.machine cfg)
def Fields.machine (cfg : Cfg) : (fs : Fields) → FMachine fs.Val
  | .nil => FMachine.nil
  | .cons s fs => FMachine.cons (s.machine cfg) (fs.machine cfg)
end

end Verif
