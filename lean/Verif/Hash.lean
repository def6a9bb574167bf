import Verif.Schema
/-
`Hash`: what the values of the library's types feed to a `Hasher`, as derived for, or written by hand for, the
types.  The implementations for the standard library's own types (integers, `bool`, `Option`, slices, arrays,
`str`), what `#[derive(Hash)]` generates, and the implementations for `num_bigint`'s numbers are transcribed from
their documentation and sources.
-/
namespace Verif

/-- The byte order of the machine. -/
inductive Endian where
  | little | big
  deriving DecidableEq, Repr

/-- `to_ne_bytes` of a `k`-byte integer with this bit pattern. -/
def Endian.bytes : Endian → Nat → Nat → Bytes
  | .big, k, n => toBe k n
  | .little, k, n => (toBe k n).reverse

/-- A call of one of the methods of `std::hash::Hasher`. -/
inductive HashCall where
  /-- `write_u8`, `write_i8`, … `write_i64`: the width in bytes and the bit pattern. -/
  | int (len bits : Nat)
  /-- `write_length_prefix` (by default `write_usize`) of the length of a slice. -/
  | length (n : Nat)
  /-- `write_isize` of the discriminant of an enum without `repr`. -/
  | discr (n : Nat)
  /-- `write`. -/
  | write (bs : Bytes)
  /-- `write_str`. -/
  | str (bs : Bytes)
  deriving DecidableEq, Repr

/-- What the default implementations of the other methods hand to `write`.  `write_str` adds a byte `0xff`. -/
def HashCall.bytes (e : Endian) : HashCall → Bytes
  | .int k n => e.bytes k n
  | .length n => e.bytes usizeBytes n
  | .discr n => e.bytes usizeBytes n
  | .write bs => bs
  | .str bs => bs ++ [0xff]

namespace HashOf

/-- `<[u8] as Hash>::hash`: the length, and then all bytes at once.  `Vec<u8>` and `[u8; N]` hash as slices. -/
def bytes (bs : Bytes) : List HashCall := [.length bs.length, .write bs]

/-- `BigUint`'s digits: base 2⁶⁴ where `usize` has 64 bits, 2³² where it has 32, the least significant first, no leading zeros. -/
def limbs (n : Nat) : List Nat := if n = 0 then [] else n % usizeMod :: limbs (n / usizeMod)
  termination_by n
  decreasing_by
    have := usizeMod_ge
    exact Nat.div_lt_self (by omega) (by omega)

/-- `<BigUint as Hash>::hash`: the vector of digits. -/
def bigUint (e : Endian) (n : Nat) : List HashCall :=
  [.length (limbs n).length, .write ((limbs n).flatMap (e.bytes usizeBytes))]

/-- `<BigInt as Hash>::hash`: the sign (`Minus`, `NoSign`, `Plus`), and the magnitude unless it is zero. -/
def bigInt (e : Endian) (z : Int) : List HashCall :=
  if z < 0 then .discr 0 :: bigUint e z.natAbs
  else if z = 0 then [.discr 1]
  else .discr 2 :: bigUint e z.natAbs

/-- `<Option<T> as Hash>::hash`, derived. -/
def option {α : Type} (h : α → List HashCall) : Option α → List HashCall
  | none => [.discr 0]
  | some x => .discr 1 :: h x

/-- `<T as Hash>::hash_slice`: the integer types hand the memory of the slice to `write`, the others hash one
element after the other. -/
def elems (e : Endian) : (s : Schema) → (s.Val → List HashCall) → List s.Val → List HashCall
  | .int t, _ => fun (xs : List t.Val) => [.write (xs.flatMap fun x => e.bytes t.len x.toNat)]
  | _, h => fun xs => xs.flatMap h

/-- `<[T] as Hash>::hash`. -/
def slice (e : Endian) (s : Schema) (h : s.Val → List HashCall) (xs : List s.Val) : List HashCall :=
  .length xs.length :: elems e s h xs

end HashOf

mutual
/-- `hash`.  Cites: src/dynamic.rs:175-182 `Dynamic`, :420 `VPadded`; src/int.rs:134 `RangedInt`; src/zarith.rs:37
`N`, :167 `Z`; src/seq/mod.rs:75 `Sequence`, src/seq/fix.rs:74 `FixSeq`, src/seq/lim.rs:48 `LimSeq`;
src/fixed.rs:29 `FixedBytes`, :275 `FixedString`; src/schema.rs:116 `Padded`, :247 `Nullable`, :363 `Bytes`;
src/autobox.rs:70 `AutoBox`; src/adt.rs:48 `cstyle!` (the derived implementation makes no call if there is only
one variant), :279 and :315-331 `data!`.  A record is taken to derive `Hash`.  `f64` and `RangedFloat` do not
implement `Hash`; their lines here stand for nothing, and the theorems are about types without them. -/
def Schema.hash (e : Endian) : (s : Schema) → s.Val → List HashCall
  | .unit => fun _ => []
  | .bool => fun (x : Bool) => [.int 1 (if x then 1 else 0)]
  | .int t => fun (x : t.Val) => [.int t.len x.toNat]
  | .f64 => fun _ => []
  | .rangedInt t _ _ => fun (x : t.Val) => [.int t.len x.toNat]
  | .rangedFloat _ _ => fun _ => []
  | .zarithN => HashOf.bigUint e
  | .zarithZ => HashOf.bigInt e
  | .bytes => HashOf.bytes
  | .vecU8 => HashOf.bytes
  | .string => fun (x : List Char) => [.str (utf8 x)]
  | .fixedBytes n => fun (x : ByteArr n) => HashOf.bytes x.1
  | .fixedString n => fun (x : ByteArr n) => HashOf.bytes x.1
  | .option s => HashOf.option (s.hash e)
  | .nullable s => HashOf.option (s.hash e)
  | .dynamic _ s => s.hash e
  | .vpadded _ s => s.hash e
  | .padded _ s => s.hash e
  | .seq s => HashOf.slice e s (s.hash e)
  | .fixSeq _ s => HashOf.slice e s (s.hash e)
  | .limSeq _ s => HashOf.slice e s (s.hash e)
  | .autobox s => s.hash e
  | .hole _ => fun (x : Empty) => x.elim
  | .cstyle w tags => fun (x : CEnum tags) => if tags.length ≤ 1 then [] else [.int w.len x.1]
  | .data w vs => vs.hash e w
  | .record fs => fs.hash e
/-- The value of the tag, hashed as the backer type, and the payload (src/adt.rs:321-325). -/
def Variants.hash (e : Endian) (w : TagWidth) : (vs : Variants) → vs.Val → List HashCall
  | .nil => fun (x : Empty) => x.elim
  | .cons tag s vs => Sum.elim (fun x => .int w.len tag :: s.hash e x) (vs.hash e w)
def Fields.hash (e : Endian) : (fs : Fields) → fs.Val → List HashCall
  | .nil => fun _ => []
  | .cons s fs => fun x => s.hash e x.1 ++ fs.hash e x.2
end

/-- A hasher: a state and what each call does to it (`std::hash::Hasher`). -/
structure Hasher where
  σ : Type
  init : σ
  call : σ → HashCall → σ
  finish : σ → BitVec 64

/-- A hasher that, like most, implements `write` only and leaves the other methods as they are by default;
feeding it bytes in one call or in several is the same to it. -/
structure ByteHasher where
  σ : Type
  init : σ
  byte : σ → Byte → σ
  finish : σ → BitVec 64

/-- `write` folds over the bytes. -/
def ByteHasher.toHasher (h : ByteHasher) (e : Endian) : Hasher where
  σ := h.σ
  init := h.init
  call s c := (c.bytes e).foldl h.byte s
  finish := h.finish

/-- `BuildHasher::hash_one`. -/
def Hasher.hashOne (h : Hasher) (e : Endian) (s : Schema) (x : s.Val) : BitVec 64 :=
  h.finish ((s.hash e x).foldl h.call h.init)

end Verif
