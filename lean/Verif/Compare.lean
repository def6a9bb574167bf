import Verif.Schema
import Verif.Builder
/-
Comparing decoded values: `==` (`PartialEq::eq`) and `PartialOrd::partial_cmp` as derived for, or written by
hand for, the types of the library.  The comparisons of the standard library's own types (integers, doubles,
`bool`, `Option`, slices, `String`) and of `num_bigint` are transcribed from their documentation.
-/
namespace Verif

namespace Cmp

/-- `PartialOrd` of a type whose order is the one of an integer: integers, `bool`, `BigUint`, `BigInt`. -/
def byInt {α : Type} (key : α → Int) (x y : α) : Option Ordering := some (compare (key x) (key y))

/-- `f64::eq`. -/
def f64Eq (x y : BitVec 64) : Bool := !F64.isNan x && !F64.isNan y && F64.key x == F64.key y

/-- `f64::partial_cmp`: `None` if one of the numbers is a NaN. -/
def f64 (x y : BitVec 64) : Option Ordering :=
  if F64.isNan x || F64.isNan y then none else some (compare (F64.key x) (F64.key y))

/-- `<[T] as PartialEq>::eq`: the same length and equal elements. -/
def sliceEq {α : Type} (eq : α → α → Bool) (xs ys : List α) : Bool :=
  xs.length == ys.length && (xs.zip ys).all fun (x, y) => eq x y

/-- `<[T] as PartialOrd>::partial_cmp`: the first pair of elements that are not equal decides, or else the
lengths. -/
def slice {α : Type} (cmp : α → α → Option Ordering) : List α → List α → Option Ordering
  | [], [] => some .eq
  | [], _ :: _ => some .lt
  | _ :: _, [] => some .gt
  | x :: xs, y :: ys =>
    match cmp x y with
    | some .eq => slice cmp xs ys
    | o => o

/-- `Option<T>::eq`. -/
def optionEq {α : Type} (eq : α → α → Bool) : Option α → Option α → Bool
  | none, none => true
  | some x, some y => eq x y
  | _, _ => false

/-- `Option<T>::partial_cmp`, derived with `None` as the first variant. -/
def option {α : Type} (cmp : α → α → Option Ordering) : Option α → Option α → Option Ordering
  | none, none => some .eq
  | none, some _ => some .lt
  | some _, none => some .gt
  | some x, some y => cmp x y

/-- `#[derive(PartialOrd)]` for one field and the fields after it. -/
def andThen {α β : Type} (cmp : α → α → Option Ordering) (rest : β → β → Option Ordering) (x y : α × β) :
    Option Ordering :=
  match cmp x.1 y.1 with
  | some .eq => rest x.2 y.2
  | o => o

/-- `#[derive(PartialEq)]` for one variant and the variants after it. -/
def orElseEq {α β : Type} (eq : α → α → Bool) (rest : β → β → Bool) : α ⊕ β → α ⊕ β → Bool
  | .inl x, .inl y => eq x y
  | .inr x, .inr y => rest x y
  | _, _ => false

/-- `#[derive(PartialOrd)]` for one variant and the variants after it: an earlier variant is smaller. -/
def orElse {α β : Type} (cmp : α → α → Option Ordering) (rest : β → β → Option Ordering) :
    α ⊕ β → α ⊕ β → Option Ordering
  | .inl x, .inl y => cmp x y
  | .inl _, .inr _ => some .lt
  | .inr _, .inl _ => some .gt
  | .inr x, .inr y => rest x y

/-- `<[u8]>::partial_cmp`, also of `[u8; N]`, `Vec<u8>` and (on the UTF-8 encoding) of `str`. -/
def bytes : Bytes → Bytes → Option Ordering := slice (byInt fun b => (b.toNat : Int))

/-- `false < true`. -/
def boolKey (b : Bool) : Int := if b then 1 else 0

end Cmp

mutual
/-- `==`.  Cites: src/dynamic.rs:164-171 `Dynamic`, :420 `VPadded`; src/float.rs:131 `RangedFloat`;
src/int.rs:134 `RangedInt`; src/zarith.rs:37 `N`, :167 `Z`; src/seq/mod.rs:75 `Sequence`, src/seq/fix.rs:74
`FixSeq`, src/seq/lim.rs:48 `LimSeq`; src/fixed.rs:29 `FixedBytes`, :275 `FixedString`; src/schema.rs:116
`Padded`, :247 `Nullable`, :363 `Bytes`; src/autobox.rs:70 `AutoBox`; src/adt.rs:48 `cstyle!`, :279 and :284
`data!`.  `String` compares the UTF-8 encodings.  A record is taken to derive `PartialEq`. -/
def Schema.eqv : (s : Schema) → s.Val → s.Val → Bool
  | .unit => fun _ _ => true
  | .bool => fun (x y : Bool) => x == y
  | .int t => fun (x y : t.Val) => x == y
  | .f64 => Cmp.f64Eq
  | .rangedInt t _ _ => fun (x y : t.Val) => x == y
  | .rangedFloat _ _ => Cmp.f64Eq
  | .zarithN => fun (x y : Nat) => x == y
  | .zarithZ => fun (x y : Int) => x == y
  | .bytes => fun (x y : Bytes) => x == y
  | .vecU8 => fun (x y : Bytes) => x == y
  | .string => fun (x y : List Char) => utf8 x == utf8 y
  | .fixedBytes n => fun (x y : ByteArr n) => x.1 == y.1
  | .fixedString n => fun (x y : ByteArr n) => x.1 == y.1
  | .option s => Cmp.optionEq s.eqv
  | .nullable s => Cmp.optionEq s.eqv
  | .dynamic _ s => s.eqv
  | .vpadded _ s => s.eqv
  | .padded _ s => s.eqv
  | .seq s => Cmp.sliceEq s.eqv
  | .fixSeq _ s => Cmp.sliceEq s.eqv
  | .limSeq _ s => Cmp.sliceEq s.eqv
  | .autobox s => s.eqv
  | .hole _ => fun (x _ : Empty) => x.elim
  | .cstyle _ tags => fun (x y : CEnum tags) => x.1 == y.1
  | .data _ vs => vs.eqv
  | .record fs => fs.eqv
def Variants.eqv : (vs : Variants) → vs.Val → vs.Val → Bool
  | .nil => fun (x _ : Empty) => x.elim
  | .cons _ s vs => Cmp.orElseEq s.eqv vs.eqv
def Fields.eqv : (fs : Fields) → fs.Val → fs.Val → Bool
  | .nil => fun _ _ => true
  | .cons s fs => fun x y => s.eqv x.1 y.1 && fs.eqv x.2 y.2
end

mutual
/-- `partial_cmp`.  Cites: src/dynamic.rs:146-153 `Dynamic`, the other types as for `==`.  The variants of a
`cstyle!` enum are ordered by their discriminants, those of a `data!` enum (src/adt.rs:284) by their position. -/
def Schema.pcmp : (s : Schema) → s.Val → s.Val → Option Ordering
  | .unit => fun _ _ => some .eq
  | .bool => Cmp.byInt Cmp.boolKey
  | .int t => Cmp.byInt t.toInt
  | .f64 => Cmp.f64
  | .rangedInt t _ _ => Cmp.byInt t.toInt
  | .rangedFloat _ _ => Cmp.f64
  | .zarithN => Cmp.byInt fun (x : Nat) => (x : Int)
  | .zarithZ => Cmp.byInt fun (x : Int) => x
  | .bytes => Cmp.bytes
  | .vecU8 => Cmp.bytes
  | .string => fun (x y : List Char) => Cmp.bytes (utf8 x) (utf8 y)
  | .fixedBytes n => fun (x y : ByteArr n) => Cmp.bytes x.1 y.1
  | .fixedString n => fun (x y : ByteArr n) => Cmp.bytes x.1 y.1
  | .option s => Cmp.option s.pcmp
  | .nullable s => Cmp.option s.pcmp
  | .dynamic _ s => s.pcmp
  | .vpadded _ s => s.pcmp
  | .padded _ s => s.pcmp
  | .seq s => Cmp.slice s.pcmp
  | .fixSeq _ s => Cmp.slice s.pcmp
  | .limSeq _ s => Cmp.slice s.pcmp
  | .autobox s => s.pcmp
  | .hole _ => fun (x _ : Empty) => x.elim
  | .cstyle _ tags => Cmp.byInt fun (x : CEnum tags) => (x.1 : Int)
  | .data _ vs => vs.pcmp
  | .record fs => fs.pcmp
def Variants.pcmp : (vs : Variants) → vs.Val → vs.Val → Option Ordering
  | .nil => fun (x _ : Empty) => x.elim
  | .cons _ s vs => Cmp.orElse s.pcmp vs.pcmp
def Fields.pcmp : (fs : Fields) → fs.Val → fs.Val → Option Ordering
  | .nil => fun _ _ => some .eq
  | .cons s fs => Cmp.andThen s.pcmp fs.pcmp
end

/-! ### builders -/

/-- `#[derive(PartialEq)]` for `SpanBuffer` (src/internal/splitvec.rs:59-64). -/
def SpanBuffer.eqv (s t : SpanBuffer) : Bool := s.stable == t.stable && s.active == t.active && s.cache == t.cache

/-- `#[derive(PartialEq)]` for `SplitVec<T>` (src/internal/splitvec.rs:429-433). -/
def SplitVec.eqv {α : Type} [BEq α] (s t : SplitVec α) : Bool := s.buffer == t.buffer && s.spans.eqv t.spans

/-- `#[derive(PartialEq)]` for `StrictBuilder` (src/builder/strict.rs:17-19). -/
def StrictBuilder.eqv (b c : StrictBuilder) : Bool := b.vec == c.vec

/-- `#[derive(PartialOrd)]` for `StrictBuilder` (src/builder/strict.rs:17-19). -/
def StrictBuilder.pcmp (b c : StrictBuilder) : Option Ordering := Cmp.bytes b.vec c.vec

/-- `#[derive(PartialEq)]` for `MemoBuilder` (src/builder/memo.rs:26-30). -/
def MemoBuilder.eqv (b c : MemoBuilder) : Bool := b.segs.eqv c.segs

/-- `PartialOrd` of `usize`. -/
def Cmp.nat : Nat → Nat → Option Ordering := Cmp.byInt fun n => (n : Int)

/-- `#[derive(PartialOrd)]` for `MemoBuilder` (src/builder/memo.rs:26-30): the bytes, then the fields of `SpanBuffer`
in their order. -/
def MemoBuilder.pcmp (b c : MemoBuilder) : Option Ordering :=
  Cmp.andThen Cmp.bytes (Cmp.andThen (Cmp.slice Cmp.nat) (Cmp.andThen (Cmp.option Cmp.nat) Cmp.nat))
    (b.segs.buffer, b.segs.spans.stable, b.segs.spans.active, b.segs.spans.cache)
    (c.segs.buffer, c.segs.spans.stable, c.segs.spans.active, c.segs.spans.cache)

/-- `#[derive(PartialEq)]` for `MemoBuffer` (src/builder/memo.rs:85-89). -/
def MemoBuffer.eqv (b c : MemoBuffer) : Bool := b.buf == c.buf && b.lens == c.lens

end Verif
