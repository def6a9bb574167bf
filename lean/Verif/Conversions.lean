import Verif.Fixed
import Verif.Errors
import Verif.Target
/-
Conversions between the types that hold bytes, and changes through the views they give out.
-/
namespace Verif

/-- src/schema.rs:365 `struct Bytes(Vec<u8>)`. -/
structure OpaqueBytes where
  vec : Bytes

/-- src/seq/mod.rs:77 `struct Sequence<T>(Vec<T>)`, here with `T = u8`. -/
structure ByteSequence where
  vec : Bytes

/-- Types that hold bytes.  `slice` stands for `&[u8]` and `&mut [u8]`, `arr n` for `[u8; N]` and pointers to it, `iter` for the
iterators over `u8`, `&u8`; `text` is a `String`. -/
inductive Holder where
  | vec | slice | box | rc | arc | cow | iter | arr (n : Nat) | bytes | fixed (n : Nat) | hex | seq | text
  deriving DecidableEq

namespace Holder

/-- Their values. -/
def Val : Holder → Type
  | vec | slice | box | rc | arc | cow | iter => Bytes
  | arr n | fixed n => ByteArr n
  | bytes => OpaqueBytes
  | hex => HexString
  | seq => ByteSequence
  | text => List Char

end Holder

/-- How a conversion may fail: the errors of `FixedBytes::try_from_slice`, `TryFrom<&[u8]>`, `HexString::from_hex`; a panic. -/
inductive ConvError where
  | width (e : WidthError) | slice | hex (e : HexConvError) | panic

/-- Changes that do not change the length: what can be done with a `&mut [u8]`. -/
def InPlace : Type := {f : Bytes → Bytes // ∀ b, (f b).length = b.length}

/-- One call. -/
inductive Step : Holder → Holder → Type where
  -- the standard library
  | vecAsSlice : Step .vec .slice
  | sliceToVec : Step .slice .vec
  | vecToBox : Step .vec .box
  | boxToVec : Step .box .vec
  | boxAsSlice : Step .box .slice
  | sliceToRc : Step .slice .rc
  | rcAsSlice : Step .rc .slice
  | sliceToArc : Step .slice .arc
  | arcAsSlice : Step .arc .slice
  | sliceToCow : Step .slice .cow
  | cowAsSlice : Step .cow .slice
  | arrAsSlice {n : Nat} : Step (.arr n) .slice
  | sliceIter : Step .slice .iter
  | iterToVec : Step .iter .vec
  -- `Bytes`
  /-- src/schema.rs:386-388 `from_vec`, 486-491 `From<Vec<u8>>` -/
  | vecToBytes : Step .vec .bytes
  /-- src/schema.rs:394-396 `into_vec`, 479-484 `From<Bytes> for Vec<u8>` -/
  | bytesToVec : Step .bytes .vec
  /-- src/schema.rs:399-403 `AsRef<Vec<u8>>` -/
  | bytesAsVec : Step .bytes .vec
  /-- src/schema.rs:411-415 `AsRef<[u8]>`, 423-429 `Deref` -/
  | bytesAsSlice : Step .bytes .slice
  /-- src/schema.rs:514-519 `From<&[u8]>`, 521-526 `From<&mut [u8]>` -/
  | sliceToBytes : Step .slice .bytes
  /-- src/schema.rs:493-512 `From<[u8; N]>`, `From<&[u8; N]>`, `From<&mut [u8; N]>` -/
  | arrToBytes {n : Nat} : Step (.arr n) .bytes
  /-- src/schema.rs:528-533 `From<Box<[u8]>>` -/
  | boxToBytes : Step .box .bytes
  /-- src/schema.rs:535-539 `From<Bytes> for Box<[u8]>` -/
  | bytesToBox : Step .bytes .box
  /-- src/schema.rs:437-455 `IntoIterator for Bytes`, `&Bytes` -/
  | bytesIter : Step .bytes .iter
  /-- src/schema.rs:467-471 `FromIterator<u8>` -/
  | iterToBytes : Step .iter .bytes
  /-- src/schema.rs:405-409 `AsMut<Vec<u8>>` -/
  | bytesAsMutVec (f : Bytes → Bytes) : Step .bytes .bytes
  /-- src/schema.rs:417-421 `AsMut<[u8]>`, 431-435 `DerefMut`, 457-465 `IntoIterator for &mut Bytes` -/
  | bytesAsMutSlice (f : InPlace) : Step .bytes .bytes
  /-- src/schema.rs:473-477 `Extend<u8>` -/
  | bytesExtend (more : Bytes) : Step .bytes .bytes
  -- `HexString`
  /-- src/hexstring.rs:232-234 `from_vec`, 311-318 `from_bytes`, 532 `From<Vec<u8>>` -/
  | vecToHex : Step .vec .hex
  /-- src/hexstring.rs:239-241 `into_inner`, 502-506 `From<HexString> for Vec<u8>` -/
  | hexToVec : Step .hex .vec
  /-- src/hexstring.rs:222-224 `as_vec` -/
  | hexAsVec : Step .hex .vec
  /-- src/hexstring.rs:198-200 `as_bytes`, 388-392 `AsRef<[u8]>` -/
  | hexAsSlice : Step .hex .slice
  /-- src/hexstring.rs:282-289 `clone_from_bytes`, 533 `From<&[u8]>` -/
  | sliceToHex : Step .slice .hex
  /-- src/hexstring.rs:534 `From<Box<[u8]>>` -/
  | boxToHex : Step .box .hex
  /-- src/hexstring.rs:535 `From<Rc<[u8]>>` -/
  | rcToHex : Step .rc .hex
  /-- src/hexstring.rs:536 `From<Arc<[u8]>>` -/
  | arcToHex : Step .arc .hex
  /-- src/hexstring.rs:537 `From<Cow<[u8]>>` -/
  | cowToHex : Step .cow .hex
  /-- src/hexstring.rs:539-544 `From<[u8; N]>` and from pointers to `[u8; N]` -/
  | arrToHex {n : Nat} : Step (.arr n) .hex
  /-- src/hexstring.rs:383-385 `iter`, 440-460 `IntoIterator for HexString`, `&HexString` -/
  | hexIter : Step .hex .iter
  /-- src/hexstring.rs:412-418 `FromIterator<u8>` -/
  | iterToHex : Step .iter .hex
  /-- src/hexstring.rs:420-426 `FromIterator<&u8>`: extends an empty vector -/
  | iterRefToHex : Step .iter .hex
  /-- src/hexstring.rs:215-217 `as_mut_vec` -/
  | hexAsMutVec (f : Bytes → Bytes) : Step .hex .hex
  /-- src/hexstring.rs:208-210 `as_mut_bytes`, 394-398 `AsMut<[u8]>` -/
  | hexAsMutSlice (f : InPlace) : Step .hex .hex
  /-- src/hexstring.rs:428-438 `Extend<u8>`, `Extend<&u8>` -/
  | hexExtend (more : Bytes) : Step .hex .hex
  /-- src/hexstring.rs:463-465 `std::io::Write::write` -/
  | hexWrite (more : Bytes) : Step .hex .hex
  /-- src/hexstring.rs:335-337 `to_hex`, 406-410 `Display` -/
  | hexToText : Step .hex .text
  /-- src/hexstring.rs:345-352 `from_hex`, 546-565 `TryFrom<…>`, 589-595 `FromStr` -/
  | textToHex : Step .text .hex
  -- `FixedBytes`
  /-- src/fixed.rs:54-56 `from_array`, 102-104 `from_array_ref`, 222-232 `From<&[u8; N]>`, `From<[u8; N]>` -/
  | arrToFixed {n : Nat} : Step (.arr n) (.fixed n)
  /-- src/fixed.rs:69-71 `bytes`, 156-158 `to_array`, 177-181 `AsRef<[u8; N]>`, 189-193 `Borrow<[u8; N]>`, 207-211 `From<FixedBytes<N>>` -/
  | fixedToArr {n : Nat} : Step (.fixed n) (.arr n)
  /-- src/fixed.rs:183-187 `AsRef<[u8]>`, 195-199 `Borrow<[u8]>` -/
  | fixedAsSlice {n : Nat} : Step (.fixed n) .slice
  /-- src/fixed.rs:163-165 `to_vec`, 201-205 `From<FixedBytes<N>> for Vec<u8>` -/
  | fixedToVec {n : Nat} : Step (.fixed n) .vec
  /-- src/fixed.rs:112-124 `try_from_slice` -/
  | trySlice (n : Nat) : Step .slice (.fixed n)
  /-- src/fixed.rs:234-240 `TryFrom<&[u8]>` -/
  | sliceTryInto (n : Nat) : Step .slice (.fixed n)
  /-- src/fixed.rs:168-175 `LowerHex` -/
  | fixedToText {n : Nat} : Step (.fixed n) .text
  /-- src/fixed.rs:86-88 `bytes_mut` -/
  | fixedMut {n : Nat} (f : InPlace) : Step (.fixed n) (.fixed n)
  -- `Sequence<u8>`
  /-- src/seq/mod.rs:93-95 `from_vec`, 207-211 `From<Vec<T>>` -/
  | vecToSeq : Step .vec .seq
  /-- src/seq/mod.rs:99-101 `into_inner`, 201-205 `From<Sequence<T>> for Vec<T>` -/
  | seqToVec : Step .seq .vec
  /-- src/seq/mod.rs:105-107 `as_slice`, 133-137 `AsRef<[T]>`, 145-151 `Deref` -/
  | seqAsSlice : Step .seq .slice
  /-- src/seq/mod.rs:159-177 `IntoIterator for Sequence<T>`, `&Sequence<T>` -/
  | seqIter : Step .seq .iter
  /-- src/seq/mod.rs:189-193 `FromIterator<T>` -/
  | iterToSeq : Step .iter .seq
  /-- src/seq/mod.rs:111-113 `as_mut_slice`, 139-143 `AsMut<[T]>`, 153-157 `DerefMut`, 179-187 `IntoIterator for &mut Sequence<T>` -/
  | seqAsMutSlice (f : InPlace) : Step .seq .seq
  /-- src/seq/mod.rs:195-199 `Extend<T>` -/
  | seqExtend (more : Bytes) : Step .seq .seq
  -- `encode`
  /-- src/conv/mod.rs:379-384 `Vec::<u8>::encode::<Vec<u8>>`, in either build -/
  | vecEncode (p : Profile) : Step .vec .vec
  /-- … `::<HexString>` -/
  | vecEncodeHex (p : Profile) : Step .vec .hex
  /-- src/schema.rs:550-554 `Bytes::encode::<Vec<u8>>` -/
  | bytesEncode : Step .bytes .vec
  /-- … `::<HexString>` -/
  | bytesEncodeHex : Step .bytes .hex
  /-- src/fixed.rs:256-260 `FixedBytes::<N>::encode::<Vec<u8>>` -/
  | fixedEncode {n : Nat} : Step (.fixed n) .vec
  /-- … `::<HexString>` -/
  | fixedEncodeHex {n : Nat} : Step (.fixed n) .hex

namespace Step

def orPanic {α : Type} : Option α → Except ConvError α
  | some a => .ok a
  | none => .error .panic

/-- What the call gives. -/
def run : {c d : Holder} → Step c d → c.Val → Except ConvError d.Val
  | _, _, vecAsSlice, x | _, _, sliceToVec, x | _, _, vecToBox, x | _, _, boxToVec, x | _, _, boxAsSlice, x
  | _, _, sliceToRc, x | _, _, rcAsSlice, x | _, _, sliceToArc, x | _, _, arcAsSlice, x | _, _, sliceToCow, x
  | _, _, cowAsSlice, x | _, _, sliceIter, x | _, _, iterToVec, x => .ok x
  | _, _, arrAsSlice, x => .ok x.1
  | _, _, vecToBytes, x | _, _, sliceToBytes, x | _, _, boxToBytes, x | _, _, iterToBytes, x => .ok ⟨x⟩
  | _, _, arrToBytes, x => .ok ⟨x.1⟩
  | _, _, bytesToVec, x | _, _, bytesAsVec, x | _, _, bytesAsSlice, x | _, _, bytesToBox, x | _, _, bytesIter, x =>
    .ok x.vec
  | _, _, bytesAsMutVec f, x => .ok ⟨f x.vec⟩
  | _, _, bytesAsMutSlice f, x => .ok ⟨f.1 x.vec⟩
  | _, _, bytesExtend more, x => .ok ⟨x.vec ++ more⟩
  | _, _, vecToHex, x | _, _, sliceToHex, x | _, _, boxToHex, x | _, _, rcToHex, x | _, _, arcToHex, x
  | _, _, cowToHex, x | _, _, iterToHex, x => .ok (HexString.fromVec x)
  | _, _, iterRefToHex, x => .ok ((HexString.fromVec []).extend x)
  | _, _, arrToHex, x => .ok (HexString.fromVec x.1)
  | _, _, hexToVec, x | _, _, hexAsVec, x | _, _, hexAsSlice, x | _, _, hexIter, x => .ok x.intoInner
  | _, _, hexAsMutVec f, x => .ok ⟨f x.bytes⟩
  | _, _, hexAsMutSlice f, x => .ok ⟨f.1 x.bytes⟩
  | _, _, hexExtend more, x => .ok (x.extend more)
  | _, _, hexWrite more, x => .ok (x.ioWrite more).2
  | _, _, hexToText, x => .ok x.toHex
  | _, _, textToHex, x => match HexString.fromHex x with
    | none => .error .panic
    | some (.ok h) => .ok h
    | some (.error e) => .error (.hex e)
  | _, _, arrToFixed, x | _, _, fixedToArr, x => .ok x
  | _, _, fixedAsSlice, x => .ok x.1
  | _, _, fixedToVec, x => .ok (FixedBytes.toVec x)
  | _, _, trySlice n, x => match FixedBytes.tryFromSlice n x with
    | .ok y => .ok y
    | .error e => .error (.width e)
  | _, _, sliceTryInto n, x => match FixedBytes.tryFrom n x with
    | some y => .ok y
    | none => .error .slice
  | _, _, fixedToText, x => .ok (FixedBytes.lowerHex x)
  | _, _, fixedMut f, x => .ok ⟨f.1 x.1, by rw [f.2, x.2]⟩
  | _, _, vecToSeq, x | _, _, iterToSeq, x => .ok ⟨x⟩
  | _, _, seqToVec, x | _, _, seqAsSlice, x | _, _, seqIter, x => .ok x.vec
  | _, _, seqAsMutSlice f, x => .ok ⟨f.1 x.vec⟩
  | _, _, seqExtend more, x => .ok ⟨x.vec ++ more⟩
  | _, _, vecEncode p, x => orPanic (Codec.Override.vecEncode p vecTarget x)
  | _, _, vecEncodeHex p, x => orPanic (Codec.Override.vecEncode p hexTarget x)
  | _, _, bytesEncode, x => orPanic (Codec.Override.bytesEncode vecTarget x.vec)
  | _, _, bytesEncodeHex, x => orPanic (Codec.Override.bytesEncode hexTarget x.vec)
  | _, _, fixedEncode, x => orPanic (Codec.Override.fixedEncode vecTarget x)
  | _, _, fixedEncodeHex, x => orPanic (Codec.Override.fixedEncode hexTarget x)

end Step

/-- One call after the other, each on what the one before gave. -/
inductive Path : Holder → Holder → Type where
  | nil {c : Holder} : Path c c
  | cons {c d e : Holder} (s : Step c d) (p : Path d e) : Path c e

namespace Path

def run : {c d : Holder} → Path c d → c.Val → Except ConvError d.Val
  | _, _, nil, x => .ok x
  | _, _, cons s p, x => match s.run x with
    | .ok y => p.run y
    | .error e => .error e

end Path

end Verif
