import Verif.Codec.Comb
/-
MODEL of the accessors of the types that wrap a value of another type: `AutoBox`, `Dynamic`, `Padded`, `VPadded`, `Nullable`,
`Sequence`, `FixSeq`, `LimSeq`.

Simplifications: references are the values they refer to; a `Box<T>` is the value it holds; slices, vectors, array vectors and
iterators over elements are the lists of their elements, so both storages of `FixSeq` and `LimSeq` (features `arrayvec_fixseq`,
`arrayvec_limseq`) are lists.  What is written through a mutable reference is a function from the old to the new value.
-/
namespace Verif.Wrappers

/-- src/autobox.rs:72-74 -/
structure AutoBox (α : Type) where
  box : α

/-- src/dynamic.rs:79-83 -/
structure Dynamic (S : LenPref) (α : Type) where
  contents : α

/-- src/schema.rs:118 -/
structure Padded (n : Nat) (α : Type) where
  val : α

/-- src/dynamic.rs:422 -/
structure VPadded (n : Nat) (α : Type) where
  val : α

/-- src/schema.rs:249 -/
structure Nullable (α : Type) where
  opt : Option α

/-- src/seq/mod.rs:77 -/
structure Sequence (α : Type) where
  vec : List α

/-- src/seq/fix.rs:75 -/
structure FixSeq (n : Nat) (α : Type) where
  inner : List α

/-- src/seq/lim.rs:49 -/
structure LimSeq (n : Nat) (α : Type) where
  inner : List α

/-- The types in question, around some type. -/
inductive Ty where
  | plain
  | box (t : Ty)
  | autobox (t : Ty)
  | dynamic (S : LenPref) (t : Ty)
  | padded (n : Nat) (t : Ty)
  | vpadded (n : Nat) (t : Ty)
  | option (t : Ty)
  | nullable (t : Ty)
  | vec (t : Ty)
  | slice (t : Ty)
  | iter (t : Ty)
  | seq (t : Ty)
  | fixSeq (n : Nat) (t : Ty)
  | limSeq (n : Nat) (t : Ty)

/-- Their values. -/
def Ty.Val (α : Type) : Ty → Type
  | plain => α
  | box t => t.Val α
  | autobox t => AutoBox (t.Val α)
  | dynamic S t => Dynamic S (t.Val α)
  | padded n t => Padded n (t.Val α)
  | vpadded n t => VPadded n (t.Val α)
  | option t => Option (t.Val α)
  | nullable t => Nullable (t.Val α)
  | vec t | slice t | iter t => List (t.Val α)
  | seq t => Sequence (t.Val α)
  | fixSeq n t => FixSeq n (t.Val α)
  | limSeq n t => LimSeq n (t.Val α)

open Ty

/-- Calls that turn one into another. -/
inductive Step : Ty → Ty → Type where
  /-- `Box::new` -/
  | boxNew : Step t (box t)
  /-- `*b` -/
  | unbox : Step (box t) t
  /-- src/autobox.rs:90-92 `new` -/
  | autoboxNew : Step t (autobox t)
  /-- src/autobox.rs:234-238 `From<T>` -/
  | autoboxFrom : Step t (autobox t)
  /-- src/autobox.rs:97-99 `from_boxed` -/
  | autoboxFromBoxed : Step (box t) (autobox t)
  /-- src/autobox.rs:240-244 `From<Box<T>>` -/
  | autoboxFromBox : Step (box t) (autobox t)
  /-- src/autobox.rs:112-114 `into_box` -/
  | autoboxIntoBox : Step (autobox t) (box t)
  /-- src/autobox.rs:125-127 `into_inner` -/
  | autoboxIntoInner : Step (autobox t) t
  /-- src/autobox.rs:175-177 `as_inner` -/
  | autoboxAsInner : Step (autobox t) t
  /-- src/autobox.rs:216-220 `AsRef<T>` -/
  | autoboxAsRef : Step (autobox t) t
  /-- src/autobox.rs:228-232 `AsRef<Box<T>>` -/
  | autoboxAsBox : Step (autobox t) (box t)
  /-- src/autobox.rs:180-190 `Clone`; cloning a `Box` clones what it holds -/
  | autoboxClone : Step (autobox t) (autobox t)
  /-- src/dynamic.rs:99-104 `new` -/
  | dynamicNew (S : LenPref) : Step t (dynamic S t)
  /-- src/dynamic.rs:240-247 `From<T>` -/
  | dynamicFrom (S : LenPref) : Step t (dynamic S t)
  /-- src/dynamic.rs:114-116 `into_inner` -/
  | dynamicIntoInner : Step (dynamic S t) t
  /-- src/dynamic.rs:184-188 `Borrow<T>` -/
  | dynamicBorrow : Step (dynamic S t) t
  /-- src/dynamic.rs:190-194 `AsRef<T>` -/
  | dynamicAsRef : Step (dynamic S t) t
  /-- src/schema.rs:130-132 `new` -/
  | paddedNew (n : Nat) : Step t (padded n t)
  /-- src/schema.rs:140-142 `Padded::<T, N>::with_padding::<M>` -/
  | paddedWith (m : Nat) : Step t (padded m t)
  /-- src/schema.rs:176-180 `From<T>` -/
  | paddedFrom (n : Nat) : Step t (padded n t)
  /-- src/schema.rs:147-149 `into_inner` -/
  | paddedIntoInner : Step (padded n t) t
  /-- src/schema.rs:154-156 `as_inner` -/
  | paddedAsInner : Step (padded n t) t
  /-- src/dynamic.rs:436-438 `new` -/
  | vpaddedNew (n : Nat) : Step t (vpadded n t)
  /-- src/dynamic.rs:451-455 `From<T>` -/
  | vpaddedFrom (n : Nat) : Step t (vpadded n t)
  /-- src/dynamic.rs:446-448 `into_inner` -/
  | vpaddedIntoInner : Step (vpadded n t) t
  /-- src/schema.rs:268-270 `into_inner` -/
  | nullableIntoInner : Step (nullable t) (option t)
  /-- src/schema.rs:275-277 `as_inner` -/
  | nullableAsInner : Step (nullable t) (option t)
  /-- src/schema.rs:294-298 `From<Nullable<T>> for Option<T>` -/
  | nullableToOption : Step (nullable t) (option t)
  /-- src/schema.rs:300-304 `From<Option<T>>` -/
  | nullableFromOption : Step (option t) (nullable t)
  /-- src/schema.rs:306-310 `From<T>` -/
  | nullableFrom : Step t (nullable t)
  /-- `Vec::as_slice` -/
  | vecAsSlice : Step (vec t) (slice t)
  /-- `<[T]>::to_vec` -/
  | sliceToVec : Step (slice t) (vec t)
  /-- `<[T]>::iter` -/
  | sliceIter : Step (slice t) (iter t)
  /-- `Vec::from_iter` -/
  | iterCollect : Step (iter t) (vec t)
  /-- src/seq/mod.rs:93-95 `from_vec` -/
  | seqFromVec : Step (vec t) (seq t)
  /-- src/seq/mod.rs:207-211 `From<Vec<T>>` -/
  | seqFrom : Step (vec t) (seq t)
  /-- src/seq/mod.rs:189-193 `FromIterator` -/
  | seqFromIter : Step (iter t) (seq t)
  /-- src/seq/mod.rs:99-101 `into_inner` -/
  | seqIntoInner : Step (seq t) (vec t)
  /-- src/seq/mod.rs:201-205 `From<Sequence<T>> for Vec<T>` -/
  | seqToVec : Step (seq t) (vec t)
  /-- src/seq/mod.rs:105-107 `as_slice` -/
  | seqAsSlice : Step (seq t) (slice t)
  /-- src/seq/mod.rs:133-137 `AsRef<[T]>` -/
  | seqAsRef : Step (seq t) (slice t)
  /-- src/seq/mod.rs:145-151 `Deref` -/
  | seqDeref : Step (seq t) (slice t)
  /-- src/seq/mod.rs:159-167 `into_iter` -/
  | seqIntoIter : Step (seq t) (iter t)
  /-- src/seq/mod.rs:169-177 `into_iter` of references -/
  | seqIter : Step (seq t) (iter t)
  /-- src/seq/fix.rs:119-123 `From<FixSeq<T, N>> for Vec<T>` (`vectorize`, 37-39 and 50-52) -/
  | fixToVec : Step (fixSeq n t) (vec t)
  /-- src/seq/fix.rs:125-134 `into_iter` -/
  | fixIntoIter : Step (fixSeq n t) (iter t)
  /-- src/seq/fix.rs:136-144 `into_iter` of references -/
  | fixIter : Step (fixSeq n t) (iter t)
  /-- src/seq/fix.rs:198-204 `Deref` -/
  | fixDeref : Step (fixSeq n t) (slice t)
  /-- src/seq/lim.rs:63-72 `into_vec` -/
  | limIntoVec : Step (limSeq n t) (vec t)
  /-- src/seq/lim.rs:153-157 `From<LimSeq<T, N>> for Vec<T>` -/
  | limToVec : Step (limSeq n t) (vec t)
  /-- src/seq/lim.rs:159-168 `into_iter` -/
  | limIntoIter : Step (limSeq n t) (iter t)
  /-- src/seq/lim.rs:170-178 `into_iter` of references -/
  | limIter : Step (limSeq n t) (iter t)
  /-- src/seq/lim.rs:232-238 `Deref` -/
  | limDeref : Step (limSeq n t) (slice t)

/-- What they do. -/
def Step.run {α : Type} : {s t : Ty} → Step s t → s.Val α → t.Val α
  | _, _, boxNew, x | _, _, unbox, x => x
  | _, _, autoboxNew, x => ⟨x⟩
  | _, _, autoboxFrom, x => ⟨x⟩
  | _, _, autoboxFromBoxed, b => ⟨b⟩
  | _, _, autoboxFromBox, b => ⟨b⟩
  | _, _, autoboxIntoBox, x => x.box
  | _, _, autoboxIntoInner, x => x.box
  | _, _, autoboxAsInner, x => x.box
  | _, _, autoboxAsRef, x => x.box
  | _, _, autoboxAsBox, x => x.box
  | _, _, autoboxClone, x => ⟨x.box⟩
  | _, _, dynamicNew _, x => ⟨x⟩
  | _, _, dynamicFrom _, x => ⟨x⟩
  | _, _, dynamicIntoInner, x => x.contents
  | _, _, dynamicBorrow, x => x.contents
  | _, _, dynamicAsRef, x => x.contents
  | _, _, paddedNew _, x => ⟨x⟩
  | _, _, paddedWith _, x => ⟨x⟩
  | _, _, paddedFrom _, x => ⟨x⟩
  | _, _, paddedIntoInner, x => x.val
  | _, _, paddedAsInner, x => x.val
  | _, _, vpaddedNew _, x => ⟨x⟩
  | _, _, vpaddedFrom _, x => ⟨x⟩
  | _, _, vpaddedIntoInner, x => x.val
  | _, _, nullableIntoInner, x => x.opt
  | _, _, nullableAsInner, x => x.opt
  | _, _, nullableToOption, x => x.opt
  | _, _, nullableFromOption, x => ⟨x⟩
  | _, _, nullableFrom, x => ⟨some x⟩
  | _, _, vecAsSlice, x | _, _, sliceToVec, x | _, _, sliceIter, x | _, _, iterCollect, x => x
  | _, _, seqFromVec, x => ⟨x⟩
  | _, _, seqFrom, x => ⟨x⟩
  | _, _, seqFromIter, x => ⟨x⟩
  | _, _, seqIntoInner, x => x.vec
  | _, _, seqToVec, x => x.vec
  | _, _, seqAsSlice, x => x.vec
  | _, _, seqAsRef, x => x.vec
  | _, _, seqDeref, x => x.vec
  | _, _, seqIntoIter, x => x.vec
  | _, _, seqIter, x => x.vec
  | _, _, fixToVec, x => x.inner
  | _, _, fixIntoIter, x => x.inner
  | _, _, fixIter, x => x.inner
  | _, _, fixDeref, x => x.inner
  | _, _, limIntoVec, x => x.inner
  | _, _, limToVec, x => x.inner
  | _, _, limIntoIter, x => x.inner
  | _, _, limIter, x => x.inner
  | _, _, limDeref, x => x.inner

/-- Mutable references to what is wrapped. -/
inductive View : Ty → Ty → Type where
  /-- `&mut *b` -/
  | boxMut : View (box t) t
  /-- src/autobox.rs:143-145 `as_mut_boxed` -/
  | autoboxBoxed : View (autobox t) (box t)
  /-- src/autobox.rs:160-162 `as_mut_inner`, 222-226 `AsMut<T>` -/
  | autoboxInner : View (autobox t) t
  /-- src/dynamic.rs:196-200 `AsMut<T>` -/
  | dynamicMut : View (dynamic S t) t
  /-- src/schema.rs:161-163 `as_mut_inner` -/
  | paddedMut : View (padded n t) t
  /-- src/schema.rs:282-284 `as_mut_inner` -/
  | nullableMut : View (nullable t) (option t)
  /-- src/seq/mod.rs:111-113 `as_mut_slice`, 139-143 `AsMut<[T]>`, 153-157 `DerefMut`, 179-187 `into_iter` of mutable references (the
  number of elements stays the same, which is not needed here) -/
  | seqSlice : View (seq t) (slice t)
  /-- src/seq/fix.rs:206-210 `DerefMut` -/
  | fixSlice : View (fixSeq n t) (slice t)
  /-- src/seq/lim.rs:240-244 `DerefMut` -/
  | limSlice : View (limSeq n t) (slice t)

/-- What they read, and what has become of the whole when `f` was written through them. -/
def View.modify {α : Type} : {s t : Ty} → View s t → (t.Val α → t.Val α) → s.Val α → s.Val α
  | _, _, boxMut, f, x => f x
  | _, _, autoboxBoxed, f, x => { x with box := f x.box }
  | _, _, autoboxInner, f, x => { x with box := f x.box }
  | _, _, dynamicMut, f, x => { x with contents := f x.contents }
  | _, _, paddedMut, f, x => { x with val := f x.val }
  | _, _, nullableMut, f, x => { x with opt := f x.opt }
  | _, _, seqSlice, f, x => { x with vec := f x.vec }
  | _, _, fixSlice, f, x => { x with inner := f x.inner }
  | _, _, limSlice, f, x => { x with inner := f x.inner }

/-- Any number of calls in a row. -/
inductive Path : Ty → Ty → Type where
  | nil : Path t t
  | cons (s : Step a b) (p : Path b c) : Path a c

def Path.run {α : Type} : {s t : Ty} → Path s t → s.Val α → t.Val α
  | _, _, nil, x => x
  | _, _, cons s p, x => p.run (s.run x)

/-- src/schema.rs:255-257 `is_some` -/
def Nullable.isSome {α : Type} (x : Nullable α) : Bool := x.opt.isSome

/-- src/schema.rs:262-264 `is_none` -/
def Nullable.isNone {α : Type} (x : Nullable α) : Bool := x.opt.isNone

/-- src/schema.rs:287-292 `default` -/
def Nullable.default {α : Type} : Nullable α := ⟨none⟩

/-- src/schema.rs:171-173 `padding`, 125 `PADDING` -/
def Padded.padding {n : Nat} {α : Type} (_ : Padded n α) : Nat := n

/-- src/seq/mod.rs:86-88 `new`, 127-131 `default` -/
def Sequence.new {α : Type} : Sequence α := ⟨[]⟩

/-- src/seq/mod.rs:195-199 `extend` -/
def Sequence.extend {α : Type} (x : Sequence α) (more : List α) : Sequence α := ⟨x.vec ++ more⟩

/-- src/seq/mod.rs:116-125 `Index`, for a single index; `none` is a panic -/
def Sequence.index {α : Type} (x : Sequence α) (i : Nat) : Option α := x.vec[i]?

end Verif.Wrappers
