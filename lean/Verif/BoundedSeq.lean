import Verif.Errors
/-
Construction and mutation of `FixSeq` and `LimSeq` (src/seq/fix.rs, src/seq/lim.rs,
src/seq/boundedseq_impl.rs).  A bounded sequence is its list of elements.  The features
`arrayvec_fixseq` and `arrayvec_limseq` change the storage; Verif/Storage.lean has the functions with the storage in view.
-/
namespace Verif

/-- An iterator: the answers of its `next` calls to come.  An iterator may go on after a `None`; one that does
not is `Iter.ofList`. -/
def Iter (α : Type) : Type := Nat → Option α

namespace Iter

variable {α : Type}

/-- The iterator over a list (`vec.into_iter()`), which keeps answering `None` at the end. -/
def ofList (xs : List α) : Iter α := fun i => xs[i]?

/-- The iterator after `n` more calls. -/
def skip (it : Iter α) (n : Nat) : Iter α := fun i => it (n + i)

/-- `Iterator::nth(n)`: `next` is called until it has answered `None` or `n + 1` times; the last answer and
the iterator afterwards. -/
def nth : Nat → Iter α → Option α × Iter α
  | 0, it => (it 0, it.skip 1)
  | n + 1, it => match it 0 with
    | some _ => nth n (it.skip 1)
    | none => (none, it.skip 1)

/-- `it.take(n).collect()` (or extending a collection by `it.take(n)`): the answers up to the first `None`, at
most `n`. -/
def takeCollect : Nat → Iter α → List α
  | 0, _ => []
  | n + 1, it => match it 0 with
    | some x => x :: takeCollect n (it.skip 1)
    | none => []

end Iter

namespace BoundedSeq

variable {α : Type}

/-- src/seq/fix.rs `new`, src/seq/lim.rs `new`, `default`. -/
def new : List α := []

/-- src/seq/boundedseq_impl.rs:47-59 `try_push`; on failure the sequence is unchanged. -/
def tryPush (n : Nat) (xs : List α) (x : α) : Except LengthError (List α) :=
  if xs.length < n then .ok (xs ++ [x]) else .error (.tooLong n (n + 1))

/-- src/seq/fix.rs:186-195, src/seq/lim.rs:220-229 `FromIterator::from_iter`; `none` is the panic. -/
def fromIter (n : Nat) (it : Iter α) : Option (List α) :=
  match it.nth n with
  | (some _, _) => none
  | (none, it) => some (it.takeCollect n)

/-- src/seq/fix.rs:160-174, src/seq/lim.rs:194-208 `Extend::extend`; `none` is the panic (which comes before the
sequence is changed). -/
def extend (n : Nat) (xs : List α) (it : Iter α) : Option (List α) :=
  if n < xs.length then none
  else match it.nth (n - xs.length) with
    | (some _, _) => none
    | (none, it) => some (xs ++ it.takeCollect (n - xs.length))

/-- src/seq/fix.rs:229-238 `FixSeq: TryFrom<&[T]>`. -/
def fixTryFromSlice (n : Nat) (xs : List α) : Except LengthError (List α) :=
  if n ≠ xs.length then .error (.wrongLength n xs.length) else .ok xs

/-- src/seq/fix.rs:244-253 `FixSeq: TryFrom<Vec<T>>`. -/
def fixTryFromVec (n : Nat) (xs : List α) : Except LengthError (List α) :=
  if n < xs.length then .error (.tooLong n xs.length) else .ok xs

/-- src/seq/lim.rs:252-261, 267-276 `LimSeq: TryFrom<&[T]>`, `TryFrom<Vec<T>>`. -/
def limTryFrom (n : Nat) (xs : List α) : Except LengthError (List α) :=
  if n < xs.length then .error (.tooLong n xs.length) else .ok xs

/-- src/seq/lim.rs:112-118 `LimSeq::from_vec`; `none` is the failed assertion. -/
def limFromVec (n : Nat) (xs : List α) : Option (List α) := if xs.length ≤ n then some xs else none

/-- `seq[i] = x` through `DerefMut` (src/seq/fix.rs:206-210, src/seq/lim.rs:240-244); `none` is the panic of an
index out of range.  The slice that `DerefMut` hands out cannot change its length. -/
def set (xs : List α) (i : Nat) (x : α) : Option (List α) := if i < xs.length then some (xs.set i x) else none

/-- Mutations. -/
inductive Op (α : Type) where
  | tryPush (x : α)
  | extend (it : Iter α)
  | set (i : Nat) (x : α)

/-- A mutation; where it panics or fails, the sequence is as before. -/
def Op.run (n : Nat) (xs : List α) : Op α → List α
  | .tryPush x => match BoundedSeq.tryPush n xs x with
    | .ok xs => xs
    | .error _ => xs
  | .extend it => (BoundedSeq.extend n xs it).getD xs
  | .set i x => (BoundedSeq.set xs i x).getD xs

/-- Constructors of `FixSeq<T, N>`. -/
inductive FixInit (α : Type) where
  | new
  | fromIter (it : Iter α)
  | fromSlice (xs : List α)
  | fromVec (xs : List α)

def FixInit.run (n : Nat) : FixInit α → Option (List α)
  | .new => some BoundedSeq.new
  | .fromIter it => BoundedSeq.fromIter n it
  | .fromSlice xs => (fixTryFromSlice n xs).toOption
  | .fromVec xs => (fixTryFromVec n xs).toOption

/-- Constructors of `LimSeq<T, N>` (the unsafe `from_vec_unchecked` is not among them). -/
inductive LimInit (α : Type) where
  | new
  | fromIter (it : Iter α)
  | tryFrom (xs : List α)
  | fromVec (xs : List α)

def LimInit.run (n : Nat) : LimInit α → Option (List α)
  | .new => some BoundedSeq.new
  | .fromIter it => BoundedSeq.fromIter n it
  | .tryFrom xs => (limTryFrom n xs).toOption
  | .fromVec xs => limFromVec n xs

end BoundedSeq

end Verif
