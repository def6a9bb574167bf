import Verif.BoundedSeq
import Verif.ByteParser
import Verif.Codec.Comb
/-
`FixSeq` and `LimSeq` with their storage in view (src/seq/fix.rs, src/seq/lim.rs, src/seq/boundedseq_impl.rs): a `Vec<T>`, or
with the features `arrayvec_fixseq` and `arrayvec_limseq` an `ArrayVec<T, N>`.  The crate `arrayvec` (0.7.2) is not part of
/repo; the operations used here are modelled after its documentation.
-/
namespace Verif

/-- `ArrayVec<T, CAP>`: `CAP` slots, of which the first `len` are initialized. -/
structure ArrayVec (α : Type) where
  slots : List (Option α)
  len : Nat

namespace ArrayVec

variable {α : Type}

/-- `ArrayVec::new`, which panics if the capacity is no `u32`. -/
def new (cap : Nat) : ReadRes (ArrayVec α) := if cap < 2 ^ 32 then .val ⟨List.replicate cap none, 0⟩ else .panic

/-- `ArrayVec::push_unchecked`: undefined if there is no room. -/
def pushUnchecked (v : ArrayVec α) (x : α) : ReadRes (ArrayVec α) :=
  if v.len < v.slots.length then .val ⟨v.slots.set v.len (some x), v.len + 1⟩ else .ub

/-- Reading the first `k` slots, which is undefined beyond the array or where nothing has been written. -/
def readSlots : Nat → List (Option α) → ReadRes (List α)
  | 0, _ => .val []
  | k + 1, some x :: slots => match readSlots k slots with
    | .val xs => .val (x :: xs)
    | .panic => .panic
    | .ub => .ub
  | _ + 1, _ => .ub

/-- `ArrayVec::deref`, also what `into_iter` yields. -/
def deref (v : ArrayVec α) : ReadRes (List α) := readSlots v.len v.slots

/-- `ArrayVec::extend` by the given elements: panics as soon as there is no room. -/
def extend : List α → ArrayVec α → ReadRes (ArrayVec α)
  | [], v => .val v
  | x :: xs, v => if v.len < v.slots.length then extend xs ⟨v.slots.set v.len (some x), v.len + 1⟩ else .panic

/-- `ArrayVec::try_from(slice).unwrap()`. -/
def tryFromSliceUnwrap (cap : Nat) (xs : List α) : ReadRes (ArrayVec α) :=
  if cap < xs.length then .panic
  else match new cap with
    | .val v => extend xs v
    | .panic => .panic
    | .ub => .ub

/-- `iter.collect::<ArrayVec<_, CAP>>()`. -/
def collect (cap : Nat) (xs : List α) : ReadRes (ArrayVec α) :=
  match new cap with
  | .val v => extend xs v
  | .panic => .panic
  | .ub => .ub

/-- Assignment through `deref_mut` at an index within the length. -/
def set (v : ArrayVec α) (i : Nat) (x : α) : ReadRes (ArrayVec α) :=
  if i < v.len then
    if i < v.slots.length then .val { v with slots := v.slots.set i (some x) } else .ub
  else .panic

end ArrayVec

namespace ReadRes

def bind {α β : Type} : ReadRes α → (α → ReadRes β) → ReadRes β
  | .val a, f => f a
  | .panic, _ => .panic
  | .ub, _ => .ub

end ReadRes

/-- What `FixSeq` and `LimSeq` ask of `Inner<T, N>` (src/seq/fix.rs:27-59, src/seq/lim.rs:19-41). -/
structure Storage (α S : Type) where
  /-- is this `arrayvec_…`? (asked by `extend`) -/
  isArray : Bool
  new : ReadRes S
  /-- `self.0.len()` -/
  len : S → Nat
  deref : S → ReadRes (List α)
  pushUnchecked : S → α → ReadRes S
  extend : List α → S → ReadRes S
  fromSlice : List α → ReadRes S
  collect : List α → ReadRes S
  set : S → Nat → α → ReadRes S

namespace Storage

variable {α S : Type}

/-- `Vec<T>`, where a `T` takes `size` bytes of memory.  `Vec::with_capacity(N)`, by which empty sequences are made
(src/seq/fix.rs:86-88, src/seq/lim.rs:142-145), panics if `N` elements would take more than `isize::MAX` bytes; other than
that, allocation is assumed to succeed. -/
def vec (α : Type) (size n : Nat) : Storage α (List α) where
  isArray := false
  new := if n * size ≤ isizeMax then .val [] else .panic
  len := List.length
  deref v := .val v
  pushUnchecked v x := .val (v ++ [x])
  extend xs v := .val (v ++ xs)
  fromSlice xs := .val xs
  collect xs := .val xs
  set v i x := if i < v.length then .val (v.set i x) else .panic

/-- `ArrayVec<T, N>`. -/
def array (α : Type) (n : Nat) : Storage α (ArrayVec α) where
  isArray := true
  new := ArrayVec.new n
  len := ArrayVec.len
  deref := ArrayVec.deref
  pushUnchecked := ArrayVec.pushUnchecked
  extend := ArrayVec.extend
  fromSlice := ArrayVec.tryFromSliceUnwrap n
  collect := ArrayVec.collect n
  set := ArrayVec.set

/-- src/seq/boundedseq_impl.rs:47-59 `try_push`. -/
def tryPush (I : Storage α S) (n : Nat) (v : S) (x : α) : ReadRes (Except LengthError S) :=
  if I.len v < n then (I.pushUnchecked v x).bind fun v => .val (.ok v) else .val (.error (.tooLong n (n + 1)))

/-- src/seq/fix.rs:160-174, src/seq/lim.rs:194-208 `extend`.  The difference `N - self.len()` of the array variant wraps or
panics, depending on the profile, if it is negative. -/
def extendBy (I : Storage α S) (p : Profile) (n : Nat) (v : S) (it : Iter α) : ReadRes S :=
  match (if I.isArray then usub p n (I.len v) else if I.len v ≤ n then some (n - I.len v) else none) with
  | none => .panic
  | some rem => match it.nth rem with
    | (some _, _) => .panic
    | (none, it) => (I.extend (it.takeCollect rem) v).bind fun v =>
      if p = .debug ∧ n < I.len v then .panic else .val v

/-- src/seq/fix.rs:186-195, src/seq/lim.rs:220-229 `from_iter`. -/
def fromIter (I : Storage α S) (p : Profile) (n : Nat) (it : Iter α) : ReadRes S :=
  match it.nth n with
  | (some _, _) => .panic
  | (none, it) => (I.collect (it.takeCollect n)).bind fun v => if p = .debug ∧ n < I.len v then .panic else .val v

/-- src/seq/fix.rs:229-238 `FixSeq: TryFrom<&[T]>`. -/
def fixTryFromSlice (I : Storage α S) (n : Nat) (xs : List α) : ReadRes (Except LengthError S) :=
  if n ≠ xs.length then .val (.error (.wrongLength n xs.length)) else (I.fromSlice xs).bind fun v => .val (.ok v)

/-- src/seq/fix.rs:244-253 `FixSeq: TryFrom<Vec<T>>`, with `internalize` (src/seq/fix.rs:40-42, 53-55). -/
def fixTryFromVec (I : Storage α S) (n : Nat) (xs : List α) : ReadRes (Except LengthError S) :=
  if n < xs.length then .val (.error (.tooLong n xs.length)) else (I.collect xs).bind fun v => .val (.ok v)

/-- src/seq/lim.rs:252-261 `LimSeq: TryFrom<&[T]>`. -/
def limTryFromSlice (I : Storage α S) (n : Nat) (xs : List α) : ReadRes (Except LengthError S) :=
  if n < xs.length then .val (.error (.tooLong n xs.length)) else (I.fromSlice xs).bind fun v => .val (.ok v)

/-- src/seq/lim.rs:94-103 `from_vec_unchecked`. -/
def limFromVecUnchecked (I : Storage α S) (xs : List α) : ReadRes S := I.collect xs

/-- src/seq/lim.rs:267-276 `LimSeq: TryFrom<Vec<T>>`. -/
def limTryFromVec (I : Storage α S) (n : Nat) (xs : List α) : ReadRes (Except LengthError S) :=
  if n < xs.length then .val (.error (.tooLong n xs.length))
  else (I.limFromVecUnchecked xs).bind fun v => .val (.ok v)

/-- src/seq/lim.rs:110-116 `from_vec`. -/
def limFromVec (I : Storage α S) (n : Nat) (xs : List α) : ReadRes S :=
  if xs.length ≤ n then I.limFromVecUnchecked xs else .panic

/-! ### programs -/

/-- Safe constructors of both types. -/
inductive Init (α : Type) where
  | new
  | fromIter (it : Iter α)
  | fixTryFromSlice (xs : List α)
  | fixTryFromVec (xs : List α)
  | limTryFromSlice (xs : List α)
  | limTryFromVec (xs : List α)
  | limFromVec (xs : List α)

/-- What a caller is told. -/
inductive Answer where
  | done
  | refused (e : LengthError)
  | panicked
  deriving DecidableEq, Repr

def answer (r : ReadRes S) : ReadRes (Answer × Option S) :=
  match r with
  | .val v => .val (.done, some v)
  | .panic => .val (.panicked, none)
  | .ub => .ub

def answerTry (r : ReadRes (Except LengthError S)) : ReadRes (Answer × Option S) :=
  match r with
  | .val (.ok v) => .val (.done, some v)
  | .val (.error e) => .val (.refused e, none)
  | .panic => .val (.panicked, none)
  | .ub => .ub

/-- A constructor, panics being caught. -/
def Init.run (I : Storage α S) (p : Profile) (n : Nat) : Init α → ReadRes (Answer × Option S)
  | .new => answer I.new
  | .fromIter it => answer (I.fromIter p n it)
  | .fixTryFromSlice xs => answerTry (I.fixTryFromSlice n xs)
  | .fixTryFromVec xs => answerTry (I.fixTryFromVec n xs)
  | .limTryFromSlice xs => answerTry (I.limTryFromSlice n xs)
  | .limTryFromVec xs => answerTry (I.limTryFromVec n xs)
  | .limFromVec xs => answer (I.limFromVec n xs)

/-- A mutation, panics being caught; where it fails the sequence stays as it was (all the checks of the two types come before
any change; an `ArrayVec` found to have no room while it is being extended, which is shown not to happen, would keep
some of the elements). -/
def opRun (I : Storage α S) (p : Profile) (n : Nat) (v : S) : BoundedSeq.Op α → ReadRes (Answer × S)
  | .tryPush x => (answerTry (I.tryPush n v x)).bind fun r => .val (r.1, r.2.getD v)
  | .extend it => (answer (I.extendBy p n v it)).bind fun r => .val (r.1, r.2.getD v)
  | .set i x => (answer (I.set v i x)).bind fun r => .val (r.1, r.2.getD v)

/-- Mutations one after the other; after each, the answer, the length and the contents. -/
def runOps (I : Storage α S) (p : Profile) (n : Nat) : List (BoundedSeq.Op α) → S → ReadRes (List (Answer × Nat × List α))
  | [], _ => .val []
  | op :: ops, v => (I.opRun p n v op).bind fun r => (I.deref r.2).bind fun xs => (I.runOps p n ops r.2).bind fun rs =>
    .val ((r.1, I.len r.2, xs) :: rs)

/-- A whole program: construction, and then mutations if there is something to mutate. -/
def run (I : Storage α S) (p : Profile) (n : Nat) (i : Init α) (ops : List (BoundedSeq.Op α)) :
    ReadRes (Answer × Option (List α × List (Answer × Nat × List α))) :=
  (i.run I p n).bind fun r => match r.2 with
    | none => .val (r.1, none)
    | some v => (I.deref v).bind fun xs => (I.runOps p n ops v).bind fun rs => .val (r.1, some (xs, rs))

/-! ### decoding -/

/-- Running something on the storage within a parser. -/
def lift {σ β : Type} : ReadRes β → PM σ β
  | .val b => pure b
  | .panic => fun _ => .panic
  | .ub => fun _ => .ub

/-- `seq.try_push(x)?` -/
def push {σ : Type} (I : Storage α S) (n : Nat) (v : S) (x : α) : PM σ S := do
  match ← lift (I.tryPush n v x) with
  | .ok v => pure v
  | .error e => M.throw (.external (.lengthViolation e))

/-- One round of `while p.remainder() != 0 && seq.len() < N` (src/seq/fix.rs:283-285). -/
def fixBody {σ : Type} (I : Storage α S) (n : Nat) (P : ParserOps σ) (parse : PM σ α) (v : S) : PM σ (S ⊕ S) := do
  let rem ← P.remainder
  if rem ≠ 0 ∧ I.len v < n then do
    let a ← parse
    let v ← I.push n v a
    pure (.inl v)
  else pure (.inr v)

/-- src/seq/fix.rs:280-296 `FixSeq::parse`. -/
noncomputable def fixParse {σ : Type} (I : Storage α S) (n : Nat) (P : ParserOps σ) (parse : PM σ α) : PM σ S := do
  let v ← lift I.new
  let v ← iterM (I.fixBody n P parse) v
  if I.len v = n then pure v else M.throw (.external (.lengthViolation (.wrongLength n (I.len v))))

/-- One round of `while p.remainder() != 0 { seq.try_push(T::parse(p)?)? }` (src/seq/lim.rs:303-305). -/
def limBody {σ : Type} (I : Storage α S) (n : Nat) (P : ParserOps σ) (parse : PM σ α) (v : S) : PM σ (S ⊕ S) := do
  let rem ← P.remainder
  if rem ≠ 0 then do
    let a ← parse
    let v ← I.push n v a
    pure (.inl v)
  else pure (.inr v)

/-- src/seq/lim.rs:300-308 `LimSeq::parse`. -/
noncomputable def limParse {σ : Type} (I : Storage α S) (n : Nat) (P : ParserOps σ) (parse : PM σ α) : PM σ S := do
  let v ← lift I.new
  iterM (I.limBody n P parse) v

end Storage

end Verif
