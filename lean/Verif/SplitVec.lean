import Verif.Basic
/-
Model of src/internal/splitvec.rs: `SpanBuffer`, `SplitVec<T>` and the iterator `Spans`.

Simplification: span lengths and their sums are `Nat`; they count elements held in memory, so the
`usize` additions of the source cannot overflow (element types of size zero aside).
-/
namespace Verif

/-- src/internal/splitvec.rs:60-80 `SpanBuffer`. -/
structure SpanBuffer where
  stable : List Nat
  active : Option Nat
  cache : Nat
  deriving DecidableEq, Repr

namespace SpanBuffer

/-- src/internal/splitvec.rs:80-86 `new`. -/
def new : SpanBuffer := { stable := [], active := none, cache := 0 }

/-- `*active_mut() = n` (src/internal/splitvec.rs:104-108, as used by `from_vec`). -/
def setActive (s : SpanBuffer) (n : Nat) : SpanBuffer := { s with active := some n }

/-- `*active_mut() += n` (src/internal/splitvec.rs:104-108 `get_or_insert(0)`, as used by `increment`). -/
def addActive (s : SpanBuffer) (n : Nat) : SpanBuffer := { s with active := some (s.active.getD 0 + n) }

/-- src/internal/splitvec.rs:116-121 `flush`. -/
def flush (s : SpanBuffer) : SpanBuffer :=
  match s.active with
  | some last => { stable := s.stable ++ [last], active := none, cache := s.cache + last }
  | none => s

/-- src/internal/splitvec.rs:129-133 `flush_force`. -/
def flushForce (s : SpanBuffer) : SpanBuffer :=
  let frozen := s.active.getD 0
  { stable := s.stable ++ [frozen], active := none, cache := s.cache + frozen }

/-- src/internal/splitvec.rs:143-145 `sum`. -/
def sum (s : SpanBuffer) : Nat := s.cache + s.active.getD 0

/-- src/internal/splitvec.rs:155-159 `check_sum` (answer, new state). -/
def checkSum (s : SpanBuffer) : Bool × SpanBuffer :=
  let recache := s.stable.sum
  (s.cache == recache, { s with cache := recache })

/-- src/internal/splitvec.rs:173-179 `append`; returns the new `self` and the new `other`. -/
def append (s other : SpanBuffer) : SpanBuffer × SpanBuffer :=
  let s := s.flush
  -- stable.append(&mut other.stable); swap(active, other.active); cache += take(other.cache)
  ({ stable := s.stable ++ other.stable, active := other.active, cache := s.cache + other.cache },
   { stable := [], active := s.active, cache := 0 })

/-- src/internal/splitvec.rs:190-192 `iter`: stable spans, then the active one. -/
def iter (s : SpanBuffer) : List Nat := s.stable ++ s.active.toList

/-- src/internal/splitvec.rs:219-228 `unfreeze` (feature `unfreeze_spanbuffer`); `none` is a failed
`assert!`.  The cache is not adjusted. -/
def unfreeze (s : SpanBuffer) : Option SpanBuffer :=
  match s.active, s.stable.getLast? with
  | none, some last => some { s with stable := s.stable.dropLast, active := some last }
  | _, _ => none

/-- src/internal/splitvec.rs:242-244 `is_empty`. -/
def isEmpty (s : SpanBuffer) : Bool := s.stable.isEmpty && s.active.isNone

/-- src/internal/splitvec.rs:262-264 `count_spans`. -/
def countSpans (s : SpanBuffer) : Nat := s.stable.length + (if s.active.isSome then 1 else 0)

/-- src/internal/splitvec.rs:285-287 `is_contiguous`. -/
def isContiguous (s : SpanBuffer) : Bool :=
  match s.stable.length, s.active with
  | 0, _ => true
  | 1, none => true
  | _, _ => false

/-- src/internal/splitvec.rs:294-302 `into_vec`. -/
def intoVec (s : SpanBuffer) : List Nat :=
  match s.active with
  | none => s.stable
  | some last => s.stable ++ [last]

/-- The iterators over the spans, src/internal/splitvec.rs:326-346 `Iter`, :349-371 `IntoIter`: the standard library's
`Chain` of the stable spans and the active one; a half that is used up is dropped. -/
structure Iter where
  a : Option (List Nat)
  b : Option (Option Nat)
  deriving DecidableEq, Repr

/-- src/internal/splitvec.rs:190-192 `iter`, :373-390 and :392-409 `into_iter`. -/
def intoIter (s : SpanBuffer) : Iter := { a := some s.stable, b := some s.active }

namespace Iter

/-- src/internal/splitvec.rs:336-338, :361-363 `next` (`Chain::next`). -/
def next (i : Iter) : Option Nat × Iter :=
  match i.a with
  | some (x :: xs) => (some x, { i with a := some xs })
  | _ =>
    match i.b with
    | some o => (o, { a := none, b := some none })
    | none => (none, { a := none, b := none })

/-- src/internal/splitvec.rs:343-345, :368-370 `next_back` (`Chain::next_back`). -/
def nextBack (i : Iter) : Option Nat × Iter :=
  match i.b with
  | some (some x) => (some x, { i with b := some none })
  | _ =>
    match i.a with
    | some xs => (xs.getLast?, { a := some xs.dropLast, b := none })
    | none => (none, { a := none, b := none })

end Iter

end SpanBuffer

/-- src/internal/splitvec.rs:430-433 `SplitVec<T>`. -/
structure SplitVec (α : Type) where
  buffer : List α
  spans : SpanBuffer
  deriving DecidableEq, Repr

namespace SplitVec

variable {α : Type}

/-- src/internal/splitvec.rs:461-466 `new`. -/
def new : SplitVec α := { buffer := [], spans := .new }

/-- src/internal/splitvec.rs:476-480 `from_vec`. -/
def fromVec (buffer : List α) : SplitVec α := { buffer, spans := SpanBuffer.new.setActive buffer.length }

/-- src/internal/splitvec.rs:494-496 `split`. -/
def split (s : SplitVec α) : SplitVec α := { s with spans := s.spans.flush }

/-- src/internal/splitvec.rs:504-506 `split_force`. -/
def splitForce (s : SplitVec α) : SplitVec α := { s with spans := s.spans.flushForce }

/-- src/internal/splitvec.rs:514-517 `cleave`. -/
def cleave (s : SplitVec α) : SplitVec α := { s with spans := s.spans.flush.flushForce }

/-- src/internal/splitvec.rs:525-527 `is_balanced`. -/
def isBalanced (s : SplitVec α) : Bool := s.buffer.length == s.spans.sum

/-- src/internal/splitvec.rs:534-536 `increment`. -/
def increment (s : SplitVec α) (n : Nat) : SplitVec α := { s with spans := s.spans.addActive n }

/-- src/internal/splitvec.rs:554-557 `push_current`. -/
def pushCurrent (s : SplitVec α) (x : α) : SplitVec α := { s with buffer := s.buffer ++ [x] }.increment 1

/-- src/internal/splitvec.rs:574-579 `extend_current`; the iterator is the list of its items. -/
def extendCurrent (s : SplitVec α) (xs : List α) : SplitVec α :=
  let lBefore := s.buffer.length
  let s := { s with buffer := s.buffer ++ xs }
  let lAfter := s.buffer.length
  s.increment (lAfter - lBefore)

/-- src/internal/splitvec.rs:601-608 `extend_current_from_slice`. -/
def extendCurrentFromSlice (s : SplitVec α) (xs : List α) : SplitVec α :=
  { s with buffer := s.buffer ++ xs }.increment xs.length

/-- src/internal/splitvec.rs:636-640 `append_current`; `other` is left empty. -/
def appendCurrent (s : SplitVec α) (other : List α) : SplitVec α × List α :=
  ({ s with buffer := s.buffer ++ other }.increment other.length, [])

/-- src/internal/splitvec.rs:650-656 `concat`; returns new `self` and new `other`; `none` is a failed
`debug_assert!`. -/
def concat (p : Profile) (s other : SplitVec α) : Option (SplitVec α × SplitVec α) :=
  if p = .debug ∧ ¬(s.isBalanced ∧ other.isBalanced) then none
  else
    let r := s.spans.append other.spans
    some ({ buffer := s.buffer ++ other.buffer, spans := r.1 }, { buffer := [], spans := r.2 })

/-- src/internal/splitvec.rs:663-665 `into_inner`. -/
def intoInner (s : SplitVec α) : List α := s.buffer

/-- src/internal/splitvec.rs:690-692 `len`. -/
def len (s : SplitVec α) : Nat := s.buffer.length

/-- src/internal/splitvec.rs:709-711 `is_empty`. -/
def isEmpty (s : SplitVec α) : Bool := s.buffer.isEmpty && s.spans.isEmpty

/-- src/internal/splitvec.rs:737-739 `is_contiguous`. -/
def isContiguous (s : SplitVec α) : Bool := s.spans.isContiguous

/-- src/internal/splitvec.rs:743-745 `into_parts`. -/
def intoParts (s : SplitVec α) : List α × List Nat := (s.buffer, s.spans.intoVec)

/-- src/internal/splitvec.rs:794-805 `Extend::extend`. -/
def extend (s : SplitVec α) (spans : List (List α)) : SplitVec α :=
  (spans.foldl (fun s span => s.split.extendCurrent span) s).split

/-- src/internal/splitvec.rs:807-819 `FromIterator::from_iter`. -/
def fromIter (spans : List (List α)) : SplitVec α :=
  spans.foldl (fun ret span => (ret.extendCurrent span).split) .new

/-- Render with the slices `&buf[ix..ix + l]` of all spans (loops of `Display`, src/internal/splitvec.rs:778-792,
and – with the remaining slice instead of an index – `Debug`, :766-776); `none` is an out-of-range slice. -/
def renderGo (f : List α → String) : List α → List Nat → Option String
  | _, [] => some "]"
  | buf, l :: ls =>
    if l ≤ buf.length then (renderGo f (buf.drop l) ls).map (fun r => f (buf.take l) ++ "|" ++ r) else none

/-- `write!("[|")`, the spans, `write!("]")`. -/
def render (f : List α → String) (s : SplitVec α) : Option String :=
  (renderGo f s.buffer s.spans.iter).map ("[|" ++ ·)

end SplitVec

/-- src/internal/splitvec.rs:822-826 `Spans`. -/
structure Spans (α : Type) where
  buf : List α
  lens : List Nat
  deriving DecidableEq, Repr

/-- src/internal/splitvec.rs:672-677 `SplitVec::spans`. -/
def SplitVec.iterSpans {α : Type} (s : SplitVec α) : Spans α := { buf := s.buffer, lens := s.spans.iter }

namespace Spans

variable {α : Type}

/-- src/internal/splitvec.rs:842-857 `next`; the outer `none` is a panic (`debug_assert!` or `split_at`). -/
def next (p : Profile) (s : Spans α) : Option (Option (List α) × Spans α) :=
  match s.lens with
  | [] => if p = .debug ∧ s.buf ≠ [] then none else some (none, s)
  | len :: lens =>
    if len ≤ s.buf.length then some (some (s.buf.take len), { buf := s.buf.drop len, lens }) else none

/-- src/internal/splitvec.rs:872-889 `next_back`. -/
def nextBack (p : Profile) (s : Spans α) : Option (Option (List α) × Spans α) :=
  match s.lens.getLast? with
  | none => if p = .debug ∧ s.buf ≠ [] then none else some (none, s)
  | some len =>
    if len ≤ s.buf.length then
      let mid := s.buf.length - len
      some (some (s.buf.drop mid), { buf := s.buf.take mid, lens := s.lens.dropLast })
    else none

end Spans

end Verif
