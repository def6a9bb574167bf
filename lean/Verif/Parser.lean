import Verif.Errors
/-
The `Parser` / `ParserExt` traits (src/parse/mod.rs:82-456) as a record of required methods, and
their provided (default) methods.  `cleanup` is not part of the record: each implementation has its
own and it is only called by `try_decode`; see `Verif/Cleanup.lean`.
-/
namespace Verif

/-- Required methods of `Parser` (src/parse/mod.rs:82-169) and `ParserExt` (402-406), with
`remainder` (109-112), which has a default that `SliceParser` overrides.
All are state transformers because they take `&mut self` (or `&self`: then the state is returned
unchanged, which is proved, not assumed). -/
structure ParserOps (σ : Type) where
  viewLen : σ → Nat
  offset : σ → Nat
  remainder : PM σ Nat
  consumeByte : PM σ Byte
  consume : Nat → PM σ Bytes
  setFit : Nat → PM σ Unit
  testTarget : PM σ Bool
  enforceTarget : PM σ Unit
  skip : Nat → PM σ Nat
  skipExactly : Nat → PM σ Unit

namespace ParserOps

variable {σ : Type} (P : ParserOps σ)

/-- src/parse/mod.rs:181-183 `consume_arr::<N>` with `coerce_slice` (src/parse/error.rs:338-343). -/
def consumeArr (N : Nat) : PM σ Bytes := do
  let bs ← P.consume N
  if bs.length = N then pure bs
  else M.throw (.internal .sliceCoerceFailure)

/-- src/parse/mod.rs:336-338 `take_dynamic`. -/
def takeDynamic (n : Nat) : PM σ Bytes := P.consume n

/-- src/parse/mod.rs:343-345 `take_fixed`. -/
def takeFixed (N : Nat) : PM σ Bytes := P.consumeArr N

/-- src/parse/mod.rs:278-284 `take_bool`. -/
def takeBool : PM σ Bool := do
  let b ← P.consumeByte
  if b = 0xff then pure true
  else if b = 0x00 then pure false
  else M.throw (.token (.invalidBoolean b))

/-- One round of the loop of `take_self_terminating` (src/parse/mod.rs:363-375); the accumulator is
`ret`.  `Err(_)` from `consume_byte` is caught and replaced. -/
def selfTermBody (isTerminal : Byte → Bool) (ret : Bytes) : PM σ (Bytes ⊕ Bytes) := fun s =>
  match P.consumeByte s with
  | .ok byte s' =>
    let ret := ret ++ [byte]
    if isTerminal byte then .ok (.inr ret) s' else .ok (.inl ret) s'
  | .err _ s' => .err (.token (.nonTerminating ret)) s'
  | .panic => .panic
  | .ub => .ub
  | .diverge => .diverge

/-- src/parse/mod.rs:358-376 `take_self_terminating`.  The capacity hint evaluates `remainder()`,
which can panic; `Vec::with_capacity` panics for more than `isize::MAX` bytes.  Failure of a smaller allocation is not
modelled. -/
noncomputable def takeSelfTerminating (isTerminal : Byte → Bool) : PM σ Bytes := do
  let rem ← P.remainder
  if isizeMax < rem then M.panic else iterM (P.selfTermBody isTerminal) []

/-- src/parse/mod.rs:310-328 `take_tagword`, given the parser for the tag type, its width, and a
validator that is a list of tags (all `TagValidator` impls, src/parse/error.rs:579-669, are
membership tests in a collection; `has_valid` is non-emptiness). Tags are their numeric values. -/
def takeTagword (w : TagWidth) (parseTag : PM σ Nat) (valid : List Nat) : PM σ Nat := do
  let actual ← parseTag
  if valid.contains actual then pure actual
  else if !valid.isEmpty then M.throw (.token (.invalidTag w actual (some valid)))
  else M.throw (.internal .noValidTags)

/-- One round of `fast_kv_search` (src/parse/mod.rs:444-454). -/
def kvBody {V : Type} (key : Bytes) (N : Nat) (f : Bytes → V) (_ : Unit) :
    PM σ (Unit ⊕ Option V) := do
  let rem ← P.remainder
  if rem > 0 then do
    let k ← P.consumeArr key.length
    if key = k then do
      let v ← P.consumeArr N
      pure (.inr (some (f v)))
    else do
      P.skipExactly N
      pure (.inl ())
  else pure (.inr none)

/-- src/parse/mod.rs:436-455 `fast_kv_search::<K, V, F, M, N>` (`M` is the length of `key`). -/
noncomputable def fastKvSearch {V : Type} (key : Bytes) (N : Nat) (f : Bytes → V) : PM σ (Option V) :=
  iterM (P.kvBody key N f) ()

/-- `Iterator::next` for parsers (src/parse/mod.rs:674-684): `consume_byte().ok()`. -/
def iterNext : PM σ (Option Byte) := fun s =>
  match P.consumeByte s with
  | .ok b s' => .ok (some b) s'
  | .err _ s' => .ok none s'
  | .panic => .panic
  | .ub => .ub
  | .diverge => .diverge

end ParserOps

end Verif
