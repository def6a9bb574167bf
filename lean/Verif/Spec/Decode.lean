import Verif.Errors
import Verif.Spec.Cursor
/-
SPECIFICATION language for decoders: functions from the readable bytes to a value and the unread rest.
There is no parser and no state here.  Window management appears only as `D.window`.
-/
namespace Verif

/-- What decoding yields.  Errors are given up to `ParseError.kind` (positions are forgotten).
`wild` makes no promise at all (only used for requests of more than `isize::MAX + 1` bytes, which a release build
cannot tell apart from small ones). -/
inductive DecRes (α : Type) where
  | ok (a : α) (rest : Bytes)
  | err (e : ParseError)
  | panic
  | diverge
  | wild
  deriving Repr

instance {α : Type} [DecidableEq α] : DecidableEq (DecRes α) := fun x y => by
  cases x <;> cases y <;> first
    | (apply isFalse; intro h; cases h; done)
    | (apply isTrue; rfl; done)
    | (rename_i a b c d; exact
        if h : a = c ∧ b = d then isTrue (by rw [h.1, h.2]) else isFalse (by intro h'; cases h'; exact h ⟨rfl, rfl⟩))
    | (rename_i a b; exact if h : a = b then isTrue (by rw [h]) else isFalse (by intro h'; cases h'; exact h rfl))

namespace DecRes

variable {α β : Type}

def bind (x : DecRes α) (f : α → Bytes → DecRes β) : DecRes β :=
  match x with
  | .ok a rest => f a rest
  | .err e => .err e
  | .panic => .panic
  | .diverge => .diverge
  | .wild => .wild

def map (f : α → β) (x : DecRes α) : DecRes β := x.bind fun a rest => .ok (f a) rest

@[simp] theorem bind_ok (a : α) (r : Bytes) (f : α → Bytes → DecRes β) : bind (.ok a r) f = f a r := rfl
@[simp] theorem bind_err (e : ParseError) (f : α → Bytes → DecRes β) : bind (.err e) f = .err e := rfl
@[simp] theorem bind_panic (f : α → Bytes → DecRes β) : bind .panic f = .panic := rfl
@[simp] theorem bind_diverge (f : α → Bytes → DecRes β) : bind .diverge f = .diverge := rfl
@[simp] theorem bind_wild (f : α → Bytes → DecRes β) : bind .wild f = .wild := rfl

end DecRes

/-- Pure decoders. -/
def D (α : Type) : Type := Bytes → DecRes α

namespace D

variable {α β : Type}

protected def pure (a : α) : D α := fun v => .ok a v
protected def bind (d : D α) (f : α → D β) : D β := fun v => (d v).bind fun a rest => f a rest

instance : Monad D where
  pure := D.pure
  bind := D.bind

def throw (e : ParseError) : D α := fun _ => .err e
def panic : D α := fun _ => .panic

@[simp] theorem pure_run (a : α) (v : Bytes) : (pure a : D α) v = .ok a v := rfl
@[simp] theorem bind_run (d : D α) (f : α → D β) (v : Bytes) : (d >>= f) v = (d v).bind fun a rest => f a rest := rfl
@[simp] theorem map_run (d : D α) (f : α → β) (v : Bytes) : (f <$> d) v = (d v).bind fun a rest => .ok (f a) rest := rfl
@[simp] theorem throw_run (e : ParseError) (v : Bytes) : (throw e : D α) v = .err e := rfl
@[simp] theorem panic_run (v : Bytes) : (panic : D α) v = .panic := rfl

/-- A request for `n` bytes that are not there: an error (class: short read of `n` bytes). -/
def short (e : ParseError) (n : Nat) : DecRes α := if n ≤ isizeMax + 1 then .err e else .wild

/-- The error class of a failed read of `n` bytes when there are `avail`. -/
def shortErr (n avail : Nat) : ParseError := .window (.consumeWouldExceedLimit 0 n avail)

/-- Exactly the next `n` bytes. -/
def take (n : Nat) : D Bytes := fun v =>
  if n ≤ v.length then .ok (v.take n) (v.drop n) else short (shortErr n v.length) n

/-- The next byte. -/
def byte : D Byte := fun v =>
  match v with
  | b :: rest => .ok b rest
  | [] => .err (shortErr 1 0)

/-- All readable bytes. -/
def rest : D Bytes := fun v => .ok v []

/-- Decide on whether anything is left to read. -/
def ifEmpty (d e : D α) : D α := fun v => if v = [] then d v else e v

/-- Run `d` on exactly the next `n` bytes; it has to use all of them. -/
def window (n : Nat) (d : D α) : D α := fun v =>
  if n ≤ v.length then
    (d (v.take n)).bind fun a left =>
      if left = [] then .ok a (v.drop n) else .err (.window (.closeWithResidue left.length))
  else short Cursor.openErr n

/-- The shortest prefix ending in a byte that satisfies `f`. -/
def until' (f : Byte → Bool) : Bytes → Bytes → DecRes Bytes
  | acc, [] => .err (.token (.nonTerminating acc))
  | acc, b :: v => if f b then .ok (acc ++ [b]) v else until' f (acc ++ [b]) v

def until_ (f : Byte → Bool) : D Bytes := fun v => until' f [] v

/-- As many `d` as fit the readable bytes. A `d` that uses nothing on non-empty input never gets anywhere. -/
def many (d : D α) (v : Bytes) : DecRes (List α) :=
  if v = [] then .ok [] [] else
    match d v with
    | .ok a rest =>
      if rest.length < v.length then (many d rest).map (a :: ·)
      else if rest = v then .diverge else .wild
    | .err e => .err e
    | .panic => .panic
    | .diverge => .diverge
    | .wild => .wild
  termination_by v.length

/-- As many `d` as fit the readable bytes, but fail with `e` when there is one after the `k`-th. -/
def manyMax (e : ParseError) (d : D α) : Nat → D (List α)
  | 0 => ifEmpty (pure []) (do let _ ← d; throw e)
  | k + 1 => ifEmpty (pure []) (do let a ← d; let as ← manyMax e d k; pure (a :: as))

/-- Up to `k` times `d`, stopping early only when there is nothing left to read. -/
def upTo (d : D α) : Nat → D (List α)
  | 0 => pure []
  | k + 1 => ifEmpty (pure []) (do let a ← d; let as ← upTo d k; pure (a :: as))

end D

end Verif
