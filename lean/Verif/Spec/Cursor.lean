import Verif.Parser
/-
SPECIFICATION of a parser: a windowed cursor.  Nothing here refers to the implementations.

The unread input is cut by the open windows into views: `top` is what may be read now (the unread
part of the innermost open window, or of the whole input when no window is open), and each element of
`outer` is what the next enclosing scope still has to offer once everything inside it is finished.
The unread input is always `top ++ outer.flatten`.
-/
namespace Verif

/-- Operations of the parser API (methods of `Parser`/`ParserExt`). -/
inductive Op where
  | viewLen | offset | remainder
  | consumeByte | consume (n : Nat)
  | setFit (n : Nat) | testTarget | enforceTarget
  | skip (n : Nat) | skipExactly (n : Nat)
  deriving DecidableEq, Repr

/-- The number of bytes an operation insists on (0 when there is none; `skip` clamps its argument). -/
def Op.arg : Op → Nat
  | .consume n | .setFit n | .skipExactly n => n
  | _ => 0

/-- Admissible arguments: any `usize` when overflow is checked (debug); up to `isize::MAX + 1` – more than any
buffer can hold – when arithmetic wraps (release). -/
def Op.Adm (p : Profile) (op : Op) : Prop := p = .debug ∨ op.arg ≤ isizeMax + 1

/-- Successful results. -/
inductive Obs where
  | nat (n : Nat) | byte (b : Byte) | bytes (bs : Bytes) | bool (b : Bool) | unit
  deriving DecidableEq, Repr

/-- What a caller sees of one operation. -/
inductive Res where
  | ok (o : Obs)
  | err (e : ParseError)
  | panic | ub | diverge
  deriving DecidableEq, Repr

namespace ParserOps

variable {σ : Type} (P : ParserOps σ)

/-- Perform one operation of the API. -/
def run : Op → PM σ Obs
  | .viewLen => fun s => .ok (.nat (P.viewLen s)) s
  | .offset => fun s => .ok (.nat (P.offset s)) s
  | .remainder => .nat <$> P.remainder
  | .consumeByte => .byte <$> P.consumeByte
  | .consume n => .bytes <$> P.consume n
  | .setFit n => (fun _ => .unit) <$> P.setFit n
  | .testTarget => .bool <$> P.testTarget
  | .enforceTarget => (fun _ => .unit) <$> P.enforceTarget
  | .skip n => .nat <$> P.skip n
  | .skipExactly n => (fun _ => .unit) <$> P.skipExactly n

/-- Perform a list of operations, also after failures; stop at a panic or worse. -/
def trace : List Op → σ → List Res
  | [], _ => []
  | op :: ops, s =>
    match P.run op s with
    | .ok o s' => .ok o :: trace ops s'
    | .err e s' => .err e :: trace ops s'
    | .panic => [.panic]
    | .ub => [.ub]
    | .diverge => [.diverge]

/-- The state after a list of operations, failed ones included; `none` after a panic or worse. -/
def exec : List Op → σ → Option σ
  | [], s => some s
  | op :: ops, s =>
    match P.run op s with
    | .ok _ s' => exec ops s'
    | .err _ s' => exec ops s'
    | _ => none

end ParserOps

/-- The abstract cursor. -/
structure Cursor where
  pos : Nat
  top : Bytes
  outer : List Bytes
  deriving DecidableEq, Repr

namespace Cursor

def start (input : Bytes) : Cursor := { pos := 0, top := input, outer := [] }

/-- All bytes not yet consumed. -/
def unread (c : Cursor) : Bytes := c.top ++ c.outer.flatten

/-- Move past `n` readable bytes. -/
def adv (c : Cursor) (n : Nat) : Cursor := { c with pos := c.pos + n, top := c.top.drop n }

/-- The error of a read of `n` bytes that are not available. -/
def shortErr (c : Cursor) (n : Nat) : ParseError :=
  .window (.consumeWouldExceedLimit c.pos n (c.pos + c.top.length))

/-- The class of errors of an attempt to open a window that does not fit; the numbers reported with it
are not specified. -/
def openErr : ParseError := .window (.openWouldExceedWindow 0 0)

/-- One operation on the abstract cursor. -/
def step (c : Cursor) : Op → Except ParseError Obs × Cursor
  | .viewLen => (.ok (.nat (c.pos + c.top.length)), c)
  | .offset => (.ok (.nat c.pos), c)
  | .remainder => (.ok (.nat c.top.length), c)
  | .consumeByte =>
    match c.top with
    | b :: _ => (.ok (.byte b), c.adv 1)
    | [] => (.error (c.shortErr 1), c)
  | .consume n =>
    if n ≤ c.top.length then (.ok (.bytes (c.top.take n)), c.adv n) else (.error (c.shortErr n), c)
  | .setFit n =>
    if n ≤ c.top.length then
      (.ok .unit, { c with top := c.top.take n, outer := c.top.drop n :: c.outer })
    else (.error openErr, c)
  | .testTarget => (.ok (.bool (!c.outer.isEmpty && c.top.isEmpty)), c)
  | .enforceTarget =>
    match c.outer with
    | [] => (.error (.window .closeWithoutWindow), c)
    | v :: vs =>
      -- the window is closed in any case; its unread bytes go back to the enclosing scope
      let c' := { c with top := c.top ++ v, outer := vs }
      if c.top = [] then (.ok .unit, c') else (.error (.window (.closeWithResidue c.top.length)), c')
  | .skip n => (.ok (.nat (min c.top.length n)), c.adv (min c.top.length n))
  | .skipExactly n =>
    if n ≤ c.top.length then (.ok .unit, c.adv n) else (.error (c.shortErr n), c)

def trace : List Op → Cursor → List Res
  | [], _ => []
  | op :: ops, c =>
    match c.step op with
    | (.ok o, c') => .ok o :: trace ops c'
    | (.error e, c') => .err e :: trace ops c'

def exec : List Op → Cursor → Cursor
  | [], c => c
  | op :: ops, c => exec ops (c.step op).2

/-- Number of bytes an operation moved past, and whether it returned them, is visible in the cursor:
the cursor always stands at `pos` in the input and all that it returns is read from there. -/
def At (input : Bytes) (c : Cursor) : Prop := c.pos ≤ input.length ∧ c.unread = input.drop c.pos

/-- Well-bracketed use: a window is closed only if one is open and it is fully consumed, and it is
tested only if one is open.  (`SliceParser` has no notion of an absolute position.) -/
def WB (c : Cursor) : Op → Prop
  | .viewLen | .offset => False
  | .testTarget => c.outer ≠ []
  | .enforceTarget => c.outer ≠ [] ∧ c.top = []
  | _ => True

/-- Every operation of the list is well-bracketed when it is performed. -/
def WBs (c : Cursor) (ops : List Op) : Prop :=
  ∀ (pre : List Op) (op : Op) (post : List Op), ops = pre ++ op :: post → (exec pre c).WB op

end Cursor

/-- Forget the numbers reported with a failed window opening. -/
def ParseError.eraseOpen : ParseError → ParseError
  | .window (.openWouldExceedBuffer _ _) => Cursor.openErr
  | .window (.openWouldExceedWindow _ _) => Cursor.openErr
  | e => e

/-- Forget also where a read failed (`SliceParser` does not know its position), but not how many bytes were
there. -/
def ParseError.kind : ParseError → ParseError
  | .window (.openWouldExceedBuffer _ _) => Cursor.openErr
  | .window (.openWouldExceedWindow _ _) => Cursor.openErr
  | .window (.consumeWouldExceedLimit pos n lim) => .window (.consumeWouldExceedLimit 0 n (lim - pos))
  | e => e

/-- Apply a function to the error of a result. -/
def Res.mapErr (f : ParseError → ParseError) : Res → Res
  | .err e => .err (f e)
  | r => r

end Verif
