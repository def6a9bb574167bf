import Verif.Parser
/-
`ContextOffset`-based parsers: `ByteParser` and `MemoParser`.
-/
namespace Verif

/-- src/internal/offset.rs:280-284 `ContextOffset`; `Index` (21) is its `usize`, `FrameStack` (221) is a
`Vec<usize>` whose last element is the innermost frame – here a list with the innermost frame first. -/
structure ContextOffset where
  abs : Nat
  frames : List Nat
  cur : Nat
  deriving DecidableEq, Repr

namespace ContextOffset

/-- src/internal/offset.rs:377-383 `with_limit`. -/
def withLimit (abs : Nat) : ContextOffset := { abs, frames := [], cur := 0 }

/-- src/internal/offset.rs:387-389 `index`. -/
def index (c : ContextOffset) : Nat := c.cur

/-- src/internal/offset.rs:402-404 `limit` = `frames.peek_or(abs)` (src/internal/stack.rs:56-58). -/
def limit (c : ContextOffset) : Nat := c.frames.head?.getD c.abs

/-- src/internal/offset.rs:407-409 `advance` = `Index::increment_checked` (41-48).
`none` is the overflow panic of `self.0 + n`. -/
def advance (p : Profile) (n : Nat) (c : ContextOffset) : Option ((Nat × Bool) × ContextOffset) :=
  match uadd p c.cur n with
  | none => none
  | some t => if t ≤ c.limit then some ((c.cur, true), { c with cur := t }) else some ((c.cur, false), c)

/-- src/internal/offset.rs:152-158 `rem`. -/
def rem (p : Profile) (c : ContextOffset) : Option Nat :=
  match p with
  | .debug => if c.limit ≥ c.index then usub p c.limit c.index else none
  | .release => usub p c.limit c.index

/-- src/internal/offset.rs:204-212 `detect_error`. -/
def detectError (innermost : Option Nat) (request : Nat) : Option WindowError :=
  match innermost with
  | some limit => if request > limit then some (.openWouldExceedWindow limit request) else none
  | none => none

/-- src/internal/offset.rs:236-238 `push_frame` via `push_validated` (src/internal/stack.rs:93-104). -/
def pushFrame (target : Nat) : PM ContextOffset Unit := fun c =>
  match detectError c.frames.head? target with
  | none => .ok () { c with frames := target :: c.frames }
  | some e => .err (.window e) c

/-- src/internal/offset.rs:292-305 `set_fit`. -/
def setFit (p : Profile) (winsize : Nat) : PM ContextOffset Unit := fun c =>
  match uadd p c.index winsize with
  | none => .panic
  | some newTgt =>
    if newTgt > c.abs then
      match usub p c.abs winsize with
      | none => .panic
      | some bytesLeft => .err (.window (.openWouldExceedBuffer bytesLeft winsize)) c
    else pushFrame newTgt c

/-- src/internal/offset.rs:315-329 `test_target`. -/
def testTarget : PM ContextOffset Bool := fun c =>
  match c.frames with
  | [] => .ok false c
  | tgt :: _ =>
    if tgt = c.index then .ok true c
    else if tgt > c.index then .ok false c
    else .err (.window (.offsetOverflow (c.index - tgt))) c

/-- src/internal/offset.rs:353-370 `enforce_target`. -/
def enforceTarget : PM ContextOffset Unit := fun c =>
  match c.frames with
  | [] => .err (.window .closeWithoutWindow) c
  | tgt :: fs =>
    if tgt = c.index then .ok () { c with frames := fs }
    else if tgt > c.index then
      .err (.window (.closeWithResidue (tgt - c.index))) { c with frames := fs }
    else .err (.window (.offsetOverflow (c.index - tgt))) { c with frames := fs }

end ContextOffset

/-! ### `VecBuffer` (src/parse/buffer.rs:165-222) -/

/-- Result of a read: data, panic of a bounds assertion, or undefined behaviour. -/
inductive ReadRes (α : Type) where
  | val (a : α)
  | panic
  | ub
  deriving DecidableEq, Repr

namespace VecBuffer

/-- src/parse/buffer.rs:187-189 `get_slice_unchecked`: `get_unchecked(ix..ix + len)` is UB when the
range is inverted (wrapped) or runs past the end. -/
def getSliceUnchecked (p : Profile) (buf : Bytes) (ix len : Nat) : ReadRes Bytes :=
  match uadd p ix len with
  | none => .panic
  | some e => if ix ≤ e ∧ e ≤ buf.length then .val ((buf.drop ix).take (e - ix)) else .ub

/-- src/parse/buffer.rs:196-199 `get_slice`. -/
def getSlice (p : Profile) (buf : Bytes) (ix len : Nat) : ReadRes Bytes :=
  match uadd p ix len with
  | none => .panic
  | some e => if e ≤ buf.length then getSliceUnchecked p buf ix len else .panic

/-- src/parse/buffer.rs:209-211 `get_byte_unchecked`. -/
def getByteUnchecked (buf : Bytes) (ix : Nat) : ReadRes Byte :=
  match buf[ix]? with
  | some b => .val b
  | none => .ub

/-- src/parse/buffer.rs:218-221 `get_byte`; note the assertion is `ix <= len`. -/
def getByte (buf : Bytes) (ix : Nat) : ReadRes Byte :=
  if ix ≤ buf.length then getByteUnchecked buf ix else .panic

end VecBuffer

/-! ### `ByteParser` (src/parse/mod.rs:697-846) -/

/-- src/parse/mod.rs:697-700. -/
structure ByteParser where
  buffer : Bytes
  off : ContextOffset
  deriving DecidableEq, Repr

namespace ByteParser

/-- src/parse/mod.rs:710-713 `from_buffer`. -/
def fromBuffer (buffer : Bytes) : ByteParser :=
  { buffer, off := ContextOffset.withLimit buffer.length }

/-- Run a `ContextOffset` method on the `offset` field. -/
def liftOff {α : Type} (f : PM ContextOffset α) : PM ByteParser α := fun s =>
  match f s.off with
  | .ok a o => .ok a { s with off := o }
  | .err e o => .err e { s with off := o }
  | .panic => .panic
  | .ub => .ub
  | .diverge => .diverge

/-- src/parse/mod.rs:718-720. -/
def viewLen (s : ByteParser) : Nat := s.off.limit
/-- src/parse/mod.rs:724-726. -/
def offset (s : ByteParser) : Nat := s.off.index

/-- src/parse/mod.rs:110-112 (default `remainder`). -/
def remainder (p : Profile) : PM ByteParser Nat := fun s =>
  match usub p s.viewLen s.offset with
  | some r => .ok r s
  | none => .panic

/-- src/parse/mod.rs:728-741. -/
def consumeByte (p : Profile) : PM ByteParser Byte := fun s =>
  match s.off.advance p 1 with
  | none => .panic
  | some ((ix, adv), o) =>
    let s := { s with off := o }
    if adv then
      match VecBuffer.getByte s.buffer ix with
      | .val b => .ok b s
      | .panic => .panic
      | .ub => .ub
    else .err (.window (.consumeWouldExceedLimit ix 1 s.viewLen)) s

/-- src/parse/mod.rs:743-756. -/
def consume (p : Profile) (n : Nat) : PM ByteParser Bytes := fun s =>
  match s.off.advance p n with
  | none => .panic
  | some ((ix, adv), o) =>
    let s := { s with off := o }
    if adv then
      match VecBuffer.getSliceUnchecked p s.buffer ix n with
      | .val b => .ok b s
      | .panic => .panic
      | .ub => .ub
    else .err (.window (.consumeWouldExceedLimit ix n s.viewLen)) s

/-- src/parse/mod.rs:820-828 `skip`; `unreachable!` is a panic. -/
def skip (p : Profile) (n : Nat) : PM ByteParser Nat := fun s =>
  match s.off.rem p with
  | none => .panic
  | some r =>
    let delta := min r n
    match s.off.advance p delta with
    | none => .panic
    | some ((_, adv), o) => if adv then .ok delta { s with off := o } else .panic

/-- src/parse/mod.rs:830-843 `skip_exactly`. -/
def skipExactly (p : Profile) (n : Nat) : PM ByteParser Unit := fun s =>
  match s.off.advance p n with
  | none => .panic
  | some ((ix, adv), o) =>
    let s := { s with off := o }
    if adv then .ok () s
    else .err (.window (.consumeWouldExceedLimit ix n s.viewLen)) s

/-- The `Parser`/`ParserExt` implementation of `ByteParser`. -/
def ops (p : Profile) : ParserOps ByteParser where
  viewLen := viewLen
  offset := offset
  remainder := remainder p
  consumeByte := consumeByte p
  consume := consume p
  setFit n := liftOff (ContextOffset.setFit p n)          -- src/parse/mod.rs:759-761
  testTarget := liftOff ContextOffset.testTarget            -- src/parse/mod.rs:764-766
  enforceTarget := liftOff ContextOffset.enforceTarget      -- src/parse/mod.rs:769-771
  skip := skip p
  skipExactly := skipExactly p

end ByteParser

/-! ### `MemoParser` (src/parse/mod.rs:859-1041) -/

/-- src/parse/mod.rs:859-863. -/
structure MemoParser where
  buffer : Bytes
  off : ContextOffset
  munches : List Nat
  deriving DecidableEq, Repr

namespace MemoParser

/-- src/parse/mod.rs:893-901 `from_buffer`. -/
def fromBuffer (buffer : Bytes) : MemoParser :=
  { buffer, off := ContextOffset.withLimit buffer.length, munches := [] }

/-- The segments printed by `eprint_munches!` / `dump_state` (src/parse/mod.rs:865-883): the munch lengths
are replayed from index 0. -/
def dumpGo (p : Profile) (buf : Bytes) : Nat → List Nat → ReadRes (List Bytes)
  | _, [] => .val []
  | ix, len :: ls =>
    match VecBuffer.getSlice p buf ix len with
    | .val seg =>
      match uadd p ix len with
      | none => .panic
      | some ix' =>
        match dumpGo p buf ix' ls with
        | .val segs => .val (seg :: segs)
        | .panic => .panic
        | .ub => .ub
    | .panic => .panic
    | .ub => .ub

/-- `dump_state` (src/parse/mod.rs:880-882), returning what is printed to stderr. -/
def dump (p : Profile) (s : MemoParser) : ReadRes (List Bytes) := dumpGo p s.buffer 0 s.munches

def liftOff {α : Type} (f : PM ContextOffset α) : PM MemoParser α := fun s =>
  match f s.off with
  | .ok a o => .ok a { s with off := o }
  | .err e o => .err e { s with off := o }
  | .panic => .panic
  | .ub => .ub
  | .diverge => .diverge

/-- src/parse/mod.rs:904-906. -/
def viewLen (s : MemoParser) : Nat := s.off.limit
/-- src/parse/mod.rs:909-911. -/
def offset (s : MemoParser) : Nat := s.off.index

/-- src/parse/mod.rs:110-112 (default `remainder`). -/
def remainder (p : Profile) : PM MemoParser Nat := fun s =>
  match usub p s.viewLen s.offset with
  | some r => .ok r s
  | none => .panic

/-- `eprint_munches!(self)` followed by the error return. -/
def failDump {α : Type} (p : Profile) (e : ParseError) : PM MemoParser α := fun s =>
  match s.dump p with
  | .val _ => .err e s
  | .panic => .panic
  | .ub => .ub

/-- src/parse/mod.rs:913-929. -/
def consumeByte (p : Profile) : PM MemoParser Byte := fun s =>
  match s.off.advance p 1 with
  | none => .panic
  | some ((ix, adv), o) =>
    let s := { s with off := o }
    if adv then
      let s := { s with munches := s.munches ++ [1] }
      match VecBuffer.getByte s.buffer ix with
      | .val b => .ok b s
      | .panic => .panic
      | .ub => .ub
    else failDump p (.window (.consumeWouldExceedLimit ix 1 s.viewLen)) s

/-- src/parse/mod.rs:931-947. -/
def consume (p : Profile) (n : Nat) : PM MemoParser Bytes := fun s =>
  match s.off.advance p n with
  | none => .panic
  | some ((ix, adv), o) =>
    let s := { s with off := o }
    if adv then
      let s := { s with munches := s.munches ++ [n] }
      match VecBuffer.getSliceUnchecked p s.buffer ix n with
      | .val b => .ok b s
      | .panic => .panic
      | .ub => .ub
    else failDump p (.window (.consumeWouldExceedLimit ix n s.viewLen)) s

/-- src/parse/mod.rs:1011-1021 `skip`; on failure the munches are printed before `unreachable!`. -/
def skip (p : Profile) (n : Nat) : PM MemoParser Nat := fun s =>
  match s.off.rem p with
  | none => .panic
  | some r =>
    let delta := min r n
    match s.off.advance p delta with
    | none => .panic
    | some ((_, adv), o) =>
      if adv then .ok delta { s with off := o, munches := s.munches ++ [delta] }
      else match s.dump p with
        | .ub => .ub
        | _ => .panic

/-- src/parse/mod.rs:1023-1038 `skip_exactly`; records no munch. -/
def skipExactly (p : Profile) (n : Nat) : PM MemoParser Unit := fun s =>
  match s.off.advance p n with
  | none => .panic
  | some ((ix, adv), o) =>
    let s := { s with off := o }
    if adv then .ok () s
    else failDump p (.window (.consumeWouldExceedLimit ix n s.viewLen)) s

/-- The `Parser`/`ParserExt` implementation of `MemoParser`. -/
def ops (p : Profile) : ParserOps MemoParser where
  viewLen := viewLen
  offset := offset
  remainder := remainder p
  consumeByte := consumeByte p
  consume := consume p
  setFit n := liftOff (ContextOffset.setFit p n)          -- src/parse/mod.rs:950-952
  testTarget := liftOff ContextOffset.testTarget            -- src/parse/mod.rs:955-957
  enforceTarget := liftOff ContextOffset.enforceTarget      -- src/parse/mod.rs:960-962
  skip := skip p
  skipExactly := skipExactly p

end MemoParser

end Verif
