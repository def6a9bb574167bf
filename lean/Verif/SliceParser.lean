import Verif.Parser
/-
`SliceParser` (src/parse/mod.rs:1053-1264) over `ViewStack` (src/internal/view.rs:45-102) and
`SliceBuffer` (src/parse/buffer.rs:25-151).
-/
namespace Verif

/-- src/parse/mod.rs:1053-1055; the view stack with the innermost (last pushed) view first. -/
structure SliceParser where
  views : List Bytes
  deriving DecidableEq, Repr

namespace SliceParser

/-- src/parse/mod.rs:1067-1071 `from_buffer`. -/
def fromBuffer (buf : Bytes) : SliceParser := { views := [buf] }

/-- `SliceBuffer::split_unchecked`/`take_unchecked` (src/parse/buffer.rs:110-115, 141-143):
UB (`none`) when `n` exceeds the length. -/
def splitUnchecked (frame : Bytes) (n : Nat) : Option (Bytes × Bytes) :=
  if n ≤ frame.length then some (frame.take n, frame.drop n) else none

/-- src/parse/mod.rs:1074-1079. -/
def viewLen (s : SliceParser) : Nat :=
  match s.views with
  | bs :: _ => bs.length
  | [] => 0

/-- src/parse/mod.rs:1082-1084. -/
def offset (_ : SliceParser) : Nat := 0

/-- src/parse/mod.rs:1087-1089. -/
def remainder : PM SliceParser Nat := fun s => .ok s.viewLen s

/-- src/parse/mod.rs:1091-1115 with `cut_first` (src/parse/buffer.rs:69-75). -/
def consumeByte : PM SliceParser Byte := fun s =>
  match s.views with
  | [] => .err (.window (.consumeWouldExceedLimit 0 1 0)) s
  | frame :: vs =>
    match frame with
    | first :: tail => .ok first { views := tail :: vs }
    | [] => .err (.window (.consumeWouldExceedLimit 0 1 0)) s

/-- src/parse/mod.rs:1117-1141. -/
def consume (n : Nat) : PM SliceParser Bytes := fun s =>
  match s.views with
  | [] => .err (.window (.consumeWouldExceedLimit 0 n 0)) s
  | frame :: vs =>
    if frame.length ≥ n then
      match splitUnchecked frame n with
      | some (ret, temp) => .ok ret { views := temp :: vs }
      | none => .ub
    else .err (.window (.consumeWouldExceedLimit 0 n frame.length)) s

/-- src/parse/mod.rs:1143-1166. -/
def setFit (n : Nat) : PM SliceParser Unit := fun s =>
  match s.views with
  | [] => if n = 0 then .ok () s else .err (.window (.openWouldExceedBuffer 0 n)) s
  | frame :: vs =>
    if frame.length ≥ n then
      match splitUnchecked frame n with
      | some (novel, rem) => .ok () { views := novel :: rem :: vs }
      | none => .ub
    else .err (.window (.openWouldExceedWindow frame.length n)) s

/-- src/parse/mod.rs:1169-1175. -/
def testTarget : PM SliceParser Bool := fun s =>
  match s.views with
  | t :: _ => .ok t.isEmpty s
  | [] => .ok false s

/-- src/parse/mod.rs:1177-1187. -/
def enforceTarget : PM SliceParser Unit := fun s =>
  match s.views with
  | [] => .err (.window .closeWithoutWindow) s
  | frame :: vs =>
    match frame.length with
    | 0 => .ok () { views := vs }
    | residual => .err (.window (.closeWithResidue residual)) { views := vs }

/-- src/parse/mod.rs:1222-1235 `skip`. -/
def skip (n : Nat) : PM SliceParser Nat := fun s =>
  match s.views with
  | [] => .ok 0 s
  | frame :: vs =>
    let delta := min frame.length n
    match splitUnchecked frame delta with
    | some (_, temp) => .ok delta { views := temp :: vs }
    | none => .ub

/-- src/parse/mod.rs:1237-1261 `skip_exactly`. -/
def skipExactly (n : Nat) : PM SliceParser Unit := fun s =>
  match s.views with
  | [] => .err (.window (.consumeWouldExceedLimit 0 n 0)) s
  | frame :: vs =>
    if frame.length ≥ n then
      match splitUnchecked frame n with
      | some (_, temp) => .ok () { views := temp :: vs }
      | none => .ub
    else .err (.window (.consumeWouldExceedLimit 0 n frame.length)) s

/-- The `Parser`/`ParserExt` implementation of `SliceParser`; no arithmetic depends on the profile. -/
def ops : ParserOps SliceParser where
  viewLen := viewLen
  offset := offset
  remainder := remainder
  consumeByte := consumeByte
  consume := consume
  setFit := setFit
  testTarget := testTarget
  enforceTarget := enforceTarget
  skip := skip
  skipExactly := skipExactly

end SliceParser

end Verif
