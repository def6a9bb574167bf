import Verif.Backend
import Verif.SplitVec
/-
`Parser::cleanup` and its types (src/parse/mod.rs:461-672, 773-816, 964-1007, 1189-1218).
-/
namespace Verif

/-- src/parse/mod.rs:480-495 `LeftoverState`. -/
inductive Leftover where
  | empty
  | windowless (buf : Bytes)
  | windowed (sbuf : SplitVec Byte)
  deriving DecidableEq

namespace Leftover

/-- src/parse/mod.rs:507-509 `new`. -/
def new : Leftover := .empty

/-- src/parse/mod.rs:518-526 `append`; the second component is what is left in `other` (the first case
copies, the others move). -/
def append (l : Leftover) (other : Bytes) : Leftover × Bytes :=
  match l with
  | .empty => (.windowless other, other)
  | .windowless buf => (.windowless (buf ++ other), [])
  | .windowed sbuf => (.windowed (sbuf.appendCurrent other).1, (sbuf.appendCurrent other).2)

/-- src/parse/mod.rs:570-582 `promote`: the `SplitVec` of the `Windowed` variant `self` is turned into.  The two
`unsafe` accessors (529-568) are only called on the variants they are made for. -/
def promote : Leftover → SplitVec Byte
  | .empty => SplitVec.new
  | .windowless buf => SplitVec.fromVec buf
  | .windowed sbuf => sbuf

/-- src/parse/mod.rs:585-587 `escape_context`. -/
def escapeContext (l : Leftover) : Leftover := .windowed l.promote.splitForce

/-- src/parse/mod.rs:595-602 `is_empty`. -/
def isEmpty : Leftover → Bool
  | .empty => true
  | .windowed sbuf => sbuf.isEmpty
  | .windowless buf => buf.isEmpty

/-- src/parse/mod.rs:610-616 `len`. -/
def len : Leftover → Nat
  | .empty => 0
  | .windowless v => v.length
  | .windowed sv => sv.len

end Leftover

/-- src/parse/mod.rs:619-623 `InvariantError`. -/
inductive InvariantError where
  | caseUnexpected (e : WindowError)
  | kindUnexpected (e : ParseError)
  | unexpected (e : ParseError)
  deriving DecidableEq

/-- src/parse/mod.rs:671 `CleanupResult`. -/
abbrev CleanupResult := Except InvariantError Leftover

namespace ParserOps

variable {σ : Type} (P : ParserOps σ)

/-- One round of the loop of `cleanup` of `ByteParser` and `MemoParser`
(src/parse/mod.rs:778-813, 969-1004): `.inl` goes on, `.inr` leaves the loop. -/
def cleanupBody (ret : CleanupResult) : PM σ (CleanupResult ⊕ CleanupResult) := fun s =>
  match P.remainder s with
  | .ok res s =>
    let closing : CleanupResult → PM σ (CleanupResult ⊕ CleanupResult) := fun ret s =>
      match P.enforceTarget s with
      | .ok () s => .ok (.inl (ret.map Leftover.escapeContext)) s
      | .err (.window .closeWithoutWindow) s => .ok (.inr ret) s
      | .err (.window w) s => .ok (.inl (.error (.caseUnexpected w))) s
      | .err e s => .ok (.inl (.error (.kindUnexpected e))) s
      | .panic => .panic
      | .ub => .ub
      | .diverge => .diverge
    if res ≠ 0 then
      match P.takeDynamic res s with
      | .ok tmp s => closing (ret.map fun o => (o.append tmp).1) s
      | .err e s => .ok (.inr (.error (.unexpected e))) s
      | .panic => .panic
      | .ub => .ub
      | .diverge => .diverge
    else closing ret s
  | .err e s => .err e s
  | .panic => .panic
  | .ub => .ub
  | .diverge => .diverge

/-- src/parse/mod.rs:773-816, 964-1007 `cleanup` of `ByteParser` and `MemoParser`. -/
noncomputable def cleanup : PM σ CleanupResult := iterM P.cleanupBody (.ok .new)

/-- One round of the loop of `cleanup` of `SliceParser` (src/parse/mod.rs:1192-1215): errors are returned at
once. -/
def cleanupBodySlice (ret : Leftover) : PM σ (Leftover ⊕ CleanupResult) := fun s =>
  match P.remainder s with
  | .ok res s =>
    let closing : Leftover → PM σ (Leftover ⊕ CleanupResult) := fun ret s =>
      match P.enforceTarget s with
      | .ok () s => .ok (.inl ret.escapeContext) s
      | .err (.window .closeWithoutWindow) s => .ok (.inr (.ok ret)) s
      | .err (.window w) s => .ok (.inr (.error (.caseUnexpected w))) s
      | .err e s => .ok (.inr (.error (.kindUnexpected e))) s
      | .panic => .panic
      | .ub => .ub
      | .diverge => .diverge
    if res ≠ 0 then
      match P.takeDynamic res s with
      | .ok tmp s => closing (ret.append tmp).1 s
      | .err e s => .ok (.inr (.error (.unexpected e))) s
      | .panic => .panic
      | .ub => .ub
      | .diverge => .diverge
    else closing ret s
  | .err e s => .err e s
  | .panic => .panic
  | .ub => .ub
  | .diverge => .diverge

/-- src/parse/mod.rs:1189-1218 `cleanup` of `SliceParser`. -/
noncomputable def cleanupSlice : PM σ CleanupResult := iterM P.cleanupBodySlice .new

end ParserOps

/-- `Parser::cleanup` of each parser. -/
noncomputable def Backend.cleanup (p : Profile) : (k : Backend) → PM k.State CleanupResult
  | .byte => (ByteParser.ops p).cleanup
  | .memo => (MemoParser.ops p).cleanup
  | .slice => SliceParser.ops.cleanupSlice

end Verif
