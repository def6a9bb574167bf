import Verif.SplitVec
/-
Model of src/conv/target.rs and of the types implementing `Target`:
`Vec<u8>`, `ByteCounter` (= `std::io::Sink`), `StrictBuilder`, `MemoBuilder`, `HexString`.
-/
namespace Verif

/-- src/conv/target.rs:12-97 `trait Target`.  `push_*` return the number of bytes and the new target;
`resolve_zero` is derived. `anticipate` may panic in Rust only on capacity overflow, which is not modelled. -/
structure TargetOps (τ : Type) where
  create : τ
  anticipate : Nat → τ → τ
  pushOne : Byte → τ → Nat × τ
  pushMany : Bytes → τ → Nat × τ
  pushAll : Bytes → τ → Nat × τ
  resolve : τ → τ

/-- Code that writes: `none` is a panic, otherwise the returned byte count and the new target. -/
abbrev W (τ : Type) : Type := τ → Option (Nat × τ)

namespace W

variable {τ : Type}

/-- `a + b`, evaluated left to right. -/
def add (a b : W τ) : W τ := fun t =>
  match a t with
  | none => none
  | some (n, t) =>
    match b t with
    | none => none
    | some (m, t) => some (n + m, t)

/-- A `push_*` call. -/
def push (f : τ → Nat × τ) : W τ := fun t => some (f t)

/-- `resolve_zero` (src/conv/target.rs:93-96, 99-105). -/
def resolveZero (T : TargetOps τ) : W τ := fun t => some (0, T.resolve t)

/-- The literal `0`. -/
def zero : W τ := fun t => some (0, t)

def panic : W τ := fun _ => none

end W

/-- src/conv/target.rs:137-166 `Vec<u8>`. -/
def vecTarget : TargetOps Bytes where
  create := []
  anticipate _ t := t
  pushOne b t := (1, t ++ [b])
  pushMany arr t := (arr.length, t ++ arr)
  pushAll buf t := (buf.length, t ++ buf)
  resolve t := t

/-- src/conv/target.rs:112-135 `ByteCounter`. -/
def sinkTarget : TargetOps Unit where
  create := ()
  anticipate _ t := t
  pushOne _ t := (1, t)
  pushMany arr t := (arr.length, t)
  pushAll buf t := (buf.length, t)
  resolve t := t

/-- src/builder/strict.rs:19 `StrictBuilder(Vec<u8>)`. -/
structure StrictBuilder where
  vec : Bytes
  deriving DecidableEq, Repr

/-- src/builder/strict.rs:57-87. -/
def strictTarget : TargetOps StrictBuilder where
  create := ⟨vecTarget.create⟩
  anticipate n t := ⟨vecTarget.anticipate n t.vec⟩
  pushOne b t := let r := vecTarget.pushOne b t.vec; (r.1, ⟨r.2⟩)
  pushMany a t := let r := vecTarget.pushMany a t.vec; (r.1, ⟨r.2⟩)
  pushAll a t := let r := vecTarget.pushAll a t.vec; (r.1, ⟨r.2⟩)
  resolve t := ⟨vecTarget.resolve t.vec⟩

/-- src/hexstring.rs: `HexString { bytes: Vec<u8> }`. -/
structure HexString where
  bytes : Bytes
  deriving DecidableEq, Repr

/-- src/hexstring.rs:472-500. -/
def hexTarget : TargetOps HexString where
  create := ⟨[]⟩
  anticipate n t := ⟨vecTarget.anticipate n t.bytes⟩
  pushOne b t := let r := vecTarget.pushOne b t.bytes; (r.1, ⟨r.2⟩)
  pushMany a t := let r := vecTarget.pushMany a t.bytes; (r.1, ⟨r.2⟩)
  pushAll a t := let r := vecTarget.pushAll a t.bytes; (r.1, ⟨r.2⟩)
  resolve t := t

/-- src/builder/memo.rs:28-30 `MemoBuilder`. -/
structure MemoBuilder where
  segs : SplitVec Byte
  deriving DecidableEq, Repr

/-- src/builder/memo.rs:152-203. -/
def memoTarget : TargetOps MemoBuilder where
  create := ⟨.new⟩
  anticipate _ t := t
  pushOne b t := (1, ⟨t.segs.pushCurrent b⟩)
  pushMany arr t := (arr.length, ⟨t.segs.extendCurrentFromSlice arr⟩)
  pushAll buf t := (buf.length, ⟨t.segs.extendCurrentFromSlice buf⟩)
  resolve t := ⟨t.segs.split⟩

end Verif
