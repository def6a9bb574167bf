import Verif.Target
import Verif.Parser
import Verif.Std
/-
The `Encode`, `EncodeLength`, `Estimable` and `Decode` traits (src/conv/mod.rs, src/conv/len.rs) as a
record, one value of which is an implementation of the traits for a type.
-/
namespace Verif

/-- Build configuration: profile and the cargo features that change the behaviour of codecs. -/
structure Cfg where
  prof : Profile
  /-- feature `enc_len_estimable_override` -/
  encLenOverride : Bool
  /-- feature `check_padding` -/
  checkPadding : Bool
  /-- feature `check_complete_parse` -/
  completeParse : Bool
  deriving DecidableEq, Repr

/-- Trait implementations for a type `α`:
* `write`   : `Encode::write_to` (src/conv/mod.rs:65-79), for every target;
* `parse`   : `Decode::parse` (src/conv/mod.rs:262-276), for every parser;
* `known`   : `Estimable::KNOWN`, `unknown`: `Estimable::unknown` (src/conv/len.rs:148-160).
Lengths are unbounded naturals on this side (the code adds lengths of values that are in memory). -/
structure Codec (α : Type) : Type 1 where
  write : {τ : Type} → TargetOps τ → α → W τ
  parse : {σ : Type} → ParserOps σ → PM σ α
  known : Option Nat
  unknown : α → Nat

namespace Codec

variable {α : Type} (c : Codec α)

/-- src/conv/len.rs:160-162 `Estimable::estimate`. -/
def estimate (x : α) : Nat := c.known.getD (c.unknown x)

/-- src/conv/mod.rs:159-161, 178-192 `EncodeLength::enc_len`; `none` is a panic. -/
def encLen (cfg : Cfg) (x : α) : Option Nat :=
  if cfg.encLenOverride then some (c.estimate x)
  else match c.write sinkTarget x sinkTarget.create with
    | some (n, _) => some n
    | none => none

/-- src/conv/mod.rs:100-104 `Encode::encode`. -/
def encode {τ : Type} (T : TargetOps τ) (x : α) : Option τ :=
  match c.write T x T.create with
  | some (_, t) => some t
  | none => none

/-- src/conv/mod.rs:88-90 `Encode::write_to_vec`. -/
def writeToVec (x : α) (buf : Bytes) : Option Bytes :=
  match c.write vecTarget x buf with
  | some (_, t) => some t
  | none => none

/-- src/conv/mod.rs:121-125 `Encode::to_bytes`. -/
def toBytes (x : α) : Option Bytes := c.writeToVec x []

/-- src/conv/mod.rs:170-175 `EncodeLength::to_bytes_full` (the capacity is not observable, but computing it
may panic). -/
def toBytesFull (cfg : Cfg) (x : α) : Option Bytes :=
  match c.encLen cfg x with
  | none => none
  | some _ => c.writeToVec x []

/-- `write_to` of several values in a row with a loop: `iter().map(|x| x.write_to(buf)).sum()`. -/
def writeList {τ : Type} (T : TargetOps τ) : List α → W τ
  | [] => W.zero
  | x :: xs => W.add (c.write T x) (writeList T xs)

end Codec

end Verif
