import Verif.HandWritten
/-
MODEL of user code that sends and receives several messages of any types through one target and one parser, as in
Verif/Protocol.lean: the calls `x.write_to(&mut buf)` (src/conv/mod.rs:77), `x.estimate_len()` (src/conv/len.rs:100-165) and
`T::parse(&mut p)?` (src/conv/mod.rs:272-273) one after the other.  The types are those of the library, recursive ones included, or have been written by
hand.
-/
namespace Verif

/-- What is sent: nothing more, or a message of the type with the code `c` and then, depending on it, the rest. -/
inductive Exchange : Type 1 where
  | done
  | msg {α : Type} (c : Codec α) (k : α → Exchange)

namespace Exchange

/-- The messages of one run, in order. -/
def Run : Exchange → Type
  | done => Unit
  | @msg α _ k => (x : α) × (k x).Run

/-- `let n = x.write_to(&mut buf); n + rest.write_to(&mut buf)` -/
def write {τ : Type} (T : TargetOps τ) : (e : Exchange) → e.Run → W τ
  | done, _ => W.zero
  | msg c k, ⟨x, r⟩ => W.add (c.write T x) ((k x).write T r)

/-- `let x = T::parse(&mut p)?; let rest = …?; Ok((x, rest))` -/
def read {σ : Type} (P : ParserOps σ) : (e : Exchange) → PM σ e.Run
  | done => pure ()
  | msg c k => do
    let x ← c.parse P
    let r ← (k x).read P
    pure ⟨x, r⟩

/-- `x.estimate_len() + rest.estimate_len()` -/
def estimate : (e : Exchange) → e.Run → Nat
  | done, _ => 0
  | msg c k, ⟨x, r⟩ => c.estimate x + (k x).estimate r

/-- The whole run as a type with fields whose types depend on the fields before them. -/
def codec (e : Exchange) : Codec e.Run where
  write T x := e.write T x
  parse P := e.read P
  known := none
  unknown x := e.estimate x

/-- The first `n` messages only. -/
def take : Nat → Exchange → Exchange
  | 0, _ => done
  | _ + 1, done => done
  | n + 1, msg c k => msg c fun x => (k x).take n

def Run.take : (n : Nat) → (e : Exchange) → e.Run → (e.take n).Run
  | 0, _, _ => ()
  | _ + 1, done, _ => ()
  | n + 1, msg _ k, ⟨x, r⟩ => ⟨x, Run.take n (k x) r⟩

end Exchange

end Verif
