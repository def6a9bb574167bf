import Verif.Schema
/-
MODEL of user code that sends and receives several messages through one target and one parser.

The library has no type for this: the code below makes the calls `x.write_to(&mut buf)` (src/conv/mod.rs:77) one after the
other on one target, and the calls `T::parse(&mut p)?` (src/conv/mod.rs:272-273) one after the other on one parser.  Which type is used next may depend on the values before
(a header that announces the kind of what follows; a handshake with a version number).
-/
namespace Verif

/-- What is sent: nothing more, or a message of the type `s` and then, depending on it, the rest. -/
inductive Protocol where
  | done
  | msg (s : Schema) (k : s.Val → Protocol)

namespace Protocol

/-- The messages of one run, in order. -/
def Run : Protocol → Type
  | done => Unit
  | msg s k => (x : s.Val) × (k x).Run

/-- `let n = x.write_to(&mut buf); n + rest.write_to(&mut buf)` -/
noncomputable def write (cfg : Cfg) {τ : Type} (T : TargetOps τ) : (p : Protocol) → p.Run → W τ
  | done, _ => W.zero
  | msg s k, ⟨x, r⟩ => W.add ((s.codec cfg).write T x) ((k x).write cfg T r)

/-- `let x = T::parse(&mut p)?; let rest = …?; Ok((x, rest))` -/
noncomputable def read (cfg : Cfg) {σ : Type} (P : ParserOps σ) : (p : Protocol) → PM σ p.Run
  | done => pure ()
  | msg s k => do
    let x ← (s.codec cfg).parse P
    let r ← (k x).read cfg P
    pure ⟨x, r⟩

/-- The type of the whole run.  (Not estimated: it is not used within `Dynamic`.) -/
noncomputable def codec (cfg : Cfg) (p : Protocol) : Codec p.Run where
  write T x := p.write cfg T x
  parse P := p.read cfg P
  known := none
  unknown _ := 0

/-- The first `n` messages only. -/
def take : Nat → Protocol → Protocol
  | 0, _ => done
  | _ + 1, done => done
  | n + 1, msg s k => msg s fun x => (k x).take n

def Run.take : (n : Nat) → (p : Protocol) → p.Run → (p.take n).Run
  | 0, _, _ => ()
  | _ + 1, done, _ => ()
  | n + 1, msg _ k, ⟨x, r⟩ => ⟨x, Run.take n (k x) r⟩

end Protocol

end Verif
