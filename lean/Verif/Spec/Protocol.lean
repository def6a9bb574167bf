import Verif.Protocol
import Verif.Spec.Schema
import Verif.Spec.Laws
/-
SPECIFICATION: runs of several messages.
-/
namespace Verif.Protocol

/-- All types that can come up have distinct tags and delimit themselves; only the last one may be followed by `tl` alone. -/
def Ok (tl : Tail) : Protocol → Prop
  | done => True
  | msg s k => s.tagsOk ∧ ((s.tail = some .any ∧ ∀ x, s.Valid x → (k x).Ok tl) ∨ (s.tail = some tl ∧ ∀ x, k x = done))

/-- All messages are values of their types, and their estimates are right where these are used. -/
def Valid (cfg : Cfg) : (p : Protocol) → p.Run → Prop
  | done, _ => True
  | msg s k, ⟨x, r⟩ => s.Valid x ∧ (cfg.encLenOverride = false ∨ s.PrefixOk x) ∧ (k x).Valid cfg r

/-- The encodings of the messages one after the other. -/
noncomputable def bytes (cfg : Cfg) : (p : Protocol) → p.Run → Option Bytes
  | done, _ => some []
  | msg s k, ⟨x, r⟩ => do
    let a ← (s.codec cfg).toBytes x
    let b ← (k x).bytes cfg r
    pure (a ++ b)

/-- Some message can be of a type that opens windows. -/
def Windowed : Protocol → Prop
  | done => False
  | msg s k => s.windowed = true ∨ ∃ x, (k x).Windowed

/-- All types satisfy `P`. -/
def All (P : Schema → Prop) : Protocol → Prop
  | done => True
  | msg s k => P s ∧ ∀ x, (k x).All P

/-- What the reader of a whole run makes of the bytes. -/
noncomputable def dec (cfg : Cfg) : (p : Protocol) → D p.Run
  | done => pure ()
  | msg s k => do
    let x ← s.dec cfg
    let r ← (k x).dec cfg
    pure ⟨x, r⟩

end Verif.Protocol
