import Verif.Exchange
import Verif.Spec.UserTypes
import Verif.Spec.Cut
/-
SPECIFICATION: runs of several messages of any types.
-/
namespace Verif.Exchange

/-- In all runs that satisfy `W`, the implementations of the types of the messages go together (`Contract`); all messages delimit
themselves, except for the last one, which may be followed by `tl` alone. -/
def Kept (cfg : Cfg) (tl : Tail) : (e : Exchange) → (e.Run → Prop) → Prop
  | done, _ => True
  | @msg α c k, W => ∃ (V : α → Prop) (ne : Bool) (w : Option Nat), (∀ r, W r → V r.1) ∧
      ((Contract cfg c V .any ne w ∧ ∀ x, V x → (k x).Kept cfg tl fun r => W ⟨x, r⟩) ∨
        (Contract cfg c V tl ne w ∧ ∀ x, k x = done))

/-- Of the encoding of a `V` that was cut off anywhere, every parser says that input is missing (or panics, where debug builds
do). -/
def _root_.Verif.Codec.Cuts {α : Type} (cfg : Cfg) (c : Codec α) (V : α → Prop) : Prop :=
  ∀ x b v t, V x → c.toBytes x = some b → b.length ≤ isizeMax → b = v ++ t → t ≠ [] →
    ∀ (k : Backend) (vs : List Bytes) (st : k.State), k.Holds v vs st →
      (∃ e st', c.parse (k.ops cfg.prof) st = .err e st' ∧ e.WantsMore t.length) ∨
      (k ≠ .slice ∧ cfg.prof = .debug ∧ c.parse (k.ops cfg.prof) st = .panic)

/-- This is so of all messages of the runs that satisfy `W`. -/
def Cuts (cfg : Cfg) : (e : Exchange) → (e.Run → Prop) → Prop
  | done, _ => True
  | @msg α c k, W => ∃ V : α → Prop, (∀ r, W r → V r.1) ∧ c.Cuts cfg V ∧ ∀ x, V x → (k x).Cuts cfg fun r => W ⟨x, r⟩

/-- Whatever bytes a value is read from, with any parser: these bytes are its encoding. -/
def _root_.Verif.Codec.Rewrites {α : Type} (cfg : Cfg) (c : Codec α) : Prop :=
  ∀ (k : Backend) (v : Bytes) (vs : List Bytes) (st st' : k.State) (x : α), k.Holds v vs st →
    c.parse (k.ops cfg.prof) st = .ok x st' → ∃ b rest, c.toBytes x = some b ∧ v = b ++ rest ∧ k.Holds rest vs st'

/-- The encodings of the messages one after the other. -/
def bytes : (e : Exchange) → e.Run → Option Bytes
  | done, _ => some []
  | msg c k, ⟨x, r⟩ => do
    let a ← c.toBytes x
    let b ← (k x).bytes r
    pure (a ++ b)

/-- All types satisfy `P`. -/
def All (P : ∀ {α : Type}, Codec α → Prop) : Exchange → Prop
  | done => True
  | msg c k => P c ∧ ∀ x, (k x).All P

end Verif.Exchange
