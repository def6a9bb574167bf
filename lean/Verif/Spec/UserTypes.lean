import Verif.Spec.Laws
import Verif.Refine.Backend
import Verif.Lemmas.RoundTrip
import Verif.Schema
/-
SPECIFICATION: what a user promises of `Encode`, `Decode` and `Estimable` implemented by hand
(the trait documentation, src/conv/mod.rs:60-130 and 200-276, src/conv/len.rs:100-165).
-/
namespace Verif

variable {α β : Type}

/-- The implementations of `Encode`, `Decode` and `Estimable` for one type go together, for the values `V`.

* `writes`: `write_to` appends the same bytes to every target and returns their number;
* `parses`: `parse` does the same with every parser (see `Written`), and what was encoded is read back when what follows in
  the same window is as `k` says;
* `nonEmpty` (if `ne`): no encoding is empty;
* `width` (if `w` is given): all encodings have that length;
* `estimates` (only when lengths are announced by estimates, feature `enc_len_estimable_override`): estimates are exact. -/
structure Contract (cfg : Cfg) (c : Codec α) (V : α → Prop) (k : Tail) (ne : Bool) (w : Option Nat) : Prop where
  writes : c.Writes c.toBytes
  parses : ∃ d, c.Parses True d ∧ RoundTrips c.toBytes d V k
  nonEmpty : ne = true → NonEmpty c.toBytes V
  width : ∀ n, w = some n → ∀ x b, V x → c.toBytes x = some b → b.length = n
  estimates : cfg.encLenOverride = true → ∀ x b, V x → c.toBytes x = some b →
    c.unknown x = b.length ∧ ∀ n, c.known = some n → n = b.length

/-- The same for the arms of an enum with tags of width `w`, and for the fields of a record (`e` is their encoding: neither is
a type by itself). -/
structure VContract (cfg : Cfg) (w : TagWidth) (v : VCodec β) (V : β → Prop) (k : Tail) : Prop where
  agree : ∃ (e : TagWidth → Enc β) (d : Nat → D β), v.Writes e ∧ v.Parses True d ∧ VRoundTrips v.tags w e d V k ∧
    (cfg.encLenOverride = true → ∀ x b, V x → e w x = some b → v.unknown w x = b.length)

structure FContract (cfg : Cfg) (f : FCodec β) (V : β → Prop) (k : Tail) (ne : Bool) (w : Option Nat) : Prop where
  agree : ∃ (e : Enc β) (d : D β), f.Writes e ∧ f.Parses True d ∧ RoundTrips e d V k ∧ (ne = true → NonEmpty e V) ∧
    (∀ n, w = some n → ∀ x b, V x → e x = some b → b.length = n) ∧
    (cfg.encLenOverride = true → ∀ x b, V x → e x = some b → f.unknown x = b.length ∧ ∀ n, f.known = some n → n = b.length)

end Verif
