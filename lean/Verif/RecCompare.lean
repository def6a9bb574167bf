import Verif.Recursive
import Verif.Hash
import Verif.Spec.Compare
/-
Comparing and hashing values of recursive types: the derived `PartialEq`, `PartialOrd` and `Hash` of a type that
mentions itself behind an `AutoBox`, whose own implementations (derived too, src/autobox.rs:70) are those of what it
points to.
-/
namespace Verif

namespace Decls

variable (d : Decls)

/-- What the code `c n` of an unfolding that has both values makes of them.  All unfoldings that have them give the same
(`Decls.same`), and there always is one (`Decls.exists_two`). -/
noncomputable def both {i : Nat} {γ : Type} [Inhabited γ] (c : ∀ n, (d.unfold n i).Val → (d.unfold n i).Val → γ)
    (a b : d.Val i) : γ :=
  open Classical in
  if h : ∃ n x y, a = d.val n x ∧ b = d.val n y then
    c h.choose h.choose_spec.choose h.choose_spec.choose_spec.choose
  else default

/-- `==` of the `i`-th type (src/autobox.rs:70 and the derived code of its definition). -/
noncomputable def eqv {i : Nat} (a b : d.Val i) : Bool := d.both (fun n => (d.unfold n i).eqv) a b

/-- `partial_cmp` of the `i`-th type (src/autobox.rs:70 and the derived code of its definition). -/
noncomputable def pcmp {i : Nat} (a b : d.Val i) : Option Ordering := d.both (fun n => (d.unfold n i).pcmp) a b

/-- `hash` of the `i`-th type (src/autobox.rs:70 and the derived code of its definition). -/
noncomputable def hash (e : Endian) {i : Nat} (a : d.Val i) : List HashCall :=
  d.both (fun n x _ => (d.unfold n i).hash e x) a a

/-- A NaN occurs in the value. -/
def HasNan {i : Nat} (a : d.Val i) : Prop := ∃ n x, a = d.val n x ∧ (d.unfold n i).HasNan x

end Decls

end Verif
