import Verif.Default
import Verif.Recursive
/-
`Default` of recursive types.
-/
namespace Verif

namespace Decls

/-- `default()` of the `i`-th type (src/autobox.rs:192-202: the default value of `AutoBox<T>` is that of `T` in a box): the
default value of an unfolding that has one.  `none`: it panics, never ends (if the definition asks for its own default
value), or there is no implementation. -/
noncomputable def default (d : Decls) (i : Nat) : Option (d.Val i) := open Classical in
  if h : ∃ n x, (d.unfold n i).default = some x then some (d.val h.choose h.choose_spec.choose) else none

end Decls

end Verif
