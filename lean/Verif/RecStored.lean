import Verif.RecCodec
import Verif.StoredCodec
/-
The traits of recursive types with the storage of `FixSeq` and `LimSeq` in view.
-/
namespace Verif

/-- `Encode`, `Decode` and `Estimable` of the `i`-th type of a family with storage in view, as `Decls.codec` (src/autobox.rs:246-267
and the derived code of its definition): parsing has the outcome of the unfoldings that do not run out of code, and never ends
if all of them do; encoding does not depend on storage. -/
noncomputable def Decls.storedCodec (d : Decls) (L : Layout) (cfg : Cfg) (i : Nat) : Codec (d.Val i) where
  write T := (d.codec cfg i).write T
  parse P := open Classical in fun s =>
    if h : ∃ n, ((d.unfold n i).storedCodec L cfg).parse P s ≠ .diverge then
      ((fun x => d.val h.choose x) <$> ((d.unfold h.choose i).storedCodec L cfg).parse P) s
    else .diverge
  known := (d.codec cfg i).known
  unknown := (d.codec cfg i).unknown

end Verif
