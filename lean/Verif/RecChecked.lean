import Verif.Lemmas.CheckedSim
/-
The traits of recursive types with the feature `invalid_range_checking`.
-/
namespace Verif

/-- `Encode`, `Decode` and `Estimable` of the `i`-th type of a family with the feature, as `Decls.codec` (src/autobox.rs:246-267
and the derived code of its definition): parsing has the outcome of the unfoldings that do not run out of code, and never ends
if all of them do. -/
noncomputable def Decls.checkedCodec (d : Decls) (cfg : Cfg) (i : Nat) : Codec (d.Val i) where
  write T := Quot.lift (fun p => ((d.unfold p.1 i).checkedCodec cfg).write T p.2) fun _ _ h => by
    cases h with
    | step n x => exact ((d.lift_checkedSim cfg n i).write T x).symm
  parse P := open Classical in fun s =>
    if h : ∃ n, ((d.unfold n i).checkedCodec cfg).parse P s ≠ .diverge then
      ((fun x => d.val h.choose x) <$> ((d.unfold h.choose i).checkedCodec cfg).parse P) s
    else .diverge
  known := none
  unknown := Quot.lift (fun p => ((d.unfold p.1 i).checkedCodec cfg).unknown p.2) fun _ _ h => by
    cases h with
    | step n x => exact ((d.lift_checkedSim cfg n i).unknown x).symm

end Verif
