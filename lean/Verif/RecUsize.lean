import Verif.Lemmas.UsizeSim
/-
The traits of recursive types with counts of type `usize`.
-/
namespace Verif

/-- `Encode` and `Estimable` of the `i`-th type of a family, as `Decls.codec`, with counts of type `usize`
(src/autobox.rs:246-252, 261-267 and the derived code of its definition): the code of any unfolding that has the value. -/
def Decls.machine (d : Decls) (cfg : Cfg) (i : Nat) : Machine (d.Val i) where
  write T := Quot.lift (fun p => ((d.unfold p.1 i).machine cfg).write T p.2) fun _ _ h => by
    cases h with
    | step n x => exact ((d.lift_msim cfg n i).write T x).symm
  known := none
  unknown := Quot.lift (fun p => ((d.unfold p.1 i).machine cfg).unknown p.2) fun _ _ h => by
    cases h with
    | step n x => exact ((d.lift_msim cfg n i).unknown x).symm

end Verif
