import Verif.Lemmas.Sim
/-
The traits of recursive types: running the recursive code is running the code of an unfolding that is deep
enough.
-/
namespace Verif

/-! ### the code of an unfolding does not depend on its depth -/

mutual
theorem Schema.fill_hole : ∀ s : Schema, s.fill .hole = s
  | .unit | .bool | .int _ | .f64 | .rangedInt _ _ _ | .rangedFloat _ _ | .zarithN | .zarithZ | .bytes | .vecU8
  | .string | .fixedBytes _ | .fixedString _ | .cstyle _ _ | .hole _ => rfl
  | .option s => congrArg Schema.option s.fill_hole
  | .nullable s => congrArg Schema.nullable s.fill_hole
  | .dynamic S s => congrArg (Schema.dynamic S) s.fill_hole
  | .vpadded n s => congrArg (Schema.vpadded n) s.fill_hole
  | .padded n s => congrArg (Schema.padded n) s.fill_hole
  | .seq s => congrArg Schema.seq s.fill_hole
  | .fixSeq n s => congrArg (Schema.fixSeq n) s.fill_hole
  | .limSeq n s => congrArg (Schema.limSeq n) s.fill_hole
  | .autobox s => congrArg Schema.autobox s.fill_hole
  | .data w vs => congrArg (Schema.data w) vs.fill_hole
  | .record fs => congrArg Schema.record fs.fill_hole
theorem Variants.fill_hole : ∀ vs : Variants, vs.fill .hole = vs
  | .nil => rfl
  | .cons tag s vs => by rw [Variants.fill, s.fill_hole, vs.fill_hole]
theorem Fields.fill_hole : ∀ fs : Fields, fs.fill .hole = fs
  | .nil => rfl
  | .cons s fs => by rw [Fields.fill, s.fill_hole, fs.fill_hole]
end

namespace Decls

variable (d : Decls)

theorem unfold_one (i : Nat) : d.unfold 1 i = d.body i := (d.body i).fill_hole

theorem lift_sim (cfg : Cfg) : ∀ n i, Codec.Sim (d.lift n i) ((d.unfold n i).codec cfg) ((d.unfold (n + 1) i).codec cfg)
  | 0, i => {
      write := fun _ x => nomatch x
      parse := fun _ _ => .inl rfl
      known := by
        show ((d.unfold 1 i).codec cfg).known = none
        rw [d.unfold_one]
        exact d.unsized i cfg
      unknown := fun x => nomatch x }
  | n + 1, i => (d.body i).sim cfg fun j => lift_sim cfg n j

/-- `Encode`, `Decode` and `Estimable` of the `i`-th type (src/autobox.rs:246-267 and the derived code of its
definition).  Encoding and measuring a value is done by the code of any unfolding that has the value; parsing
has the outcome of the unfoldings that do not run out of code, and never ends if all of them do. -/
noncomputable def codec (cfg : Cfg) (i : Nat) : Codec (d.Val i) where
  write T := Quot.lift (fun p => ((d.unfold p.1 i).codec cfg).write T p.2) fun _ _ h => by
    cases h with
    | step n x => exact ((d.lift_sim cfg n i).write T x).symm
  parse P := open Classical in fun s =>
    if h : ∃ n, ((d.unfold n i).codec cfg).parse P s ≠ .diverge then
      ((fun x => d.val h.choose x) <$> ((d.unfold h.choose i).codec cfg).parse P) s
    else .diverge
  known := none
  unknown := Quot.lift (fun p => ((d.unfold p.1 i).codec cfg).unknown p.2) fun _ _ h => by
    cases h with
    | step n x => exact ((d.lift_sim cfg n i).unknown x).symm

end Decls

end Verif
