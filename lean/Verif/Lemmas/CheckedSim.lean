import Verif.RecCodec
import Verif.CheckedCodec
/-
The code with the feature `invalid_range_checking` of an unfolding does not depend on its depth.
-/
namespace Verif

mutual
theorem Schema.checkedSim (cfg : Cfg) {ρ ρ' : Nat → Schema} {f : ∀ i, (ρ i).Val → (ρ' i).Val}
    (h : ∀ i, Codec.Sim (f i) ((ρ i).checkedCodec cfg) ((ρ' i).checkedCodec cfg)) :
    ∀ s : Schema, Codec.Sim (s.mapFill f) ((s.fill ρ).checkedCodec cfg) ((s.fill ρ').checkedCodec cfg)
  | .unit => .refl _
  | .bool => .refl _
  | .int _ => .refl _
  | .f64 => .refl _
  | .rangedInt _ _ _ => .refl _
  | .rangedFloat _ _ => .refl _
  | .zarithN => .refl _
  | .zarithZ => .refl _
  | .bytes => .refl _
  | .vecU8 => .refl _
  | .string => .refl _
  | .fixedBytes _ => .refl _
  | .fixedString _ => .refl _
  | .option s => .option (s.checkedSim cfg h)
  | .nullable s => .nullable (s.checkedSim cfg h)
  | .dynamic S s => .dynamic cfg S (s.checkedSim cfg h)
  | .vpadded n s => .vpadded cfg n (s.checkedSim cfg h)
  | .padded n s => .padded cfg n (s.checkedSim cfg h)
  | .seq s => .seq (s.checkedSim cfg h)
  | .fixSeq n s => .fixSeq n (s.checkedSim cfg h)
  | .limSeq n s => .limSeq n (s.checkedSim cfg h)
  | .autobox s => .autobox (s.checkedSim cfg h)
  | .hole i => h i
  | .cstyle _ _ => .refl _
  | .data w vs => .data w (vs.checkedSim cfg h)
  | .record fs => .record (fs.checkedSim cfg h)
theorem Variants.checkedSim (cfg : Cfg) {ρ ρ' : Nat → Schema} {f : ∀ i, (ρ i).Val → (ρ' i).Val}
    (h : ∀ i, Codec.Sim (f i) ((ρ i).checkedCodec cfg) ((ρ' i).checkedCodec cfg)) :
    ∀ vs : Variants, VCodec.Sim (vs.mapFill f) ((vs.fill ρ).checkedCodec cfg) ((vs.fill ρ').checkedCodec cfg)
  | .nil => .nil
  | .cons tag s vs => .cons tag (s.checkedSim cfg h) (vs.checkedSim cfg h)
theorem Fields.checkedSim (cfg : Cfg) {ρ ρ' : Nat → Schema} {f : ∀ i, (ρ i).Val → (ρ' i).Val}
    (h : ∀ i, Codec.Sim (f i) ((ρ i).checkedCodec cfg) ((ρ' i).checkedCodec cfg)) :
    ∀ fs : Fields, FCodec.Sim (fs.mapFill f) ((fs.fill ρ).checkedCodec cfg) ((fs.fill ρ').checkedCodec cfg)
  | .nil => .nil
  | .cons s fs => .cons (s.checkedSim cfg h) (fs.checkedSim cfg h)
end

mutual
theorem Schema.checked_known (cfg : Cfg) : ∀ s : Schema, (s.checkedCodec cfg).known = (s.codec cfg).known
  | .unit | .bool | .int _ | .f64 | .rangedInt _ _ _ | .rangedFloat _ _ | .zarithN | .zarithZ | .bytes | .vecU8
  | .string | .fixedBytes _ | .fixedString _ | .cstyle _ _ | .hole _ | .seq _ | .limSeq _ _ | .data _ _ => rfl
  | .option s => by simp only [Schema.checkedCodec, Schema.codec, Codec.option, s.checked_known cfg]
  | .nullable s => by simp only [Schema.checkedCodec, Schema.codec, Codec.nullable, s.checked_known cfg]
  | .dynamic S s => by simp only [Schema.checkedCodec, Schema.codec, Codec.dynamic, s.checked_known cfg]
  | .vpadded n s => by simp only [Schema.checkedCodec, Schema.codec, Codec.vpadded, s.checked_known cfg]
  | .padded n s => by simp only [Schema.checkedCodec, Schema.codec, Codec.padded, s.checked_known cfg]
  | .fixSeq n s => by simp only [Schema.checkedCodec, Schema.codec, Codec.fixSeq, s.checked_known cfg]
  | .autobox s => by simp only [Schema.checkedCodec, Schema.codec, Codec.autobox, s.checked_known cfg]
  | .record fs => by simp only [Schema.checkedCodec, Schema.codec, Codec.record, fs.checked_known cfg]
theorem Fields.checked_known (cfg : Cfg) : ∀ fs : Fields, (fs.checkedCodec cfg).known = (fs.codec cfg).known
  | .nil => rfl
  | .cons s fs => by simp only [Fields.checkedCodec, Fields.codec, FCodec.cons, s.checked_known cfg, fs.checked_known cfg]
end

theorem Decls.lift_checkedSim (d : Decls) (cfg : Cfg) : ∀ n i,
    Codec.Sim (d.lift n i) ((d.unfold n i).checkedCodec cfg) ((d.unfold (n + 1) i).checkedCodec cfg)
  | 0, i => {
      write := fun _ x => nomatch x
      parse := fun _ _ => .inl rfl
      known := by
        show ((d.unfold 1 i).checkedCodec cfg).known = none
        rw [d.unfold_one, Schema.checked_known]
        exact d.unsized i cfg
      unknown := fun x => nomatch x }
  | n + 1, i => (d.body i).checkedSim cfg fun j => lift_checkedSim d cfg n j

end Verif
