import Verif.Spec.Schema
/-
SPECIFICATION: schemas for which the pure decoder says what happens on every input.
-/
namespace Verif

mutual
/-- Array sizes that exist; no `VPadded` in release builds (its length computation wraps
around on input that is too short). -/
def Schema.tame (p : Profile) : Schema → Bool
  | .unit | .bool | .int _ | .f64 | .rangedInt _ _ _ | .rangedFloat _ _ | .zarithN | .zarithZ | .bytes | .vecU8
  | .string | .cstyle _ _ => true
  | .fixedBytes n => n ≤ isizeMax + 1
  | .fixedString n => n ≤ isizeMax + 1
  | .option s => s.tame p
  | .nullable s => s.tame p
  | .dynamic _ s => s.tame p
  | .vpadded _ s => p = .debug && s.tame p
  | .padded n s => n ≤ isizeMax + 1 && s.tame p
  | .seq s => s.tame p
  | .fixSeq _ s => s.tame p
  | .limSeq _ s => s.tame p
  | .autobox s => s.tame p
  | .hole _ => true
  | .data _ vs => vs.tame p
  | .record fs => fs.tame p
def Variants.tame (p : Profile) : Variants → Bool
  | .nil => true
  | .cons _ s vs => s.tame p && vs.tame p
def Fields.tame (p : Profile) : Fields → Bool
  | .nil => true
  | .cons s fs => s.tame p && fs.tame p
end

end Verif
