import Verif.Schema
/-
SPECIFICATION: types whose decoders open no windows.
-/
namespace Verif

mutual
/-- No `Dynamic` and no `VPadded`; array sizes that exist. -/
def Schema.windowless : Schema → Bool
  | .unit | .bool | .int _ | .f64 | .rangedInt _ _ _ | .rangedFloat _ _ | .zarithN | .zarithZ | .bytes | .vecU8
  | .string | .cstyle _ _ => true
  | .fixedBytes n => n ≤ isizeMax + 1
  | .fixedString n => n ≤ isizeMax + 1
  | .option s => s.windowless
  | .nullable s => s.windowless
  | .dynamic _ _ => false
  | .vpadded _ _ => false
  | .padded n s => n ≤ isizeMax + 1 && s.windowless
  | .seq s => s.windowless
  | .fixSeq _ s => s.windowless
  | .limSeq _ s => s.windowless
  | .autobox s => s.windowless
  | .hole _ => true
  | .data _ vs => vs.windowless
  | .record fs => fs.windowless
def Variants.windowless : Variants → Bool
  | .nil => true
  | .cons _ s vs => s.windowless && vs.windowless
def Fields.windowless : Fields → Bool
  | .nil => true
  | .cons s fs => s.windowless && fs.windowless
end

end Verif
