import Verif.Spec.Schema
/-
SPECIFICATION: types that can be written in Rust, where the sizes of arrays and paddings are
`usize` constants.
-/
namespace Verif

mutual
/-- All sizes are `usize`s. -/
def Schema.sized : Schema → Bool
  | .unit | .bool | .int _ | .f64 | .rangedInt _ _ _ | .rangedFloat _ _ | .zarithN | .zarithZ | .bytes | .vecU8
  | .string | .cstyle _ _ => true
  | .fixedBytes n => n < usizeMod
  | .fixedString n => n < usizeMod
  | .option s => s.sized
  | .nullable s => s.sized
  | .dynamic _ s => s.sized
  | .vpadded n s => n < usizeMod && s.sized
  | .padded n s => n < usizeMod && s.sized
  | .seq s => s.sized
  | .fixSeq _ s => s.sized
  | .limSeq _ s => s.sized
  | .autobox s => s.sized
  | .hole _ => true
  | .data _ vs => vs.sized
  | .record fs => fs.sized
def Variants.sized : Variants → Bool
  | .nil => true
  | .cons _ s vs => s.sized && vs.sized
def Fields.sized : Fields → Bool
  | .nil => true
  | .cons s fs => s.sized && fs.sized
end

end Verif
