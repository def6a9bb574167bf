import Verif.RangeCheck
import Verif.Schema
/-
The codecs of all types with the feature `invalid_range_checking`: those of `Schema.codec` with other ranged integers.  (Length
prefixes of type `u30` are ranged integers too, of a range that passes the check: C63_sound.)
-/
namespace Verif

mutual
/-- The code the library and its macros provide for the type, with the feature: src/int.rs:513-544 for ranged integers, for all
other types what `Schema.codec` cites. -/
noncomputable def Schema.checkedCodec (cfg : Cfg) : (s : Schema) → Codec s.Val
  | .unit => Codec.unit
  | .bool => Codec.bool
  | .int t => Codec.int t
  | .f64 => Codec.f64
  | .rangedInt t min max => Codec.checkedRangedInt t min max
  | .rangedFloat min max => Codec.rangedFloat min max
  | .zarithN => Codec.zarithN
  | .zarithZ => Codec.zarithZ
  | .bytes => Codec.bytes
  | .vecU8 => Codec.vecU8
  | .string => Codec.string
  | .fixedBytes n => Codec.fixedBytes n
  | .fixedString n => Codec.fixedString n
  | .option s => Codec.option (s.checkedCodec cfg)
  | .nullable s => Codec.nullable (s.checkedCodec cfg)
  | .dynamic S s => Codec.dynamic cfg S (s.checkedCodec cfg)
  | .vpadded n s => Codec.vpadded cfg n (s.checkedCodec cfg)
  | .padded n s => Codec.padded cfg n (s.checkedCodec cfg)
  | .seq s => Codec.seq (s.checkedCodec cfg)
  | .fixSeq n s => Codec.fixSeq n (s.checkedCodec cfg)
  | .limSeq n s => Codec.limSeq n (s.checkedCodec cfg)
  | .autobox s => Codec.autobox (s.checkedCodec cfg)
  | .hole _ => Codec.hole
  | .cstyle w tags => Codec.cstyle w tags
  | .data w vs => Codec.data w (vs.checkedCodec cfg)
  | .record fs => Codec.record (fs.checkedCodec cfg)
noncomputable def Variants.checkedCodec (cfg : Cfg) : (vs : Variants) → VCodec vs.Val
  | .nil => VCodec.nil
  | .cons tag s vs => VCodec.cons tag (s.checkedCodec cfg) (vs.checkedCodec cfg)
noncomputable def Fields.checkedCodec (cfg : Cfg) : (fs : Fields) → FCodec fs.Val
  | .nil => FCodec.nil
  | .cons s fs => FCodec.cons (s.checkedCodec cfg) (fs.checkedCodec cfg)
end

end Verif
