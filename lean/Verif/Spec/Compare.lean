import Verif.Compare
import Verif.Spec.Schema
/-
What C64 says about comparisons: where doubles occur in a type and NaNs in a value.
-/
namespace Verif

mutual
/-- A NaN occurs in the value. -/
def Schema.HasNan : (s : Schema) → s.Val → Prop
  | .unit => fun _ => False
  | .bool => fun _ => False
  | .int _ => fun _ => False
  | .f64 => fun x => F64.isNan x = true
  | .rangedInt _ _ _ => fun _ => False
  | .rangedFloat _ _ => fun x => F64.isNan x = true
  | .zarithN => fun _ => False
  | .zarithZ => fun _ => False
  | .bytes => fun _ => False
  | .vecU8 => fun _ => False
  | .string => fun _ => False
  | .fixedBytes _ => fun _ => False
  | .fixedString _ => fun _ => False
  | .option s => fun (o : Option s.Val) => ∃ x, o = some x ∧ s.HasNan x
  | .nullable s => fun (o : Option s.Val) => ∃ x, o = some x ∧ s.HasNan x
  | .dynamic _ s => s.HasNan
  | .vpadded _ s => s.HasNan
  | .padded _ s => s.HasNan
  | .seq s => fun (xs : List s.Val) => ∃ x ∈ xs, s.HasNan x
  | .fixSeq _ s => fun (xs : List s.Val) => ∃ x ∈ xs, s.HasNan x
  | .limSeq _ s => fun (xs : List s.Val) => ∃ x ∈ xs, s.HasNan x
  | .autobox s => s.HasNan
  | .hole _ => fun (x : Empty) => x.elim
  | .cstyle _ _ => fun _ => False
  | .data _ vs => vs.HasNan
  | .record fs => fs.HasNan
def Variants.HasNan : (vs : Variants) → vs.Val → Prop
  | .nil => fun (x : Empty) => x.elim
  | .cons _ s vs => Sum.elim s.HasNan vs.HasNan
def Fields.HasNan : (fs : Fields) → fs.Val → Prop
  | .nil => fun _ => False
  | .cons s fs => fun x => s.HasNan x.1 ∨ fs.HasNan x.2
end

mutual
/-- No `f64` and no `RangedFloat` in the type. -/
def Schema.floatFree : Schema → Bool
  | .f64 => false
  | .rangedFloat _ _ => false
  | .option s => s.floatFree
  | .nullable s => s.floatFree
  | .dynamic _ s => s.floatFree
  | .vpadded _ s => s.floatFree
  | .padded _ s => s.floatFree
  | .seq s => s.floatFree
  | .fixSeq _ s => s.floatFree
  | .limSeq _ s => s.floatFree
  | .autobox s => s.floatFree
  | .data _ vs => vs.floatFree
  | .record fs => fs.floatFree
  | _ => true
def Variants.floatFree : Variants → Bool
  | .nil => true
  | .cons _ s vs => s.floatFree && vs.floatFree
def Fields.floatFree : Fields → Bool
  | .nil => true
  | .cons s fs => s.floatFree && fs.floatFree
end

mutual
/-- Doubles occur in the type only as `RangedFloat`. -/
def Schema.rangedFloats : Schema → Bool
  | .f64 => false
  | .option s => s.rangedFloats
  | .nullable s => s.rangedFloats
  | .dynamic _ s => s.rangedFloats
  | .vpadded _ s => s.rangedFloats
  | .padded _ s => s.rangedFloats
  | .seq s => s.rangedFloats
  | .fixSeq _ s => s.rangedFloats
  | .limSeq _ s => s.rangedFloats
  | .autobox s => s.rangedFloats
  | .data _ vs => vs.rangedFloats
  | .record fs => fs.rangedFloats
  | _ => true
def Variants.rangedFloats : Variants → Bool
  | .nil => true
  | .cons _ s vs => s.rangedFloats && vs.rangedFloats
def Fields.rangedFloats : Fields → Bool
  | .nil => true
  | .cons s fs => s.rangedFloats && fs.rangedFloats
end

/-- The same bytes, but for sign bytes of zeros: `0x00` in one where `0x80` is in the other. -/
inductive Near : Bytes → Bytes → Prop where
  | nil : Near [] []
  | same (a : Byte) {b c : Bytes} : Near b c → Near (a :: b) (a :: c)
  | neg {b c : Bytes} : Near b c → Near (0x00 :: b) (0x80 :: c)
  | pos {b c : Bytes} : Near b c → Near (0x80 :: b) (0x00 :: c)

end Verif
