import Verif.Codec.Comb
/-
Schemas: the types that can be built from the library's codecs, and for each of them the codec of the
model.  A user-defined type is one of these up to renaming (`cstyle!`, `data!`, derived records).
Recursive types (through `AutoBox`) have no finite schema; they are the limits of schemas with holes, see
Verif/Recursive.lean.
-/
namespace Verif

mutual
/-- A type with a codec. -/
inductive Schema where
  | unit
  | bool
  | int (t : IntTy)
  | f64
  | rangedInt (t : IntTy) (min max : Int)
  | rangedFloat (min max : BitVec 64)
  | zarithN
  | zarithZ
  /-- `Bytes` -/
  | bytes
  /-- `Vec<u8>` -/
  | vecU8
  | string
  | fixedBytes (n : Nat)
  | fixedString (n : Nat)
  | option (s : Schema)
  | nullable (s : Schema)
  | dynamic (S : LenPref) (s : Schema)
  | vpadded (n : Nat) (s : Schema)
  | padded (n : Nat) (s : Schema)
  | seq (s : Schema)
  | fixSeq (n : Nat) (s : Schema)
  | limSeq (n : Nat) (s : Schema)
  | autobox (s : Schema)
  /-- the `i`-th of a family of recursive types, not unfolded any further (Verif/Recursive.lean) -/
  | hole (i : Nat)
  /-- `cstyle!` -/
  | cstyle (w : TagWidth) (tags : List Nat)
  /-- `data!` -/
  | data (w : TagWidth) (vs : Variants)
  /-- a struct with derived codec -/
  | record (fs : Fields)
/-- The arms of a `data!` enum. -/
inductive Variants where
  | nil
  | cons (tag : Nat) (s : Schema) (vs : Variants)
/-- The fields of a record. -/
inductive Fields where
  | nil
  | cons (s : Schema) (fs : Fields)
end

mutual
/-- The values of a schema type. -/
def Schema.Val : Schema → Type
  | .unit => Unit
  | .bool => Bool
  | .int t => t.Val
  | .f64 => BitVec 64
  | .rangedInt t _ _ => t.Val
  | .rangedFloat _ _ => BitVec 64
  | .zarithN => Nat
  | .zarithZ => Int
  | .bytes => Bytes
  | .vecU8 => Bytes
  | .string => List Char
  | .fixedBytes n => ByteArr n
  | .fixedString n => ByteArr n
  | .option s => Option s.Val
  | .nullable s => Option s.Val
  | .dynamic _ s => s.Val
  | .vpadded _ s => s.Val
  | .padded _ s => s.Val
  | .seq s => List s.Val
  | .fixSeq _ s => List s.Val
  | .limSeq _ s => List s.Val
  | .autobox s => s.Val
  | .hole _ => Empty
  | .cstyle _ tags => CEnum tags
  | .data _ vs => vs.Val
  | .record fs => fs.Val
/-- A value of the enum is a value of one of the arms. -/
def Variants.Val : Variants → Type
  | .nil => Empty
  | .cons _ s vs => s.Val ⊕ vs.Val
/-- A value of the record has a value for each field. -/
def Fields.Val : Fields → Type
  | .nil => Unit
  | .cons s fs => s.Val × fs.Val
end

mutual
/-- The code the library and its macros provide for the type. -/
noncomputable def Schema.codec (cfg : Cfg) : (s : Schema) → Codec s.Val
  | .unit => Codec.unit
  | .bool => Codec.bool
  | .int t => Codec.int t
  | .f64 => Codec.f64
  | .rangedInt t min max => Codec.rangedInt t min max
  | .rangedFloat min max => Codec.rangedFloat min max
  | .zarithN => Codec.zarithN
  | .zarithZ => Codec.zarithZ
  | .bytes => Codec.bytes
  | .vecU8 => Codec.vecU8
  | .string => Codec.string
  | .fixedBytes n => Codec.fixedBytes n
  | .fixedString n => Codec.fixedString n
  | .option s => Codec.option (s.codec cfg)
  | .nullable s => Codec.nullable (s.codec cfg)
  | .dynamic S s => Codec.dynamic cfg S (s.codec cfg)
  | .vpadded n s => Codec.vpadded cfg n (s.codec cfg)
  | .padded n s => Codec.padded cfg n (s.codec cfg)
  | .seq s => Codec.seq (s.codec cfg)
  | .fixSeq n s => Codec.fixSeq n (s.codec cfg)
  | .limSeq n s => Codec.limSeq n (s.codec cfg)
  | .autobox s => Codec.autobox (s.codec cfg)
  | .hole _ => Codec.hole
  | .cstyle w tags => Codec.cstyle w tags
  | .data w vs => Codec.data w (vs.codec cfg)
  | .record fs => Codec.record (fs.codec cfg)
noncomputable def Variants.codec (cfg : Cfg) : (vs : Variants) → VCodec vs.Val
  | .nil => VCodec.nil
  | .cons tag s vs => VCodec.cons tag (s.codec cfg) (vs.codec cfg)
noncomputable def Fields.codec (cfg : Cfg) : (fs : Fields) → FCodec fs.Val
  | .nil => FCodec.nil
  | .cons s fs => FCodec.cons (s.codec cfg) (fs.codec cfg)
end

end Verif
