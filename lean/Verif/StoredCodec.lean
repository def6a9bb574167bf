import Verif.Storage
import Verif.Schema
/-
The codecs of all types with the storage of `FixSeq` and `LimSeq` in view: those of `Schema.codec` with other decoders of these two.
(Encoding goes through the elements of what is stored, see C70.)
-/
namespace Verif

/-- What depends on the build and the compiler: the features, and how many bytes of memory the values of a type take
(`std::mem::size_of`; for most types Rust does not say). -/
structure Layout where
  /-- the feature `arrayvec_fixseq` -/
  fixArray : Bool
  /-- the feature `arrayvec_limseq` -/
  limArray : Bool
  size : Schema → Nat

namespace Codec

variable {α : Type}

/-- `FixSeq<T, N>` in the storage it is built with: src/seq/fix.rs:27-59, 256-297. -/
noncomputable def storedFix (array : Bool) (size n : Nat) (c : Codec α) : Codec (List α) :=
  { Codec.fixSeq n c with
    parse := fun P =>
      if array then (Storage.array α n).fixParse n P (c.parse P) >>= fun v => Storage.lift v.deref
      else (Storage.vec α size n).fixParse n P (c.parse P) }

/-- `LimSeq<T, N>` in the storage it is built with: src/seq/lim.rs:19-41, 279-308. -/
noncomputable def storedLim (array : Bool) (size n : Nat) (c : Codec α) : Codec (List α) :=
  { Codec.limSeq n c with
    parse := fun P =>
      if array then (Storage.array α n).limParse n P (c.parse P) >>= fun v => Storage.lift v.deref
      else (Storage.vec α size n).limParse n P (c.parse P) }

end Codec

mutual
/-- The code the library and its macros provide for the type, with storage in view: for all types but the two what
`Schema.codec` cites. -/
noncomputable def Schema.storedCodec (L : Layout) (cfg : Cfg) : (s : Schema) → Codec s.Val
  | .unit => Codec.unit
  | .bool => Codec.bool
  | .int t => Codec.int t
  | .f64 => Codec.f64
  | .rangedInt t min max => Codec.rangedInt t min max
  | .rangedFloat min max => Codec.rangedFloat min max
  | .zarithN => Codec.zarithN
  | .zarithZ => Codec.zarithZ
  | .bytes => Codec.bytes
  | .vecU8 => Codec.vecU8
  | .string => Codec.string
  | .fixedBytes n => Codec.fixedBytes n
  | .fixedString n => Codec.fixedString n
  | .option s => Codec.option (s.storedCodec L cfg)
  | .nullable s => Codec.nullable (s.storedCodec L cfg)
  | .dynamic S s => Codec.dynamic cfg S (s.storedCodec L cfg)
  | .vpadded n s => Codec.vpadded cfg n (s.storedCodec L cfg)
  | .padded n s => Codec.padded cfg n (s.storedCodec L cfg)
  | .seq s => Codec.seq (s.storedCodec L cfg)
  | .fixSeq n s => Codec.storedFix L.fixArray (L.size s) n (s.storedCodec L cfg)
  | .limSeq n s => Codec.storedLim L.limArray (L.size s) n (s.storedCodec L cfg)
  | .autobox s => Codec.autobox (s.storedCodec L cfg)
  | .hole _ => Codec.hole
  | .cstyle w tags => Codec.cstyle w tags
  | .data w vs => Codec.data w (vs.storedCodec L cfg)
  | .record fs => Codec.record (fs.storedCodec L cfg)
noncomputable def Variants.storedCodec (L : Layout) (cfg : Cfg) : (vs : Variants) → VCodec vs.Val
  | .nil => VCodec.nil
  | .cons tag s vs => VCodec.cons tag (s.storedCodec L cfg) (vs.storedCodec L cfg)
noncomputable def Fields.storedCodec (L : Layout) (cfg : Cfg) : (fs : Fields) → FCodec fs.Val
  | .nil => FCodec.nil
  | .cons s fs => FCodec.cons (s.storedCodec L cfg) (fs.storedCodec L cfg)
end

end Verif
