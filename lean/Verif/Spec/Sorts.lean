import Verif.Spec.Schema
/-
SPECIFICATION: types whose encodings sort like their values.
-/
namespace Verif

def Fields.isNil : Fields → Bool
  | .nil => true
  | .cons _ _ => false

mutual
/-- Comparing encodings byte by byte gives the order of the values.  `last`: the encodings are compared up to their ends, nothing
follows them.  `h`: what is assumed of the types in the place of holes is enough where something follows. -/
def Schema.sorts (h last : Bool) : Schema → Bool
  | .unit | .bool | .fixedBytes _ | .fixedString _ | .cstyle _ _ => true
  | .int t => !t.signed
  | .rangedInt t min max => !t.signed || decide (0 ≤ min) || decide (max < 0)
  | .rangedFloat min _ => decide (0 < F64.key min)
  | .f64 | .zarithN | .zarithZ => false
  | .bytes | .vecU8 | .string => last
  | .option s => s.sorts h last
  | .nullable s => last && s.nonempty && s.sorts h last
  | .dynamic _ s => s.width.isSome && s.sorts h true
  | .vpadded _ s => s.sorts h last
  | .padded _ s => s.sorts h false
  | .seq s => last && s.nonempty && s.sorts h false
  | .limSeq _ s => last && s.nonempty && s.sorts h false
  | .fixSeq _ s => s.sorts h false
  | .autobox s => s.sorts h last
  | .hole _ => h || last
  | .data _ vs => vs.sorts h last
  | .record fs => fs.sorts h last
/-- … and the tags are in the order of declaration. -/
def Variants.sorts (h last : Bool) : Variants → Bool
  | .nil => true
  | .cons tag s vs => vs.tags.all (fun t => decide (tag < t)) && s.sorts h last && vs.sorts h last
/-- Only the last field may be one that has to be last. -/
def Fields.sorts (h last : Bool) : Fields → Bool
  | .nil => true
  | .cons s fs => s.sorts h (last && fs.isNil) && fs.sorts h last
end

end Verif
