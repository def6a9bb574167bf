import Verif.Spec.Schema
/-
SPECIFICATION: types whose decoding ends on every input.
-/
namespace Verif

mutual
/-- Whatever decoder of the type succeeds on input that is not empty has read something.  Unlike `nonempty`, which is about
all inputs, this is so for everything that reads to the end, such as byte strings and sequences. -/
def Schema.hungry : Schema → Bool
  | .unit => false
  | .bool | .int _ | .f64 | .rangedInt _ _ _ | .rangedFloat _ _ | .zarithN | .zarithZ => true
  | .bytes | .vecU8 | .string => true
  | .fixedBytes n => 0 < n
  | .fixedString n => 0 < n
  | .option _ => true
  | .nullable s => s.hungry
  | .dynamic _ _ => true
  | .vpadded n s => n = 0 || s.nonempty
  | .padded n s => 0 < n || s.hungry
  | .seq _ => true
  | .fixSeq n s => 0 < n && s.hungry
  | .limSeq _ _ => true
  | .autobox s => s.hungry
  | .hole _ => true
  | .cstyle _ _ => true
  | .data _ _ => true
  | .record fs => fs.hungry
def Fields.hungry : Fields → Bool
  | .nil => false
  | .cons s fs => s.hungry || fs.hungry
end

mutual
/-- The elements of all sequences without a limit are such types, and the type is complete. -/
def Schema.ends : Schema → Bool
  | .unit | .bool | .int _ | .f64 | .rangedInt _ _ _ | .rangedFloat _ _ | .zarithN | .zarithZ | .bytes | .vecU8
  | .string | .cstyle _ _ => true
  | .fixedBytes _ => true
  | .fixedString _ => true
  | .option s => s.ends
  | .nullable s => s.ends
  | .dynamic _ s => s.ends
  | .vpadded _ s => s.ends
  | .padded _ s => s.ends
  | .seq s => s.hungry && s.ends
  | .fixSeq _ s => s.ends
  | .limSeq _ s => s.ends
  | .autobox s => s.ends
  | .hole _ => false
  | .data _ vs => vs.ends
  | .record fs => fs.ends
def Variants.ends : Variants → Bool
  | .nil => true
  | .cons _ s vs => s.ends && vs.ends
def Fields.ends : Fields → Bool
  | .nil => true
  | .cons s fs => s.ends && fs.ends
end

end Verif
