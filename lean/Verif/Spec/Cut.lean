import Verif.Spec.Schema
/-
SPECIFICATION for messages that were cut off: the errors that say so, and the types for which they do.
-/
namespace Verif

/-- The error says that there is too little input, and the number of bytes it says are missing is at most `m`:
a read beyond the end, a window beyond the end (the numbers reported with it are not specified), a
number without its last byte, or too few elements. -/
def ParseError.WantsMore (m : Nat) : ParseError → Prop
  | .window (.consumeWouldExceedLimit offset requested limit) =>
    limit - offset < requested ∧ requested ≤ (limit - offset) + m
  | .window (.openWouldExceedBuffer _ _) => True
  | .window (.openWouldExceedWindow _ _) => True
  | .token (.nonTerminating _) => True
  | .external (.lengthViolation (.wrongLength exact actual)) => actual < exact
  | _ => False

mutual
/-- There is a `VPadded` that is not within a `Dynamic`: what it reads depends on where the input ends. -/
def Schema.reserves : Schema → Bool
  | .vpadded _ _ => true
  | .option s => s.reserves
  | .nullable s => s.reserves
  | .padded _ s => s.reserves
  | .seq s => s.reserves
  | .fixSeq _ s => s.reserves
  | .limSeq _ s => s.reserves
  | .autobox s => s.reserves
  | .data _ vs => vs.reserves
  | .record fs => fs.reserves
  | .dynamic _ _ | .hole _ | .unit | .bool | .int _ | .f64 | .rangedInt _ _ _ | .rangedFloat _ _ | .zarithN | .zarithZ
  | .bytes | .vecU8 | .string | .fixedBytes _ | .fixedString _ | .cstyle _ _ => false
def Variants.reserves : Variants → Bool
  | .nil => false
  | .cons _ s vs => s.reserves || vs.reserves
def Fields.reserves : Fields → Bool
  | .nil => false
  | .cons s fs => s.reserves || fs.reserves
end

end Verif
