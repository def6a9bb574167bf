import Verif.Schema
/-
How many `N`s with value 0 a value contains: each of them takes one byte and is estimated at none.
-/
namespace Verif

mutual
/-- The number of `N`s with value 0 in a value. -/
def Schema.zeros : (s : Schema) → s.Val → Nat
  | .unit => fun _ => 0
  | .bool => fun _ => 0
  | .int _ => fun _ => 0
  | .f64 => fun _ => 0
  | .rangedInt _ _ _ => fun _ => 0
  | .rangedFloat _ _ => fun _ => 0
  | .zarithN => fun (x : Nat) => if x = 0 then 1 else 0
  | .zarithZ => fun _ => 0
  | .bytes => fun _ => 0
  | .vecU8 => fun _ => 0
  | .string => fun _ => 0
  | .fixedBytes _ => fun _ => 0
  | .fixedString _ => fun _ => 0
  | .option s => fun (o : Option s.Val) => match o with | none => 0 | some x => s.zeros x
  | .nullable s => fun (o : Option s.Val) => match o with | none => 0 | some x => s.zeros x
  | .dynamic _ s => s.zeros
  | .vpadded _ s => s.zeros
  | .padded _ s => s.zeros
  | .seq s => fun (xs : List s.Val) => (xs.map s.zeros).sum
  | .fixSeq _ s => fun (xs : List s.Val) => (xs.map s.zeros).sum
  | .limSeq _ s => fun (xs : List s.Val) => (xs.map s.zeros).sum
  | .autobox s => s.zeros
  | .hole _ => fun _ => 0
  | .cstyle _ _ => fun _ => 0
  | .data _ vs => vs.zeros
  | .record fs => fs.zeros
def Variants.zeros : (vs : Variants) → vs.Val → Nat
  | .nil => fun _ => 0
  | .cons _ s vs => Sum.elim s.zeros vs.zeros
def Fields.zeros : (fs : Fields) → fs.Val → Nat
  | .nil => fun _ => 0
  | .cons s fs => fun x => s.zeros x.1 + fs.zeros x.2
end

end Verif
