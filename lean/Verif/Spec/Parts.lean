import Verif.Schema
/-
All parts of a value.
-/
namespace Verif

mutual
/-- `P` is true of the value and of all values inside it. -/
def Schema.eachPart (P : (s : Schema) → s.Val → Prop) : (s : Schema) → s.Val → Prop
  | .option s => fun (x : Option s.Val) => P (.option s) x ∧ ∀ y, x = some y → s.eachPart P y
  | .nullable s => fun (x : Option s.Val) => P (.nullable s) x ∧ ∀ y, x = some y → s.eachPart P y
  | .dynamic S s => fun (x : s.Val) => P (.dynamic S s) x ∧ s.eachPart P x
  | .vpadded n s => fun (x : s.Val) => P (.vpadded n s) x ∧ s.eachPart P x
  | .padded n s => fun (x : s.Val) => P (.padded n s) x ∧ s.eachPart P x
  | .seq s => fun (xs : List s.Val) => P (.seq s) xs ∧ ∀ y ∈ xs, s.eachPart P y
  | .fixSeq n s => fun (xs : List s.Val) => P (.fixSeq n s) xs ∧ ∀ y ∈ xs, s.eachPart P y
  | .limSeq n s => fun (xs : List s.Val) => P (.limSeq n s) xs ∧ ∀ y ∈ xs, s.eachPart P y
  | .autobox s => fun (x : s.Val) => P (.autobox s) x ∧ s.eachPart P x
  | .data w vs => fun (x : vs.Val) => P (.data w vs) x ∧ vs.eachPart P x
  | .record fs => fun (x : fs.Val) => P (.record fs) x ∧ fs.eachPart P x
  | .unit => P .unit
  | .bool => P .bool
  | .int t => P (.int t)
  | .f64 => P .f64
  | .rangedInt t min max => P (.rangedInt t min max)
  | .rangedFloat min max => P (.rangedFloat min max)
  | .zarithN => P .zarithN
  | .zarithZ => P .zarithZ
  | .bytes => P .bytes
  | .vecU8 => P .vecU8
  | .string => P .string
  | .fixedBytes n => P (.fixedBytes n)
  | .fixedString n => P (.fixedString n)
  | .hole i => P (.hole i)
  | .cstyle w tags => P (.cstyle w tags)
def Variants.eachPart (P : (s : Schema) → s.Val → Prop) : (vs : Variants) → vs.Val → Prop
  | .nil => fun _ => True
  | .cons _ s vs => fun (x : s.Val ⊕ vs.Val) =>
    (∀ y, x = .inl y → s.eachPart P y) ∧ (∀ y, x = .inr y → vs.eachPart P y)
def Fields.eachPart (P : (s : Schema) → s.Val → Prop) : (fs : Fields) → fs.Val → Prop
  | .nil => fun _ => True
  | .cons s fs => fun (x : s.Val × fs.Val) => s.eachPart P x.1 ∧ fs.eachPart P x.2
end

end Verif
