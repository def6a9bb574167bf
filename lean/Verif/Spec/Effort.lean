import Verif.Spec.Size
import Verif.Spec.Format
/-
SPECIFICATION: what writing a value costs if writing `n` bytes at once costs `cost n`.
-/
namespace Verif

/-- The calls of `unknown` that estimating the length of a value of a type of this width takes, if `unknown` of it takes `n`. -/
def unlessKnown (width : Option Nat) (n : Nat) : Nat := if width.isSome then 0 else n

mutual
/-- The number of calls of `unknown` that `unknown` of a value takes, itself among them. -/
def Schema.calls : (s : Schema) → s.Val → Nat
  | .unit => fun _ => 1
  | .bool => fun _ => 1
  | .int _ => fun _ => 1
  | .f64 => fun _ => 1
  | .rangedInt _ _ _ => fun _ => 1
  | .rangedFloat _ _ => fun _ => 1
  | .zarithN => fun _ => 1
  | .zarithZ => fun _ => 1
  | .bytes => fun _ => 1
  | .vecU8 => fun _ => 1
  | .string => fun _ => 1
  | .fixedBytes _ => fun _ => 1
  | .fixedString _ => fun _ => 1
  | .option s => fun (o : Option s.Val) => o.elim 0 (fun x => unlessKnown s.width (s.calls x)) + 1
  | .nullable s => fun (o : Option s.Val) => o.elim 0 (fun x => unlessKnown s.width (s.calls x)) + 1
  | .dynamic _ s => fun x => s.calls x + 1
  | .vpadded _ s => fun x => s.calls x + 1
  | .padded _ s => fun x => s.calls x + 1
  | .seq s => fun (xs : List s.Val) => (xs.map fun x => unlessKnown s.width (s.calls x)).sum + 1
  | .fixSeq _ s => fun (xs : List s.Val) => (xs.map s.calls).sum + 1
  | .limSeq _ s => fun (xs : List s.Val) => (xs.map fun x => unlessKnown s.width (s.calls x)).sum + 1
  | .autobox s => fun x => s.calls x + 1
  | .hole _ => fun _ => 1
  | .cstyle _ _ => fun _ => 1
  | .data _ vs => fun x => vs.calls x + 1
  | .record fs => fun x => fs.calls x + 1
def Variants.calls : (vs : Variants) → vs.Val → Nat
  | .nil => fun _ => 0
  | .cons _ s vs => Sum.elim (fun x => unlessKnown s.width (s.calls x)) vs.calls
def Fields.calls : (fs : Fields) → fs.Val → Nat
  | .nil => fun _ => 0
  | .cons s fs => fun x => s.calls x.1 + fs.calls x.2
end

/-- The number of calls of `unknown` that estimating a value takes. -/
def Schema.looks (s : Schema) (x : s.Val) : Nat := unlessKnown s.width (s.calls x)

mutual
/-- The cost of writing a value if the contents of a `Dynamic` are written `times` times and estimated at `look` for each call that
takes. -/
def Schema.work (cost : Nat → Nat) (look times : Nat) : (s : Schema) → s.Val → Nat
  | .unit => fun _ => 0
  | .bool => fun _ => cost 1
  | .int t => fun _ => cost t.len
  | .f64 => fun _ => cost 8
  | .rangedInt t _ _ => fun _ => cost t.len
  | .rangedFloat _ _ => fun _ => cost 8
  | .zarithN => fun (x : Nat) => cost (Enc.nat7 x).length
  | .zarithZ => fun (x : Int) => cost (Enc.int7 x).length
  | .bytes => fun (x : Bytes) => cost x.length
  | .vecU8 => fun (x : Bytes) => cost x.length
  | .string => fun (x : List Char) => cost (utf8 x).length
  | .fixedBytes n => fun _ => cost n
  | .fixedString n => fun _ => cost n
  | .option s => fun (o : Option s.Val) => cost 1 + o.elim 0 (s.work cost look times)
  | .nullable s => fun (o : Option s.Val) => o.elim 0 (s.work cost look times)
  | .dynamic S s => fun x => cost S.len + look * s.looks x + times * s.work cost look times x
  | .vpadded _ s => s.work cost look times
  | .padded n s => fun x => s.work cost look times x + cost n
  | .seq s => fun (xs : List s.Val) => (xs.map (s.work cost look times)).sum
  | .fixSeq _ s => fun (xs : List s.Val) => (xs.map (s.work cost look times)).sum
  | .limSeq _ s => fun (xs : List s.Val) => (xs.map (s.work cost look times)).sum
  | .autobox s => s.work cost look times
  | .hole _ => fun _ => 0
  | .cstyle w _ => fun _ => cost w.len
  | .data w vs => fun x => cost w.len + vs.work cost look times x
  | .record fs => fs.work cost look times
def Variants.work (cost : Nat → Nat) (look times : Nat) : (vs : Variants) → vs.Val → Nat
  | .nil => fun _ => 0
  | .cons _ s vs => Sum.elim (s.work cost look times) (vs.work cost look times)
def Fields.work (cost : Nat → Nat) (look times : Nat) : (fs : Fields) → fs.Val → Nat
  | .nil => fun _ => 0
  | .cons s fs => fun x => s.work cost look times x.1 + fs.work cost look times x.2
end

mutual
/-- The largest number of length prefixes that enclose one another in values of the type. -/
def Schema.dynDepth : Schema → Nat
  | .unit | .bool | .int _ | .f64 | .rangedInt _ _ _ | .rangedFloat _ _ | .zarithN | .zarithZ | .bytes | .vecU8
  | .string | .fixedBytes _ | .fixedString _ | .cstyle _ _ | .hole _ => 0
  | .option s => s.dynDepth
  | .nullable s => s.dynDepth
  | .dynamic _ s => s.dynDepth + 1
  | .vpadded _ s => s.dynDepth
  | .padded _ s => s.dynDepth
  | .seq s => s.dynDepth
  | .fixSeq _ s => s.dynDepth
  | .limSeq _ s => s.dynDepth
  | .autobox s => s.dynDepth
  | .data _ vs => vs.dynDepth
  | .record fs => fs.dynDepth
def Variants.dynDepth : Variants → Nat
  | .nil => 0
  | .cons _ s vs => max s.dynDepth vs.dynDepth
def Fields.dynDepth : Fields → Nat
  | .nil => 0
  | .cons s fs => max s.dynDepth fs.dynDepth
end

end Verif
