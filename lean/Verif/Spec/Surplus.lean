import Verif.Spec.Schema
/-
By how much length estimates exceed the length of an encoding because of fixed-length sequences that are not full.
-/
namespace Verif

mutual
/-- The bytes that are missing in a value of a type of known length: those of the places of `FixSeq`s that are not taken
(negative if there are more elements than places). -/
def Schema.vacancy : (s : Schema) → s.Val → Int
  | .unit => fun _ => 0
  | .bool => fun _ => 0
  | .int _ => fun _ => 0
  | .f64 => fun _ => 0
  | .rangedInt _ _ _ => fun _ => 0
  | .rangedFloat _ _ => fun _ => 0
  | .zarithN => fun _ => 0
  | .zarithZ => fun _ => 0
  | .bytes => fun _ => 0
  | .vecU8 => fun _ => 0
  | .string => fun _ => 0
  | .fixedBytes _ => fun _ => 0
  | .fixedString _ => fun _ => 0
  | .option s => fun (o : Option s.Val) => match o with | none => 0 | some x => s.vacancy x
  | .nullable s => fun (o : Option s.Val) => match o with | none => 0 | some x => s.vacancy x
  | .dynamic _ s => s.vacancy
  | .vpadded _ s => s.vacancy
  | .padded _ s => s.vacancy
  | .seq _ => fun _ => 0
  | .fixSeq n s => fun (xs : List s.Val) => ((n : Int) - xs.length) * (s.width.getD 0 : Nat) + (xs.map s.vacancy).sum
  | .limSeq _ _ => fun _ => 0
  | .autobox s => s.vacancy
  | .hole _ => fun _ => 0
  | .cstyle _ _ => fun _ => 0
  | .data _ _ => fun _ => 0
  | .record fs => fs.vacancy
def Fields.vacancy : (fs : Fields) → fs.Val → Int
  | .nil => fun _ => 0
  | .cons s fs => fun x => s.vacancy x.1 + fs.vacancy x.2
end

/-- What counts for a type: the vacancy if its length is known, and what its parts count for if not. -/
def countFor (width : Option Nat) (vacancy parts : Int) : Int := if width.isSome then vacancy else parts

mutual
/-- The vacancies in a value of a type of unknown length that are counted as taken: those of optional values, of the elements of
`Sequence` and `LimSeq` and of the payloads of `data!` enums, if their type has a known length.  (Fields of records and elements of
`FixSeq` are measured one by one.) -/
def Schema.hidden : (s : Schema) → s.Val → Int
  | .unit => fun _ => 0
  | .bool => fun _ => 0
  | .int _ => fun _ => 0
  | .f64 => fun _ => 0
  | .rangedInt _ _ _ => fun _ => 0
  | .rangedFloat _ _ => fun _ => 0
  | .zarithN => fun _ => 0
  | .zarithZ => fun _ => 0
  | .bytes => fun _ => 0
  | .vecU8 => fun _ => 0
  | .string => fun _ => 0
  | .fixedBytes _ => fun _ => 0
  | .fixedString _ => fun _ => 0
  | .option s => fun (o : Option s.Val) => match o with
    | none => 0
    | some x => countFor s.width (s.vacancy x) (s.hidden x)
  | .nullable s => fun (o : Option s.Val) => match o with
    | none => 0
    | some x => countFor s.width (s.vacancy x) (s.hidden x)
  | .dynamic _ s => s.hidden
  | .vpadded _ s => s.hidden
  | .padded _ s => s.hidden
  | .seq s => fun (xs : List s.Val) => (xs.map fun x => countFor s.width (s.vacancy x) (s.hidden x)).sum
  | .fixSeq _ s => fun (xs : List s.Val) => (xs.map s.hidden).sum
  | .limSeq _ s => fun (xs : List s.Val) => (xs.map fun x => countFor s.width (s.vacancy x) (s.hidden x)).sum
  | .autobox s => s.hidden
  | .hole _ => fun _ => 0
  | .cstyle _ _ => fun _ => 0
  | .data _ vs => vs.hidden
  | .record fs => fs.hidden
def Variants.hidden : (vs : Variants) → vs.Val → Int
  | .nil => fun _ => 0
  | .cons _ s vs => Sum.elim (fun x => countFor s.width (s.vacancy x) (s.hidden x)) vs.hidden
def Fields.hidden : (fs : Fields) → fs.Val → Int
  | .nil => fun _ => 0
  | .cons s fs => fun x => s.hidden x.1 + fs.hidden x.2
end

/-- The bytes that a value is estimated at but that it does not have. -/
def Schema.surplus (s : Schema) (x : s.Val) : Int := countFor s.width (s.vacancy x) (s.hidden x)

end Verif
