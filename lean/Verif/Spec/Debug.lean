import Verif.Schema
/-
The `Dynamic` values and the numbers of arbitrary size inside a value.
-/
namespace Verif

mutual
/-- Somewhere inside the value is a `Dynamic` for whose contents `P` is true. -/
def Schema.someDynamic (P : (s : Schema) → s.Val → Prop) : (s : Schema) → s.Val → Prop
  | .option s => fun (x : Option s.Val) => ∃ y, x = some y ∧ s.someDynamic P y
  | .nullable s => fun (x : Option s.Val) => ∃ y, x = some y ∧ s.someDynamic P y
  | .dynamic _ s => fun x => P s x ∨ s.someDynamic P x
  | .vpadded _ s => s.someDynamic P
  | .padded _ s => s.someDynamic P
  | .seq s => fun (xs : List s.Val) => ∃ y ∈ xs, s.someDynamic P y
  | .fixSeq _ s => fun (xs : List s.Val) => ∃ y ∈ xs, s.someDynamic P y
  | .limSeq _ s => fun (xs : List s.Val) => ∃ y ∈ xs, s.someDynamic P y
  | .autobox s => s.someDynamic P
  | .data _ vs => vs.someDynamic P
  | .record fs => fs.someDynamic P
  | .unit | .bool | .int _ | .f64 | .rangedInt _ _ _ | .rangedFloat _ _ | .zarithN | .zarithZ | .bytes | .vecU8
  | .string | .fixedBytes _ | .fixedString _ | .hole _ | .cstyle _ _ => fun _ => False
def Variants.someDynamic (P : (s : Schema) → s.Val → Prop) : (vs : Variants) → vs.Val → Prop
  | .nil => fun _ => False
  | .cons _ s vs => fun (x : s.Val ⊕ vs.Val) =>
    (∃ y, x = .inl y ∧ s.someDynamic P y) ∨ (∃ y, x = .inr y ∧ vs.someDynamic P y)
def Fields.someDynamic (P : (s : Schema) → s.Val → Prop) : (fs : Fields) → fs.Val → Prop
  | .nil => fun _ => False
  | .cons s fs => fun (x : s.Val × fs.Val) => s.someDynamic P x.1 ∨ fs.someDynamic P x.2
end

mutual
/-- Somewhere inside the value is an `N` or a `Z` for whose absolute value `P` is true. -/
def Schema.someNumber (P : Nat → Prop) : (s : Schema) → s.Val → Prop
  | .option s => fun (x : Option s.Val) => ∃ y, x = some y ∧ s.someNumber P y
  | .nullable s => fun (x : Option s.Val) => ∃ y, x = some y ∧ s.someNumber P y
  | .zarithN => fun (x : Nat) => P x
  | .zarithZ => fun (x : Int) => P x.natAbs
  | .dynamic _ s => s.someNumber P
  | .vpadded _ s => s.someNumber P
  | .padded _ s => s.someNumber P
  | .seq s => fun (xs : List s.Val) => ∃ y ∈ xs, s.someNumber P y
  | .fixSeq _ s => fun (xs : List s.Val) => ∃ y ∈ xs, s.someNumber P y
  | .limSeq _ s => fun (xs : List s.Val) => ∃ y ∈ xs, s.someNumber P y
  | .autobox s => s.someNumber P
  | .data _ vs => vs.someNumber P
  | .record fs => fs.someNumber P
  | .unit | .bool | .int _ | .f64 | .rangedInt _ _ _ | .rangedFloat _ _ | .bytes | .vecU8
  | .string | .fixedBytes _ | .fixedString _ | .hole _ | .cstyle _ _ => fun _ => False
def Variants.someNumber (P : Nat → Prop) : (vs : Variants) → vs.Val → Prop
  | .nil => fun _ => False
  | .cons _ s vs => fun (x : s.Val ⊕ vs.Val) =>
    (∃ y, x = .inl y ∧ s.someNumber P y) ∨ (∃ y, x = .inr y ∧ vs.someNumber P y)
def Fields.someNumber (P : Nat → Prop) : (fs : Fields) → fs.Val → Prop
  | .nil => fun _ => False
  | .cons s fs => fun (x : s.Val × fs.Val) => s.someNumber P x.1 ∨ fs.someNumber P x.2
end

end Verif
