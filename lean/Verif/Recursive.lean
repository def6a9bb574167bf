import Verif.Schema
/-
Recursive types (src/autobox.rs:1-70).  A family of mutually recursive types is given by schemas in which
`hole i` mentions the `i`-th type of the family (in Rust behind an `AutoBox`).  The types are the limits of
the finite unfoldings of their definitions: a value is a value of some unfolding, and running the recursive
code is running the code of an unfolding that is deep enough (Verif/RecCodec.lean).
The depth of the Rust stack is not modelled.
-/
namespace Verif

mutual
/-- Put schemas in the place of the holes. -/
def Schema.fill (ρ : Nat → Schema) : Schema → Schema
  | .unit => .unit
  | .bool => .bool
  | .int t => .int t
  | .f64 => .f64
  | .rangedInt t min max => .rangedInt t min max
  | .rangedFloat min max => .rangedFloat min max
  | .zarithN => .zarithN
  | .zarithZ => .zarithZ
  | .bytes => .bytes
  | .vecU8 => .vecU8
  | .string => .string
  | .fixedBytes n => .fixedBytes n
  | .fixedString n => .fixedString n
  | .option s => .option (s.fill ρ)
  | .nullable s => .nullable (s.fill ρ)
  | .dynamic S s => .dynamic S (s.fill ρ)
  | .vpadded n s => .vpadded n (s.fill ρ)
  | .padded n s => .padded n (s.fill ρ)
  | .seq s => .seq (s.fill ρ)
  | .fixSeq n s => .fixSeq n (s.fill ρ)
  | .limSeq n s => .limSeq n (s.fill ρ)
  | .autobox s => .autobox (s.fill ρ)
  | .hole i => ρ i
  | .cstyle w tags => .cstyle w tags
  | .data w vs => .data w (vs.fill ρ)
  | .record fs => .record (fs.fill ρ)
def Variants.fill (ρ : Nat → Schema) : Variants → Variants
  | .nil => .nil
  | .cons tag s vs => .cons tag (s.fill ρ) (vs.fill ρ)
def Fields.fill (ρ : Nat → Schema) : Fields → Fields
  | .nil => .nil
  | .cons s fs => .cons (s.fill ρ) (fs.fill ρ)
end

mutual
/-- Change the parts of a value that are in the holes. -/
def Schema.mapFill {ρ ρ' : Nat → Schema} (f : ∀ i, (ρ i).Val → (ρ' i).Val) :
    (s : Schema) → (s.fill ρ).Val → (s.fill ρ').Val
  | .unit => fun x => x
  | .bool => fun x => x
  | .int _ => fun x => x
  | .f64 => fun x => x
  | .rangedInt _ _ _ => fun x => x
  | .rangedFloat _ _ => fun x => x
  | .zarithN => fun x => x
  | .zarithZ => fun x => x
  | .bytes => fun x => x
  | .vecU8 => fun x => x
  | .string => fun x => x
  | .fixedBytes _ => fun x => x
  | .fixedString _ => fun x => x
  | .option s => Option.map (s.mapFill f)
  | .nullable s => Option.map (s.mapFill f)
  | .dynamic _ s => s.mapFill f
  | .vpadded _ s => s.mapFill f
  | .padded _ s => s.mapFill f
  | .seq s => List.map (s.mapFill f)
  | .fixSeq _ s => List.map (s.mapFill f)
  | .limSeq _ s => List.map (s.mapFill f)
  | .autobox s => s.mapFill f
  | .hole i => f i
  | .cstyle _ _ => fun x => x
  | .data _ vs => vs.mapFill f
  | .record fs => fs.mapFill f
def Variants.mapFill {ρ ρ' : Nat → Schema} (f : ∀ i, (ρ i).Val → (ρ' i).Val) :
    (vs : Variants) → (vs.fill ρ).Val → (vs.fill ρ').Val
  | .nil => fun x => x
  | .cons _ s vs => Sum.map (s.mapFill f) (vs.mapFill f)
def Fields.mapFill {ρ ρ' : Nat → Schema} (f : ∀ i, (ρ i).Val → (ρ' i).Val) :
    (fs : Fields) → (fs.fill ρ).Val → (fs.fill ρ').Val
  | .nil => fun x => x
  | .cons s fs => Prod.map (s.mapFill f) (fs.mapFill f)
end

/-- A family of recursive type definitions. -/
structure Decls where
  /-- the definition of the `i`-th type; `hole j` mentions the `j`-th -/
  body : Nat → Schema
  /-- no type of the family has a `KNOWN` length: Rust cannot evaluate the constant of a type that depends on
  itself, so the definitions go through `data!` or a sequence, whose `KNOWN` is `None` whatever is inside -/
  unsized : ∀ i cfg, ((body i).codec cfg).known = none

namespace Decls

variable (d : Decls)

/-- The `i`-th type with its definition unfolded `n` times. -/
def unfold : Nat → Nat → Schema
  | 0, i => .hole i
  | n + 1, i => (d.body i).fill (unfold n)

/-- A value of an unfolding is a value of the next one. -/
def lift : (n i : Nat) → (d.unfold n i).Val → (d.unfold (n + 1) i).Val
  | 0, _ => fun x => nomatch x
  | n + 1, i => (d.body i).mapFill (lift n)

/-- The same value in two consecutive unfoldings. -/
inductive Step (i : Nat) : (Σ n, (d.unfold n i).Val) → (Σ n, (d.unfold n i).Val) → Prop
  | step (n : Nat) (x : (d.unfold n i).Val) : Step i ⟨n, x⟩ ⟨n + 1, d.lift n i x⟩

/-- The values of the `i`-th type: those of its unfoldings, not distinguishing how often one has unfolded. -/
def Val (i : Nat) : Type := Quot (d.Step i)

/-- The value of the recursive type given by a value of an unfolding. -/
def val {i : Nat} (n : Nat) (x : (d.unfold n i).Val) : d.Val i := Quot.mk _ ⟨n, x⟩

end Decls

end Verif
