import Verif.Spec.Schema
import Verif.Recursive
/-
SPECIFICATION: changing parts of a value.  The parts that may change are those in the holes of a schema; the schemas in the
holes may be others afterwards.
-/
namespace Verif

/-- `c` is `b` with some blocks replaced, in this order: each of the pairs is a block and its replacement. -/
inductive Patched : List (Bytes × Bytes) → Bytes → Bytes → Prop
  | nil : Patched [] [] []
  | keep (a : Byte) {l : List (Bytes × Bytes)} {b c : Bytes} : Patched l b c → Patched l (a :: b) (a :: c)
  | swap (u v : Bytes) {l : List (Bytes × Bytes)} {b c : Bytes} : Patched l b c → Patched ((u, v) :: l) (u ++ b) (v ++ c)

namespace Patch

/-- What is changed, and the encodings of the parts that are. -/
abbrev Rel (α β : Type) : Type := α → β → List (Bytes × Bytes) → Prop

variable {α β α' β' : Type}

/-- Nothing is changed. -/
def same : Rel α α := fun x y l => x = y ∧ l = []

def option (r : Rel α β) : Rel (Option α) (Option β)
  | none, none, l => l = []
  | some x, some y, l => r x y l
  | _, _, _ => False

def list (r : Rel α β) : Rel (List α) (List β)
  | [], [], l => l = []
  | x :: xs, y :: ys, l => ∃ l₁ l₂, l = l₁ ++ l₂ ∧ r x y l₁ ∧ list r xs ys l₂
  | _, _, _ => False

def sum (r : Rel α β) (r' : Rel α' β') : Rel (α ⊕ α') (β ⊕ β')
  | .inl x, .inl y, l => r x y l
  | .inr x, .inr y, l => r' x y l
  | _, _, _ => False

def prod (r : Rel α β) (r' : Rel α' β') : Rel (α × α') (β × β') := fun x y l =>
  ∃ l₁ l₂, l = l₁ ++ l₂ ∧ r x.1 y.1 l₁ ∧ r' x.2 y.2 l₂

/-- A part that is changed. -/
def part (e : Enc α) (e' : Enc β) : Rel α β := fun x y l => ∃ u v, e x = some u ∧ e' y = some v ∧ l = [(u, v)]

end Patch

mutual
/-- The values differ in what is in the holes only. -/
def Schema.Patch (ρ ρ' : Nat → Schema) : (s : Schema) → Patch.Rel (s.fill ρ).Val (s.fill ρ').Val
  | .unit => Patch.same
  | .bool => Patch.same
  | .int _ => Patch.same
  | .f64 => Patch.same
  | .rangedInt _ _ _ => Patch.same
  | .rangedFloat _ _ => Patch.same
  | .zarithN => Patch.same
  | .zarithZ => Patch.same
  | .bytes => Patch.same
  | .vecU8 => Patch.same
  | .string => Patch.same
  | .fixedBytes _ => Patch.same
  | .fixedString _ => Patch.same
  | .option s => Patch.option (s.Patch ρ ρ')
  | .nullable s => Patch.option (s.Patch ρ ρ')
  | .dynamic _ s => s.Patch ρ ρ'
  | .vpadded _ s => s.Patch ρ ρ'
  | .padded _ s => s.Patch ρ ρ'
  | .seq s => Patch.list (s.Patch ρ ρ')
  | .fixSeq _ s => Patch.list (s.Patch ρ ρ')
  | .limSeq _ s => Patch.list (s.Patch ρ ρ')
  | .autobox s => s.Patch ρ ρ'
  | .hole i => Patch.part (ρ i).wire (ρ' i).wire
  | .cstyle _ _ => Patch.same
  | .data _ vs => vs.Patch ρ ρ'
  | .record fs => fs.Patch ρ ρ'
def Variants.Patch (ρ ρ' : Nat → Schema) : (vs : Variants) → Patch.Rel (vs.fill ρ).Val (vs.fill ρ').Val
  | .nil => Patch.same
  | .cons _ s vs => Patch.sum (s.Patch ρ ρ') (vs.Patch ρ ρ')
def Fields.Patch (ρ ρ' : Nat → Schema) : (fs : Fields) → Patch.Rel (fs.fill ρ).Val (fs.fill ρ').Val
  | .nil => Patch.same
  | .cons s fs => Patch.prod (s.Patch ρ ρ') (fs.Patch ρ ρ')
end

mutual
/-- No holes. -/
def Schema.closed : Schema → Bool
  | .hole _ => false
  | .option s => s.closed
  | .nullable s => s.closed
  | .dynamic _ s => s.closed
  | .vpadded _ s => s.closed
  | .padded _ s => s.closed
  | .seq s => s.closed
  | .fixSeq _ s => s.closed
  | .limSeq _ s => s.closed
  | .autobox s => s.closed
  | .data _ vs => vs.closed
  | .record fs => fs.closed
  | .unit | .bool | .int _ | .f64 | .rangedInt _ _ _ | .rangedFloat _ _ | .zarithN | .zarithZ | .bytes | .vecU8
  | .string | .fixedBytes _ | .fixedString _ | .cstyle _ _ => true
def Variants.closed : Variants → Bool
  | .nil => true
  | .cons _ s vs => s.closed && vs.closed
def Fields.closed : Fields → Bool
  | .nil => true
  | .cons s fs => s.closed && fs.closed
end

mutual
/-- No hole under a length prefix. -/
def Schema.unprefixed : Schema → Bool
  | .hole _ => true
  | .option s => s.unprefixed
  | .nullable s => s.unprefixed
  | .dynamic _ s => s.closed
  | .vpadded _ s => s.unprefixed
  | .padded _ s => s.unprefixed
  | .seq s => s.unprefixed
  | .fixSeq _ s => s.unprefixed
  | .limSeq _ s => s.unprefixed
  | .autobox s => s.unprefixed
  | .data _ vs => vs.unprefixed
  | .record fs => fs.unprefixed
  | .unit | .bool | .int _ | .f64 | .rangedInt _ _ _ | .rangedFloat _ _ | .zarithN | .zarithZ | .bytes | .vecU8
  | .string | .fixedBytes _ | .fixedString _ | .cstyle _ _ => true
def Variants.unprefixed : Variants → Bool
  | .nil => true
  | .cons _ s vs => s.unprefixed && vs.unprefixed
def Fields.unprefixed : Fields → Bool
  | .nil => true
  | .cons s fs => s.unprefixed && fs.unprefixed
end

end Verif
