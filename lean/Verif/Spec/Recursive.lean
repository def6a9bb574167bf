import Verif.Spec.Tame
import Verif.Recursive
/-
SPECIFICATION vocabulary for recursive types: static conditions on their definitions.
-/
namespace Verif

mutual
/-- Recursion happens only after something has been read (`read`: this is so already), and what is not
recursive is `safe`.  `ρ` gives the definitions of the types mentioned. -/
def Schema.guarded (ρ : Nat → Schema) (read : Bool) : Schema → Bool
  | .unit | .bool | .int _ | .f64 | .rangedInt _ _ _ | .rangedFloat _ _ | .zarithN | .zarithZ | .bytes | .vecU8
  | .string | .cstyle _ _ => true
  | .fixedBytes n => n ≤ isizeMax + 1
  | .fixedString n => n ≤ isizeMax + 1
  | .option s => s.guarded ρ true
  | .nullable s => s.guarded ρ read
  | .dynamic _ s => s.guarded ρ true
  | .vpadded _ _ => false
  | .padded n s => n ≤ isizeMax + 1 && s.guarded ρ read
  | .seq s => s.guarded ρ read && (s.fill ρ).nonempty
  | .fixSeq _ s => s.guarded ρ read
  | .limSeq _ s => s.guarded ρ read
  | .autobox s => s.guarded ρ read
  | .hole _ => read
  | .data _ vs => vs.guarded ρ true
  | .record fs => fs.guarded ρ read
def Variants.guarded (ρ : Nat → Schema) (read : Bool) : Variants → Bool
  | .nil => true
  | .cons _ s vs => s.guarded ρ read && vs.guarded ρ read
def Fields.guarded (ρ : Nat → Schema) (read : Bool) : Fields → Bool
  | .nil => true
  | .cons s fs => s.guarded ρ read && fs.guarded ρ (read || (s.fill ρ).nonempty)
end

mutual
/-- No text and no recursion. -/
def Schema.plain : Schema → Bool
  | .string => false
  | .hole _ => false
  | .option s => s.plain
  | .nullable s => s.plain
  | .dynamic _ s => s.plain
  | .vpadded _ s => s.plain
  | .padded _ s => s.plain
  | .seq s => s.plain
  | .fixSeq _ s => s.plain
  | .limSeq _ s => s.plain
  | .autobox s => s.plain
  | .data _ vs => vs.plain
  | .record fs => fs.plain
  | .unit | .bool | .int _ | .f64 | .rangedInt _ _ _ | .rangedFloat _ _ | .zarithN | .zarithZ | .bytes | .vecU8
  | .fixedBytes _ | .fixedString _ | .cstyle _ _ => true
def Variants.plain : Variants → Bool
  | .nil => true
  | .cons _ s vs => s.plain && vs.plain
def Fields.plain : Fields → Bool
  | .nil => true
  | .cons s fs => s.plain && fs.plain
end

mutual
/-- Every length prefix around text or recursion can hold lengths up to `L`. -/
def Schema.roomy (L : Nat) : Schema → Bool
  | .option s => s.roomy L
  | .nullable s => s.roomy L
  | .dynamic S s => s.plain || (decide (L ≤ S.maxLen) && s.roomy L)
  | .vpadded _ s => s.roomy L
  | .padded _ s => s.roomy L
  | .seq s => s.roomy L
  | .fixSeq _ s => s.roomy L
  | .limSeq _ s => s.roomy L
  | .autobox s => s.roomy L
  | .hole _ => true
  | .data _ vs => vs.roomy L
  | .record fs => fs.roomy L
  | .unit | .bool | .int _ | .f64 | .rangedInt _ _ _ | .rangedFloat _ _ | .zarithN | .zarithZ | .bytes | .vecU8
  | .string | .fixedBytes _ | .fixedString _ | .cstyle _ _ => true
def Variants.roomy (L : Nat) : Variants → Bool
  | .nil => true
  | .cons _ s vs => s.roomy L && vs.roomy L
def Fields.roomy (L : Nat) : Fields → Bool
  | .nil => true
  | .cons s fs => s.roomy L && fs.roomy L
end

mutual
/-- As `sized`, and recursion only after something has been read (`read` if something has been already). -/
def Schema.paced (ρ : Nat → Schema) (read : Bool) : Schema → Bool
  | .unit | .bool | .int _ | .f64 | .rangedInt _ _ _ | .rangedFloat _ _ | .zarithN | .zarithZ | .bytes | .vecU8
  | .string | .cstyle _ _ => true
  | .fixedBytes n => n < usizeMod
  | .fixedString n => n < usizeMod
  | .option s => s.paced ρ true
  | .nullable s => s.paced ρ read
  | .dynamic _ s => s.paced ρ true
  | .vpadded n s => n < usizeMod && s.paced ρ read
  | .padded n s => n < usizeMod && s.paced ρ read
  | .seq s => s.paced ρ read
  | .fixSeq _ s => s.paced ρ read
  | .limSeq _ s => s.paced ρ read
  | .autobox s => s.paced ρ read
  | .hole _ => read
  | .data _ vs => vs.paced ρ true
  | .record fs => fs.paced ρ read
def Variants.paced (ρ : Nat → Schema) (read : Bool) : Variants → Bool
  | .nil => true
  | .cons _ s vs => s.paced ρ read && vs.paced ρ read
def Fields.paced (ρ : Nat → Schema) (read : Bool) : Fields → Bool
  | .nil => true
  | .cons s fs => s.paced ρ read && fs.paced ρ (read || (s.fill ρ).nonempty)
end

namespace Decls

variable (d : Decls)

/-- One more unfolding does not change what the definitions say about what may follow an encoding and about
empty encodings. -/
def Stable : Prop :=
  ∀ i, (d.unfold 2 i).tail = (d.body i).tail ∧ (d.unfold 2 i).nonempty = (d.body i).nonempty

/-- Recursion happens only after something has been read. -/
def Guarded : Prop := ∀ i, (d.body i).guarded d.body false = true

/-- Recursion happens only after something has been read; `VPadded`, and sequences of anything, are allowed. -/
def Paced : Prop := ∀ i, (d.body i).paced d.body false = true

/-- A value that keeps the invariants of the Rust types. -/
def Valid {i : Nat} (a : d.Val i) : Prop := ∃ n x, a = d.val n x ∧ (d.unfold n i).Valid x

/-- A well-formed value without an `N` of value 0. -/
def EstOk {i : Nat} (a : d.Val i) : Prop := ∃ n x, a = d.val n x ∧ (d.unfold n i).Valid x ∧ (d.unfold n i).EstOk x

/-- … no `N` with value 0 under a length prefix. -/
def PrefixOk {i : Nat} (a : d.Val i) : Prop := ∃ n x, a = d.val n x ∧ (d.unfold n i).Valid x ∧ (d.unfold n i).PrefixOk x

/-- `b` is the encoding of `a`. -/
def Wire {i : Nat} (a : d.Val i) (b : Bytes) : Prop := ∃ n x, a = d.val n x ∧ (d.unfold n i).wire x = some b

/-- Somewhere a window is opened whose size is taken from the input. -/
def Windowed : Prop := ∃ i, (d.body i).windowed = true

end Decls

end Verif
