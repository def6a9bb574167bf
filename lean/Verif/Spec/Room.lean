import Verif.StoredCodec
import Verif.Spec.Parts
/-
SPECIFICATION: which sequences there is room for.
-/
namespace Verif

/-- There is room for `n` elements: arrays have fewer than `2 ^ 32`, and a `Vec` at most `isize::MAX` bytes. -/
def Room (array : Bool) (size n : Nat) : Prop := if array then n < 2 ^ 32 else n * size ≤ isizeMax

/-- If this part of a value is a bounded sequence, there is room for as many elements as its type allows. -/
def RoomPart (L : Layout) : (s : Schema) → s.Val → Prop
  | .fixSeq n s => fun _ => Room L.fixArray (L.size s) n
  | .limSeq n s => fun _ => Room L.limArray (L.size s) n
  | _ => fun _ => True

mutual
/-- There is room for all bounded sequences that are mentioned in the type. -/
def Schema.HasRoom (L : Layout) : Schema → Prop
  | .fixSeq n s => Room L.fixArray (L.size s) n ∧ s.HasRoom L
  | .limSeq n s => Room L.limArray (L.size s) n ∧ s.HasRoom L
  | .option s | .nullable s | .dynamic _ s | .vpadded _ s | .padded _ s | .seq s | .autobox s => s.HasRoom L
  | .data _ vs => vs.HasRoom L
  | .record fs => fs.HasRoom L
  | .unit | .bool | .int _ | .f64 | .rangedInt _ _ _ | .rangedFloat _ _ | .zarithN | .zarithZ | .bytes | .vecU8 | .string
  | .fixedBytes _ | .fixedString _ | .hole _ | .cstyle _ _ => True
def Variants.HasRoom (L : Layout) : Variants → Prop
  | .nil => True
  | .cons _ s vs => s.HasRoom L ∧ vs.HasRoom L
def Fields.HasRoom (L : Layout) : Fields → Prop
  | .nil => True
  | .cons s fs => s.HasRoom L ∧ fs.HasRoom L
end

/-- The bytes of memory a bounded sequence reserves when it is made: none if it is an array. -/
def Reserve (array : Bool) (size n : Nat) : Nat := if array then 0 else n * size

mutual
/-- The bytes of memory that the bounded sequences in a decoded value have reserved for their elements. -/
def Schema.reserved (L : Layout) : (s : Schema) → s.Val → Nat
  | .fixSeq n s => fun (xs : List s.Val) => Reserve L.fixArray (L.size s) n + (xs.map (s.reserved L)).sum
  | .limSeq n s => fun (xs : List s.Val) => Reserve L.limArray (L.size s) n + (xs.map (s.reserved L)).sum
  | .seq s => fun (xs : List s.Val) => (xs.map (s.reserved L)).sum
  | .option s => fun (o : Option s.Val) => o.elim 0 (s.reserved L)
  | .nullable s => fun (o : Option s.Val) => o.elim 0 (s.reserved L)
  | .dynamic _ s => s.reserved L
  | .vpadded _ s => s.reserved L
  | .padded _ s => s.reserved L
  | .autobox s => s.reserved L
  | .data _ vs => vs.reserved L
  | .record fs => fs.reserved L
  | .unit | .bool | .int _ | .f64 | .rangedInt _ _ _ | .rangedFloat _ _ | .zarithN | .zarithZ | .bytes | .vecU8 | .string
  | .fixedBytes _ | .fixedString _ | .hole _ | .cstyle _ _ => fun _ => 0
def Variants.reserved (L : Layout) : (vs : Variants) → vs.Val → Nat
  | .nil => fun _ => 0
  | .cons _ s vs => Sum.elim (s.reserved L) (vs.reserved L)
def Fields.reserved (L : Layout) : (fs : Fields) → fs.Val → Nat
  | .nil => fun _ => 0
  | .cons s fs => fun (x : s.Val × fs.Val) => s.reserved L x.1 + fs.reserved L x.2
end

mutual
/-- The most that a single bounded sequence mentioned in the type reserves. -/
def Schema.largest (L : Layout) : Schema → Nat
  | .fixSeq n s => max (Reserve L.fixArray (L.size s) n) (s.largest L)
  | .limSeq n s => max (Reserve L.limArray (L.size s) n) (s.largest L)
  | .option s | .nullable s | .dynamic _ s | .vpadded _ s | .padded _ s | .seq s | .autobox s => s.largest L
  | .data _ vs => vs.largest L
  | .record fs => fs.largest L
  | .unit | .bool | .int _ | .f64 | .rangedInt _ _ _ | .rangedFloat _ _ | .zarithN | .zarithZ | .bytes | .vecU8 | .string
  | .fixedBytes _ | .fixedString _ | .hole _ | .cstyle _ _ => 0
def Variants.largest (L : Layout) : Variants → Nat
  | .nil => 0
  | .cons _ s vs => max (s.largest L) (vs.largest L)
def Fields.largest (L : Layout) : Fields → Nat
  | .nil => 0
  | .cons s fs => max (s.largest L) (fs.largest L)
end

end Verif
