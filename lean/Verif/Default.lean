import Verif.Schema
import Verif.RangedNum
/-
`Default` values.
-/
namespace Verif

mutual
/-- Which types implement `Default`: src/prim.rs has no types of its own (the standard library implements it for `()`, `bool`,
the numbers, `String`, `Vec<u8>`, and for `Option` whatever is inside), src/zarith.rs:37, 167, src/float.rs:137-150,
src/int.rs:375-393, src/schema.rs:116 (`Padded`), 287-291 (`Nullable`), 363 (`Bytes`), src/dynamic.rs:420 (`VPadded`),
src/fixed.rs:213-220 (`FixedBytes`, for as many bytes as arrays have a default value), src/seq/mod.rs:127-131,
src/seq/fix.rs:112-117, src/seq/lim.rs:140-151, src/autobox.rs:192-202.  `Dynamic`, `FixedString` and the types made by
`cstyle!` and `data!` do not (src/adt.rs:48, 279, 284).  Records: if the user derives it. -/
def Schema.hasDefault : Schema → Bool
  | .unit | .bool | .int _ | .f64 | .rangedInt _ _ _ | .rangedFloat _ _ | .zarithN | .zarithZ | .bytes | .vecU8 | .string => true
  | .fixedBytes n => decide (n ≤ 32)
  | .fixedString _ => false
  | .option _ | .nullable _ => true
  | .dynamic _ _ => false
  | .vpadded _ s | .padded _ s => s.hasDefault
  | .seq _ | .fixSeq _ _ | .limSeq _ _ => true
  | .autobox s => s.hasDefault
  | .hole _ | .cstyle _ _ | .data _ _ => false
  | .record fs => fs.hasDefault
def Fields.hasDefault : Fields → Bool
  | .nil => true
  | .cons s fs => s.hasDefault && fs.hasDefault
end

mutual
/-- `default()`, as in the places cited above; `none`: it panics (`clamp` in src/int.rs:383 and src/float.rs:147), or there is no
implementation. -/
def Schema.default : (s : Schema) → Option s.Val
  | .unit => some ()
  | .bool => some false
  | .int _ => some 0#_
  | .f64 => some 0#64
  | .rangedInt t min max => RangedInt.default t min max
  | .rangedFloat min max => RangedFloat.default min max
  | .zarithN => some (0 : Nat)
  | .zarithZ => some (0 : Int)
  | .bytes => some ([] : Bytes)
  | .vecU8 => some ([] : Bytes)
  | .string => some ([] : List Char)
  | .fixedBytes n => if n ≤ 32 then some ⟨List.replicate n 0, List.length_replicate⟩ else none
  | .fixedString _ => none
  | .option s => some (none : Option s.Val)
  | .nullable s => some (none : Option s.Val)
  | .dynamic _ _ => none
  | .vpadded _ s => s.default
  | .padded _ s => s.default
  | .seq s => some ([] : List s.Val)
  | .fixSeq _ s => some ([] : List s.Val)
  | .limSeq _ s => some ([] : List s.Val)
  | .autobox s => s.default
  | .hole _ => none
  | .cstyle _ _ => none
  | .data _ _ => none
  | .record fs => fs.default
def Fields.default : (fs : Fields) → Option fs.Val
  | .nil => some ()
  | .cons s fs => match s.default, fs.default with
    | some x, some y => some (x, y)
    | _, _ => none
end

end Verif
