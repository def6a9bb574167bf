import Verif.Schema
import Verif.ErrorText
/-
`{:?}` of values.  A text is the list of its characters; `none` stands for a panic.  What the standard library and
`num_bigint` print, and what `#[derive(Debug)]` generates, is transcribed from their documentation and sources.
This is the plain form, without width or precision; the alternate form `{:#?}` is in `Verif.Pretty`.
-/
namespace Verif

/-- A struct: its name, and the names of its fields if they have names. -/
inductive Shape where
  | tuple (name : Text)
  | named (name : Text) (field : Nat → Text)

/-- What schemas leave out.  `float`, `str`: `{:?}` of an `f64` with these bits and of a `String`;
`variant tags t`: the name of the variant with discriminant `t` of a `cstyle!` enum;
`record fs`: the struct with these fields; `arm vs i`: the struct of the `i`-th arm of a `data!` enum. -/
structure Printing where
  float : BitVec 64 → Text
  str : List Char → Text
  variant : List Nat → Nat → Text
  record : Fields → Shape
  arm : Variants → Nat → Shape

namespace DebugOf

/-- `true` or `false`. -/
def bool (b : Bool) : Text := if b then text! "true" else text! "false"

/-- A tuple struct with one field, derived. -/
def tuple (name : Text) (t : Text) : Text := name ++ text! "(" ++ t ++ text! ")"

/-- `<Option<T> as Debug>::fmt`, derived. -/
def option {α : Type} (p : α → Option Text) : Option α → Option Text
  | none => some text! "None"
  | some x => (p x).map (tuple text! "Some")

/-- The texts of the items, one after the other. -/
def each {α : Type} (p : α → Option Text) : List α → Option (List Text)
  | [] => some []
  | x :: xs => match p x with
    | none => none
    | some t => (each p xs).map (t :: ·)

/-- The texts with `, ` between them. -/
def commas : List Text → Text
  | [] => []
  | [t] => t
  | t :: ts => t ++ [',', ' '] ++ commas ts

/-- The texts of named fields, from the `i`-th on. -/
def labels (field : Nat → Text) : Nat → List Text → List Text
  | _, [] => []
  | i, t :: ts => (field i ++ [':', ' '] ++ t) :: labels field (i + 1) ts

/-- What `#[derive(Debug)]` makes of the texts of the fields. -/
def struct : Shape → List Text → Text
  | .tuple name, [] => name
  | .named name _, [] => name
  | .tuple name, t :: ts => name ++ text! "(" ++ commas (t :: ts) ++ text! ")"
  | .named name field, t :: ts => name ++ text! " { " ++ commas (labels field 0 (t :: ts)) ++ text! " }"

/-- `<[T] as Debug>::fmt`; `Vec`, arrays and `ArrayVec` print as slices. -/
def list {α : Type} (p : α → Option Text) (xs : List α) : Option Text :=
  (each p xs).map fun ts => ['['] ++ commas ts ++ [']']

/-- A slice of bytes. -/
def bytes (bs : Bytes) : Text := debugList (bs.map (·.toNat))

/-- src/dynamic.rs:275-277 `LenPref::suffix`, the name of the type, and :343-345 for `u30`. -/
def suffix : LenPref → Text
  | .u8 => text! "u8"
  | .u16 => text! "u16"
  | .u30 => text! "u30"

/-- src/dynamic.rs:218-228 `Debug for Dynamic`; `len` is `enc_len` of the contents.  The arguments are evaluated in
order, before anything is printed. -/
def dynamic (S : LenPref) (len : Option Nat) (contents : Option Text) : Option Text :=
  match len with
  | none => none
  | some n => contents.map fun t => ['['] ++ decimal n ++ suffix S ++ text! " bytes|" ++ t ++ [']']

end DebugOf

mutual
/-- `Debug::fmt`.  Cites: src/dynamic.rs:218-228 `Dynamic`, :424-428 `VPadded`; src/int.rs:134 `RangedInt`;
src/float.rs:131 `RangedFloat`; src/zarith.rs:55-59 `N`, :185-189 `Z`; src/seq/mod.rs:75 `Sequence`,
src/seq/fix.rs:74 `FixSeq`, src/seq/lim.rs:48 `LimSeq`; src/fixed.rs:29 `FixedBytes`, :275 `FixedString`;
src/schema.rs:116 `Padded`, :247 `Nullable`, :363 `Bytes`; src/autobox.rs:204-208 `AutoBox`; src/adt.rs:48
`cstyle!`, :279 and :332-340 `data!`.  A record is taken to derive `Debug`. -/
noncomputable def Schema.debug (cfg : Cfg) (W : Printing) : (s : Schema) → s.Val → Option Text
  | .unit => fun _ => some text! "()"
  | .bool => fun (x : Bool) => some (DebugOf.bool x)
  | .int t => fun (x : t.Val) => some (signed (t.toInt x))
  | .f64 => fun (x : BitVec 64) => some (W.float x)
  | .rangedInt t _ _ => fun (x : t.Val) => some (DebugOf.tuple text! "RangedInt" (signed (t.toInt x)))
  | .rangedFloat _ _ => fun (x : BitVec 64) => some (text! "RangedFloat { val: " ++ W.float x ++ text! " }")
  | .zarithN => fun (n : Nat) => some (DebugOf.tuple text! "ℕ" (decimal n))
  | .zarithZ => fun (z : Int) => some (DebugOf.tuple text! "ℤ" (signed z))
  | .bytes => fun (bs : Bytes) => some (DebugOf.tuple text! "Bytes" (DebugOf.bytes bs))
  | .vecU8 => fun (bs : Bytes) => some (DebugOf.bytes bs)
  | .string => fun (cs : List Char) => some (W.str cs)
  | .fixedBytes n => fun (a : ByteArr n) => some (DebugOf.tuple text! "FixedBytes" (DebugOf.bytes a.1))
  | .fixedString n => fun (a : ByteArr n) =>
    some (text! "FixedString { contents: " ++ DebugOf.bytes a.1 ++ text! " }")
  | .option s => DebugOf.option (s.debug cfg W)
  | .nullable s => fun x => (DebugOf.option (s.debug cfg W) x).map (DebugOf.tuple text! "Nullable")
  | .dynamic S s => fun x => DebugOf.dynamic S ((s.codec cfg).encLen cfg x) (s.debug cfg W x)
  | .vpadded _ s => s.debug cfg W
  | .padded _ s => fun x => (s.debug cfg W x).map (DebugOf.tuple text! "Padded")
  | .seq s => fun xs => (DebugOf.list (s.debug cfg W) xs).map (DebugOf.tuple text! "Sequence")
  | .fixSeq _ s => fun xs => (DebugOf.list (s.debug cfg W) xs).map (DebugOf.tuple text! "FixSeq")
  | .limSeq _ s => fun xs => (DebugOf.list (s.debug cfg W) xs).map (DebugOf.tuple text! "LimSeq")
  | .autobox s => s.debug cfg W
  | .hole _ => fun (x : Empty) => x.elim
  | .cstyle _ tags => fun (x : CEnum tags) => some (W.variant tags x.1)
  | .data _ vs => fun x => (vs.debug cfg W vs 0 x).map ('#' :: ·)
  | .record fs => fun x => (fs.debug cfg W x).map (DebugOf.struct (W.record fs))
/-- The struct of the arm of the enum `whole`; these are its arms from the `i`-th on.  If the arm is a record, its
fields are those of the struct, otherwise it is the only field. -/
noncomputable def Variants.debug (cfg : Cfg) (W : Printing) : (vs : Variants) → (whole : Variants) → (i : Nat) → vs.Val →
    Option Text
  | .nil => fun _ _ (x : Empty) => x.elim
  | .cons _ (.record fs) vs => fun whole i (x : fs.Val ⊕ vs.Val) => match x with
    | .inl y => (fs.debug cfg W y).map (DebugOf.struct (W.arm whole i))
    | .inr y => vs.debug cfg W whole (i + 1) y
  | .cons _ s vs => fun whole i (x : s.Val ⊕ vs.Val) => match x with
    | .inl y => (s.debug cfg W y).map fun t => DebugOf.struct (W.arm whole i) [t]
    | .inr y => vs.debug cfg W whole (i + 1) y
/-- The texts of the fields. -/
noncomputable def Fields.debug (cfg : Cfg) (W : Printing) : (fs : Fields) → fs.Val → Option (List Text)
  | .nil => fun _ => some []
  | .cons s fs => fun (x : s.Val × fs.Val) => match s.debug cfg W x.1 with
    | none => none
    | some t => (fs.debug cfg W x.2).map (t :: ·)
end

end Verif
