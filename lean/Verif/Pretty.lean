import Verif.Debug
/-
`{:#?}` of values, the alternate form of `Debug`.  What the standard library does (`core::fmt::builders`: `DebugStruct`,
`DebugTuple`, `DebugList`, `PadAdapter`) is transcribed from its sources.  Texts and panics are as in `Verif.Debug`.
-/
namespace Verif
namespace PrettyOf

/-- `PadAdapter`: four spaces before everything that is written at the beginning of a line; the flag tells if that is where one is. -/
def indent : Bool → Text → Text
  | _, [] => []
  | true, c :: t => [' ', ' ', ' ', ' '] ++ c :: indent (c == '\n') t
  | false, c :: t => c :: indent (c == '\n') t

/-- What is written for one field or entry. -/
def item (t : Text) : Text := indent true (t ++ [',', '\n'])

def items (ts : List Text) : Text := ts.flatMap item

/-- A tuple struct with one field, derived. -/
def tuple (name : Text) (t : Text) : Text := name ++ ['(', '\n'] ++ item t ++ [')']

/-- `<Option<T> as Debug>::fmt`, derived. -/
def option {α : Type} (p : α → Option Text) : Option α → Option Text
  | none => some text! "None"
  | some x => (p x).map (tuple text! "Some")

/-- What `#[derive(Debug)]` makes of the texts of the fields. -/
def struct : Shape → List Text → Text
  | .tuple name, [] => name
  | .named name _, [] => name
  | .tuple name, t :: ts => name ++ ['(', '\n'] ++ items (t :: ts) ++ [')']
  | .named name field, t :: ts => name ++ [' ', '{', '\n'] ++ items (DebugOf.labels field 0 (t :: ts)) ++ ['}']

/-- The texts of the entries of a slice. -/
def entries : List Text → Text
  | [] => ['[', ']']
  | t :: ts => ['[', '\n'] ++ items (t :: ts) ++ [']']

/-- `<[T] as Debug>::fmt`. -/
def list {α : Type} (p : α → Option Text) (xs : List α) : Option Text := (DebugOf.each p xs).map entries

/-- A slice of bytes. -/
def bytes (bs : Bytes) : Text := entries (bs.map fun b => decimal b.toNat)

end PrettyOf

mutual
/-- `Debug::fmt` with the alternate flag.  Cites: as for `Schema.debug`.  The implementations for `Dynamic` (src/dynamic.rs:218-228) and
`data!` enums (src/adt.rs:332-340) write with `{:?}`, which does not hand the flag on; `VPadded` (src/dynamic.rs:424-428) and `AutoBox`
(src/autobox.rs:204-208) hand over the formatter; `N` and `Z` (src/zarith.rs:55-59, :185-189) write one piece. -/
noncomputable def Schema.pretty (cfg : Cfg) (W : Printing) : (s : Schema) → s.Val → Option Text
  | .unit => fun _ => some text! "()"
  | .bool => fun (x : Bool) => some (DebugOf.bool x)
  | .int t => fun (x : t.Val) => some (signed (t.toInt x))
  | .f64 => fun (x : BitVec 64) => some (W.float x)
  | .rangedInt t _ _ => fun (x : t.Val) => some (PrettyOf.tuple text! "RangedInt" (signed (t.toInt x)))
  | .rangedFloat _ _ => fun (x : BitVec 64) => some (PrettyOf.struct (.named text! "RangedFloat" fun _ => text! "val") [W.float x])
  | .zarithN => fun (n : Nat) => some (DebugOf.tuple text! "ℕ" (decimal n))
  | .zarithZ => fun (z : Int) => some (DebugOf.tuple text! "ℤ" (signed z))
  | .bytes => fun (bs : Bytes) => some (PrettyOf.tuple text! "Bytes" (PrettyOf.bytes bs))
  | .vecU8 => fun (bs : Bytes) => some (PrettyOf.bytes bs)
  | .string => fun (cs : List Char) => some (W.str cs)
  | .fixedBytes n => fun (a : ByteArr n) => some (PrettyOf.tuple text! "FixedBytes" (PrettyOf.bytes a.1))
  | .fixedString n => fun (a : ByteArr n) =>
    some (PrettyOf.struct (.named text! "FixedString" fun _ => text! "contents") [PrettyOf.bytes a.1])
  | .option s => PrettyOf.option (s.pretty cfg W)
  | .nullable s => fun x => (PrettyOf.option (s.pretty cfg W) x).map (PrettyOf.tuple text! "Nullable")
  | .dynamic S s => fun x => DebugOf.dynamic S ((s.codec cfg).encLen cfg x) (s.debug cfg W x)
  | .vpadded _ s => s.pretty cfg W
  | .padded _ s => fun x => (s.pretty cfg W x).map (PrettyOf.tuple text! "Padded")
  | .seq s => fun xs => (PrettyOf.list (s.pretty cfg W) xs).map (PrettyOf.tuple text! "Sequence")
  | .fixSeq _ s => fun xs => (PrettyOf.list (s.pretty cfg W) xs).map (PrettyOf.tuple text! "FixSeq")
  | .limSeq _ s => fun xs => (PrettyOf.list (s.pretty cfg W) xs).map (PrettyOf.tuple text! "LimSeq")
  | .autobox s => s.pretty cfg W
  | .hole _ => fun (x : Empty) => x.elim
  | .cstyle _ tags => fun (x : CEnum tags) => some (W.variant tags x.1)
  | .data _ vs => fun x => (vs.debug cfg W vs 0 x).map ('#' :: ·)
  | .record fs => fun x => (fs.pretty cfg W x).map (PrettyOf.struct (W.record fs))
/-- The texts of the fields. -/
noncomputable def Fields.pretty (cfg : Cfg) (W : Printing) : (fs : Fields) → fs.Val → Option (List Text)
  | .nil => fun _ => some []
  | .cons s fs => fun (x : s.Val × fs.Val) => match s.pretty cfg W x.1 with
    | none => none
    | some t => (fs.pretty cfg W x.2).map (t :: ·)
end

end Verif
