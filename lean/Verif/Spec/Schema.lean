import Verif.Schema
import Verif.Spec.Format
import Verif.Spec.Laws
/-
SPECIFICATION of the wire format of schema types, and static classification of schemas.  Nothing here
refers to `Schema.codec`.
-/
namespace Verif

/-! ### the wire format of a schema -/

mutual
/-- The encoding of a value; `none`: there is none. -/
def Schema.wire : (s : Schema) → Enc s.Val
  | .unit => Enc.unit
  | .bool => Enc.bool
  | .int t => Enc.int t
  | .f64 => Enc.f64
  | .rangedInt t min max => Enc.rangedInt t min max
  | .rangedFloat _ _ => Enc.f64
  | .zarithN => Enc.zarithN
  | .zarithZ => Enc.zarithZ
  | .bytes => Enc.bytes
  | .vecU8 => Enc.bytes
  | .string => Enc.string
  | .fixedBytes n => Enc.byteArr n
  | .fixedString n => Enc.byteArr n
  | .option s => Enc.option s.wire
  | .nullable s => Enc.nullable s.wire
  | .dynamic S s => Enc.dynamic S (fun x => (s.wire x).map List.length) s.wire
  | .vpadded _ s => s.wire
  | .padded n s => Enc.padded n s.wire
  | .seq s => Enc.list s.wire
  | .fixSeq _ s => Enc.list s.wire
  | .limSeq _ s => Enc.list s.wire
  | .autobox s => s.wire
  | .hole _ => Enc.hole
  | .cstyle w tags => Enc.cstyle w tags
  | .data w vs => vs.wire w
  | .record fs => fs.wire
def Variants.wire : (vs : Variants) → TagWidth → Enc vs.Val
  | .nil => Enc.vnil
  | .cons tag s vs => Enc.vcons tag s.wire vs.wire
def Fields.wire : (fs : Fields) → Enc fs.Val
  | .nil => Enc.fnil
  | .cons s fs => Enc.fcons s.wire fs.wire
end

def Variants.tags : Variants → List Nat
  | .nil => []
  | .cons tag _ vs => tag :: vs.tags

mutual
/-- Decoding from the readable bytes. -/
def Schema.dec (cfg : Cfg) : (s : Schema) → D s.Val
  | .unit => Dec.unit
  | .bool => Dec.bool
  | .int t => Dec.int t
  | .f64 => Dec.f64
  | .rangedInt t min max => Dec.rangedInt t min max
  | .rangedFloat min max => Dec.rangedFloat min max
  | .zarithN => Dec.zarithN
  | .zarithZ => Dec.zarithZ
  | .bytes => Dec.bytes
  | .vecU8 => Dec.bytes
  | .string => Dec.string
  | .fixedBytes n => Dec.byteArr n
  | .fixedString n => Dec.byteArr n
  | .option s => Dec.option (s.dec cfg)
  | .nullable s => Dec.nullable (s.dec cfg)
  | .dynamic S s => Dec.dynamic S (s.dec cfg)
  | .vpadded n s => Dec.vpadded cfg n (s.dec cfg)
  | .padded n s => Dec.padded cfg n (s.dec cfg)
  | .seq s => Dec.seq (s.dec cfg)
  | .fixSeq n s => Dec.fixSeq n (s.dec cfg)
  | .limSeq n s => Dec.limSeq n (s.dec cfg)
  | .autobox s => s.dec cfg
  | .hole _ => Dec.hole
  | .cstyle w tags => Dec.cstyle w tags
  | .data w vs => Dec.data w vs.tags (vs.dec cfg)
  | .record fs => fs.dec cfg
def Variants.dec (cfg : Cfg) : (vs : Variants) → Nat → D vs.Val
  | .nil => Dec.vnil
  | .cons tag s vs => Dec.vcons tag (s.dec cfg) (vs.dec cfg)
def Fields.dec (cfg : Cfg) : (fs : Fields) → D fs.Val
  | .nil => Dec.fnil
  | .cons s fs => Dec.fcons (s.dec cfg) (fs.dec cfg)
end

mutual
/-- The invariants the Rust types maintain: range of floats, number of elements. (Out-of-range ranged
integers have no encoding, see `Schema.wire`.) -/
def Schema.Valid : (s : Schema) → s.Val → Prop
  | .unit => fun _ => True
  | .bool => fun _ => True
  | .int _ => fun _ => True
  | .f64 => fun _ => True
  | .rangedInt _ _ _ => fun _ => True
  | .rangedFloat min max => fun x => F64.le min x ∧ F64.le x max ∧ F64.le min max
  | .zarithN => fun _ => True
  | .zarithZ => fun _ => True
  | .bytes => fun _ => True
  | .vecU8 => fun _ => True
  | .string => fun _ => True
  | .fixedBytes _ => fun _ => True
  | .fixedString _ => fun _ => True
  | .option s => fun (o : Option s.Val) => ∀ x, o = some x → s.Valid x
  | .nullable s => fun (o : Option s.Val) => ∀ x, o = some x → s.Valid x
  | .dynamic _ s => s.Valid
  | .vpadded _ s => s.Valid
  | .padded _ s => s.Valid
  | .seq s => fun (xs : List s.Val) => ∀ x ∈ xs, s.Valid x
  | .fixSeq n s => fun (xs : List s.Val) => xs.length = n ∧ ∀ x ∈ xs, s.Valid x
  | .limSeq n s => fun (xs : List s.Val) => xs.length ≤ n ∧ ∀ x ∈ xs, s.Valid x
  | .autobox s => s.Valid
  | .hole _ => fun _ => True
  | .cstyle _ _ => fun _ => True
  | .data _ vs => vs.Valid
  | .record fs => fs.Valid
def Variants.Valid : (vs : Variants) → vs.Val → Prop
  | .nil => fun _ => True
  | .cons _ s vs => Sum.elim s.Valid vs.Valid
def Fields.Valid : (fs : Fields) → fs.Val → Prop
  | .nil => fun _ => True
  | .cons s fs => fun x => s.Valid x.1 ∧ fs.Valid x.2
end

/-! ### static classification of schemas (specification) -/

mutual
/-- Every encoding has at least one byte. -/
def Schema.nonempty : Schema → Bool
  | .unit => false
  | .bool => true
  | .int _ => true
  | .f64 => true
  | .rangedInt _ _ _ => true
  | .rangedFloat _ _ => true
  | .zarithN => true
  | .zarithZ => true
  | .bytes => false
  | .vecU8 => false
  | .string => false
  | .fixedBytes n => 0 < n
  | .fixedString n => 0 < n
  | .option _ => true
  | .nullable _ => false
  | .dynamic _ _ => true
  | .vpadded _ s => s.nonempty
  | .padded n s => 0 < n || s.nonempty
  | .seq _ => false
  | .fixSeq n s => 0 < n && s.nonempty
  | .limSeq _ _ => false
  | .autobox s => s.nonempty
  | .hole _ => true
  | .cstyle _ _ => true
  | .data _ _ => true
  | .record fs => fs.nonempty
def Fields.nonempty : Fields → Bool
  | .nil => false
  | .cons s fs => s.nonempty || fs.nonempty
end

mutual
/-- The length of every encoding, when there is only one. -/
def Schema.width : Schema → Option Nat
  | .unit => some 0
  | .bool => some 1
  | .int t => some t.len
  | .f64 => some 8
  | .rangedInt t _ _ => some t.len
  | .rangedFloat _ _ => some 8
  | .zarithN => none
  | .zarithZ => none
  | .bytes => none
  | .vecU8 => none
  | .string => none
  | .fixedBytes n => some n
  | .fixedString n => some n
  | .option s => if s.width = some 0 then some 1 else none
  | .nullable s => if s.width = some 0 then some 0 else none
  | .dynamic S s => s.width.map (S.len + ·)
  | .vpadded _ s => s.width
  | .padded n s => s.width.map (· + n)
  | .seq _ => none
  | .fixSeq n s => s.width.map (n * ·)
  | .limSeq _ _ => none
  | .autobox s => s.width
  | .hole _ => none
  | .cstyle w _ => some w.len
  | .data _ _ => none
  | .record fs => fs.width
def Fields.width : Fields → Option Nat
  | .nil => some 0
  | .cons s fs => match s.width, fs.width with
    | some m, some n => some (m + n)
    | _, _ => none
end

/-- A window may end right after the encoding. -/
def Tail.allowsEnd : Option Tail → Bool
  | some .any => true
  | some (.exact n) => n = 0
  | none => false

/-- What both arms allow. -/
def Tail.join : Option Tail → Option Tail → Option Tail
  | some .any, k => k
  | k, some .any => k
  | some (.exact m), some (.exact n) => if m = n then some (.exact m) else none
  | _, _ => none

mutual
/-- What may follow an encoding; `none` when the type is not uniquely decodable (or not recognised as such). -/
def Schema.tail : Schema → Option Tail
  | .unit => some .any
  | .bool => some .any
  | .int _ => some .any
  | .f64 => some .any
  | .rangedInt _ _ _ => some .any
  | .rangedFloat _ _ => some .any
  | .zarithN => some .any
  | .zarithZ => some .any
  | .bytes => some (.exact 0)
  | .vecU8 => some (.exact 0)
  | .string => some (.exact 0)
  | .fixedBytes _ => some .any
  | .fixedString _ => some .any
  | .option s => s.tail
  | .nullable s => if Tail.allowsEnd s.tail && s.nonempty then some (.exact 0) else none
  | .dynamic _ s => if Tail.allowsEnd s.tail then some .any else none
  | .vpadded n s => if Tail.allowsEnd s.tail then some (.exact n) else none
  | .padded n s => match s.tail with
    | some .any => some .any
    | some (.exact m) => if n ≤ m then some (.exact (m - n)) else none
    | none => none
  | .seq s => if s.tail = some .any ∧ s.nonempty then some (.exact 0) else none
  | .fixSeq _ s => if s.tail = some .any ∧ s.nonempty then some .any else none
  | .limSeq _ s => if s.tail = some .any ∧ s.nonempty then some (.exact 0) else none
  | .autobox s => s.tail
  | .hole _ => some .any
  | .cstyle _ _ => some .any
  | .data _ vs => vs.tail
  | .record fs => fs.tail
def Variants.tail : Variants → Option Tail
  | .nil => some .any
  | .cons _ s vs => Tail.join s.tail vs.tail
def Fields.tail : Fields → Option Tail
  | .nil => some .any
  | .cons s fs => match s.tail with
    | some .any => fs.tail
    | some (.exact m) => match fs.width with
      | some l => if l ≤ m ∧ fs.tail = some .any then some (.exact (m - l)) else none
      | none => none
    | none => none
end

mutual
/-- Tags are distinct and fit their width. -/
def Schema.tagsOk : Schema → Prop
  | .option s => s.tagsOk
  | .nullable s => s.tagsOk
  | .dynamic _ s => s.tagsOk
  | .vpadded _ s => s.tagsOk
  | .padded _ s => s.tagsOk
  | .seq s => s.tagsOk
  | .fixSeq _ s => s.tagsOk
  | .limSeq _ s => s.tagsOk
  | .autobox s => s.tagsOk
  | .hole _ => True
  | .cstyle w tags => ∀ t ∈ tags, t < 256 ^ w.len
  | .data w vs => (∀ t ∈ vs.tags, t < 256 ^ w.len) ∧ vs.tagsOk
  | .record fs => fs.tagsOk
  | .unit | .bool | .int _ | .f64 | .rangedInt _ _ _ | .rangedFloat _ _ | .zarithN | .zarithZ | .bytes | .vecU8
  | .string | .fixedBytes _ | .fixedString _ => True
def Variants.tagsOk : Variants → Prop
  | .nil => True
  | .cons tag s vs => tag ∉ vs.tags ∧ s.tagsOk ∧ vs.tagsOk
def Fields.tagsOk : Fields → Prop
  | .nil => True
  | .cons s fs => s.tagsOk ∧ fs.tagsOk
end

mutual
/-- Decoding does not look at the end of the window. -/
def Schema.isLocal : Schema → Bool
  | .unit => true
  | .bool => true
  | .int _ => true
  | .f64 => true
  | .rangedInt _ _ _ => true
  | .rangedFloat _ _ => true
  | .zarithN => true
  | .zarithZ => true
  | .bytes => false
  | .vecU8 => false
  | .string => false
  | .fixedBytes _ => true
  | .fixedString _ => true
  | .option s => s.isLocal
  | .nullable _ => false
  | .dynamic _ _ => true
  | .vpadded _ _ => false
  | .padded _ s => s.isLocal
  | .seq _ => false
  | .fixSeq _ s => s.isLocal
  | .limSeq _ _ => false
  | .autobox s => s.isLocal
  | .hole _ => true
  | .cstyle _ _ => true
  | .data _ vs => vs.isLocal
  | .record fs => fs.isLocal
def Variants.isLocal : Variants → Bool
  | .nil => true
  | .cons _ s vs => s.isLocal && vs.isLocal
def Fields.isLocal : Fields → Bool
  | .nil => true
  | .cons s fs => s.isLocal && fs.isLocal
end

mutual
/-- No `VPadded`, no sequence of possibly zero-width elements, array sizes that exist. -/
def Schema.safe : Schema → Bool
  | .unit => true
  | .bool => true
  | .int _ => true
  | .f64 => true
  | .rangedInt _ _ _ => true
  | .rangedFloat _ _ => true
  | .zarithN => true
  | .zarithZ => true
  | .bytes => true
  | .vecU8 => true
  | .string => true
  | .fixedBytes n => n ≤ isizeMax + 1
  | .fixedString n => n ≤ isizeMax + 1
  | .option s => s.safe
  | .nullable s => s.safe
  | .dynamic _ s => s.safe
  | .vpadded _ _ => false
  | .padded n s => n ≤ isizeMax + 1 && s.safe
  | .seq s => s.safe && s.nonempty
  | .fixSeq _ s => s.safe
  | .limSeq _ s => s.safe
  | .autobox s => s.safe
  | .hole _ => false
  | .cstyle _ _ => true
  | .data _ vs => vs.safe
  | .record fs => fs.safe
def Variants.safe : Variants → Bool
  | .nil => true
  | .cons _ s vs => s.safe && vs.safe
def Fields.safe : Fields → Bool
  | .nil => true
  | .cons s fs => s.safe && fs.safe
end

mutual
/-- Somewhere a window is opened whose size is taken from the input (`Dynamic`). -/
def Schema.windowed : Schema → Bool
  | .dynamic _ _ => true
  | .option s => s.windowed
  | .nullable s => s.windowed
  | .vpadded _ s => s.windowed
  | .padded _ s => s.windowed
  | .seq s => s.windowed
  | .fixSeq _ s => s.windowed
  | .limSeq _ s => s.windowed
  | .autobox s => s.windowed
  | .hole _ => false
  | .data _ vs => vs.windowed
  | .record fs => fs.windowed
  | .unit | .bool | .int _ | .f64 | .rangedInt _ _ _ | .rangedFloat _ _ | .zarithN | .zarithZ | .bytes | .vecU8
  | .string | .fixedBytes _ | .fixedString _ | .cstyle _ _ => false
def Variants.windowed : Variants → Bool
  | .nil => false
  | .cons _ s vs => s.windowed || vs.windowed
def Fields.windowed : Fields → Bool
  | .nil => false
  | .cons s fs => s.windowed || fs.windowed
end

mutual
/-- No `String` (whose decoding may lengthen the text). -/
def Schema.textFree : Schema → Bool
  | .string => false
  | .option s => s.textFree
  | .nullable s => s.textFree
  | .dynamic _ s => s.textFree
  | .vpadded _ s => s.textFree
  | .padded _ s => s.textFree
  | .seq s => s.textFree
  | .fixSeq _ s => s.textFree
  | .limSeq _ s => s.textFree
  | .autobox s => s.textFree
  | .hole _ => true
  | .data _ vs => vs.textFree
  | .record fs => fs.textFree
  | .unit | .bool | .int _ | .f64 | .rangedInt _ _ _ | .rangedFloat _ _ | .zarithN | .zarithZ | .bytes | .vecU8
  | .fixedBytes _ | .fixedString _ | .cstyle _ _ => true
def Variants.textFree : Variants → Bool
  | .nil => true
  | .cons _ s vs => s.textFree && vs.textFree
def Fields.textFree : Fields → Bool
  | .nil => true
  | .cons s fs => s.textFree && fs.textFree
end

mutual
/-- Every length prefix around text can hold lengths up to `L`. -/
def Schema.textLimit (L : Nat) : Schema → Bool
  | .option s => s.textLimit L
  | .nullable s => s.textLimit L
  | .dynamic S s => s.textFree || (decide (L ≤ S.maxLen) && s.textLimit L)
  | .vpadded _ s => s.textLimit L
  | .padded _ s => s.textLimit L
  | .seq s => s.textLimit L
  | .fixSeq _ s => s.textLimit L
  | .limSeq _ s => s.textLimit L
  | .autobox s => s.textLimit L
  | .hole _ => true
  | .data _ vs => vs.textLimit L
  | .record fs => fs.textLimit L
  | .unit | .bool | .int _ | .f64 | .rangedInt _ _ _ | .rangedFloat _ _ | .zarithN | .zarithZ | .bytes | .vecU8
  | .string | .fixedBytes _ | .fixedString _ | .cstyle _ _ => true
def Variants.textLimit (L : Nat) : Variants → Bool
  | .nil => true
  | .cons _ s vs => s.textLimit L && vs.textLimit L
def Fields.textLimit (L : Nat) : Fields → Bool
  | .nil => true
  | .cons s fs => s.textLimit L && fs.textLimit L
end

mutual
/-- No redundant encodings: no text, no zarith numbers, padding only if it is checked. -/
def Schema.canonical (cfg : Cfg) : Schema → Bool
  | .string => false
  | .zarithN => false
  | .zarithZ => false
  | .option s => s.canonical cfg
  | .nullable s => s.canonical cfg
  | .dynamic _ s => s.canonical cfg
  | .vpadded _ s => s.canonical cfg
  | .padded n s => (cfg.checkPadding || n = 0) && s.canonical cfg
  | .seq s => s.canonical cfg
  | .fixSeq _ s => s.canonical cfg
  | .limSeq _ s => s.canonical cfg
  | .autobox s => s.canonical cfg
  | .hole _ => true
  | .data _ vs => vs.canonical cfg
  | .record fs => fs.canonical cfg
  | .unit | .bool | .int _ | .f64 | .rangedInt _ _ _ | .rangedFloat _ _ | .bytes | .vecU8
  | .fixedBytes _ | .fixedString _ | .cstyle _ _ => true
def Variants.canonical (cfg : Cfg) : Variants → Bool
  | .nil => true
  | .cons _ s vs => s.canonical cfg && vs.canonical cfg
def Fields.canonical (cfg : Cfg) : Fields → Bool
  | .nil => true
  | .cons s fs => s.canonical cfg && fs.canonical cfg
end

mutual
/-- No `N` with value 0 (whose length estimate is wrong). -/
def Schema.EstOk : (s : Schema) → s.Val → Prop
  | .unit => fun _ => True
  | .bool => fun _ => True
  | .int _ => fun _ => True
  | .f64 => fun _ => True
  | .rangedInt _ _ _ => fun _ => True
  | .rangedFloat _ _ => fun _ => True
  | .zarithN => fun (x : Nat) => x ≠ 0
  | .zarithZ => fun _ => True
  | .bytes => fun _ => True
  | .vecU8 => fun _ => True
  | .string => fun _ => True
  | .fixedBytes _ => fun _ => True
  | .fixedString _ => fun _ => True
  | .option s => fun (o : Option s.Val) => ∀ x, o = some x → s.EstOk x
  | .nullable s => fun (o : Option s.Val) => ∀ x, o = some x → s.EstOk x
  | .dynamic _ s => s.EstOk
  | .vpadded _ s => s.EstOk
  | .padded _ s => s.EstOk
  | .seq s => fun (xs : List s.Val) => ∀ x ∈ xs, s.EstOk x
  | .fixSeq _ s => fun (xs : List s.Val) => ∀ x ∈ xs, s.EstOk x
  | .limSeq _ s => fun (xs : List s.Val) => ∀ x ∈ xs, s.EstOk x
  | .autobox s => s.EstOk
  | .hole _ => fun _ => True
  | .cstyle _ _ => fun _ => True
  | .data _ vs => vs.EstOk
  | .record fs => fs.EstOk
def Variants.EstOk : (vs : Variants) → vs.Val → Prop
  | .nil => fun _ => True
  | .cons _ s vs => Sum.elim s.EstOk vs.EstOk
def Fields.EstOk : (fs : Fields) → fs.Val → Prop
  | .nil => fun _ => True
  | .cons s fs => fun x => s.EstOk x.1 ∧ fs.EstOk x.2
end

mutual
/-- No `N` with value 0 under a length prefix. -/
def Schema.PrefixOk : (s : Schema) → s.Val → Prop
  | .unit => fun _ => True
  | .bool => fun _ => True
  | .int _ => fun _ => True
  | .f64 => fun _ => True
  | .rangedInt _ _ _ => fun _ => True
  | .rangedFloat _ _ => fun _ => True
  | .zarithN => fun _ => True
  | .zarithZ => fun _ => True
  | .bytes => fun _ => True
  | .vecU8 => fun _ => True
  | .string => fun _ => True
  | .fixedBytes _ => fun _ => True
  | .fixedString _ => fun _ => True
  | .option s => fun (o : Option s.Val) => ∀ x, o = some x → s.PrefixOk x
  | .nullable s => fun (o : Option s.Val) => ∀ x, o = some x → s.PrefixOk x
  | .dynamic _ s => s.EstOk
  | .vpadded _ s => s.PrefixOk
  | .padded _ s => s.PrefixOk
  | .seq s => fun (xs : List s.Val) => ∀ x ∈ xs, s.PrefixOk x
  | .fixSeq _ s => fun (xs : List s.Val) => ∀ x ∈ xs, s.PrefixOk x
  | .limSeq _ s => fun (xs : List s.Val) => ∀ x ∈ xs, s.PrefixOk x
  | .autobox s => s.PrefixOk
  | .hole _ => fun _ => True
  | .cstyle _ _ => fun _ => True
  | .data _ vs => vs.PrefixOk
  | .record fs => fs.PrefixOk
def Variants.PrefixOk : (vs : Variants) → vs.Val → Prop
  | .nil => fun _ => True
  | .cons _ s vs => Sum.elim s.PrefixOk vs.PrefixOk
def Fields.PrefixOk : (fs : Fields) → fs.Val → Prop
  | .nil => fun _ => True
  | .cons s fs => fun x => s.PrefixOk x.1 ∧ fs.PrefixOk x.2
end

end Verif
