import Verif.Spec.Schema
/-
What becomes of decoding in release builds on `ByteParser` and `MemoParser` once a `VPadded` finds fewer bytes than its
padding has: the size of its window wraps around, the window ends before the cursor.
-/
namespace Verif

/-- How a run ends. -/
inductive Fate where
  | ok | err | panic | ub | diverge
  deriving DecidableEq, Repr

namespace Fate

/-- A window that ends before the cursor cannot be closed, and what is missing cannot be read. -/
def closed : Fate → Fate
  | .ok => .err
  | f => f

/-- There always seems to be something left for another element. -/
def forever : Fate → Fate
  | .ok => .diverge
  | f => f

/-- What comes next is run only after success. -/
def next (f g : Fate) : Fate := match f with
  | .ok => g
  | f => f

/-- Elements are read as long as that succeeds, at most `k`; what becomes of the one after. -/
def first {α : Type} (d : D α) (g : Bytes → Fate) : Nat → Bytes → Fate
  | 0, v => g v
  | k + 1, v => match d v with
    | .ok _ rest => first d g k rest
    | _ => g v

end Fate

mutual
/-- Decoding with the cursor at offset `o` in a window that ends `d > 0` bytes before it.  The `usize::MAX + 1 - d` bytes that seem
to be left cannot be read: taking all of them is undefined behaviour, setting memory aside for them a panic. -/
def Schema.fate (o d : Nat) : Schema → Fate
  | .unit => .ok
  | .bool | .int _ | .f64 | .rangedInt _ _ _ | .rangedFloat _ _ | .fixedBytes _ | .fixedString _ | .option _ | .dynamic _ _
  | .cstyle _ _ | .data _ _ => .err
  | .zarithN | .zarithZ => .panic
  | .bytes | .vecU8 | .string => .ub
  | .nullable s => s.fate o d
  | .vpadded n s => if d + n ≤ o then (s.fate o (d + n)).closed else .err
  | .padded _ s => (s.fate o d).closed
  | .seq s => (s.fate o d).forever
  | .fixSeq n s => if n = 0 then .ok else s.fate o d
  | .limSeq _ s => (s.fate o d).closed
  | .autobox s => s.fate o d
  | .hole _ => .diverge
  | .record fs => fs.fate o d
def Fields.fate (o d : Nat) : Fields → Fate
  | .nil => .ok
  | .cons s fs => (s.fate o d).next (fs.fate o d)
end

mutual
/-- What becomes of decoding `v`, followed by `b` bytes out of reach, in an input of `l` bytes, when it comes to a `VPadded` that
finds fewer bytes than its padding has (`Schema.dec` is `wild`).  If even the beginning of the input is too close the window is
refused. -/
def Schema.fall (cfg : Cfg) (l : Nat) : Schema → Nat → Bytes → Fate
  | .option s, b, v => s.fall cfg l b (v.drop 1)
  | .nullable s, b, v => s.fall cfg l b v
  | .dynamic S s, b, v => match Dec.lenPref S v with
    | .ok n rest => s.fall cfg l (rest.length - n + b) (rest.take n)
    | _ => .err
  | .vpadded n s, b, v =>
    if n ≤ v.length then s.fall cfg l (n + b) (v.take (v.length - n))
    else if n - v.length ≤ l - (v.length + b) then (s.fate (l - (v.length + b)) (n - v.length)).closed
    else .err
  | .padded _ s, b, v => s.fall cfg l b v
  | .seq s, b, v => Fate.first (s.dec cfg) (s.fall cfg l b) v.length v
  | .fixSeq n s, b, v => Fate.first (s.dec cfg) (s.fall cfg l b) n v
  | .limSeq n s, b, v => Fate.first (s.dec cfg) (s.fall cfg l b) n v
  | .autobox s, b, v => s.fall cfg l b v
  | .data w vs, b, v => match Dec.tag w vs.tags v with
    | .ok t rest => vs.fall cfg l t b rest
    | _ => .err
  | .record fs, b, v => fs.fall cfg l b v
  | .unit, _, _ | .bool, _, _ | .int _, _, _ | .f64, _, _ | .rangedInt _ _ _, _, _ | .rangedFloat _ _, _, _ | .zarithN, _, _
  | .zarithZ, _, _ | .bytes, _, _ | .vecU8, _, _ | .string, _, _ | .fixedBytes _, _, _ | .fixedString _, _, _ | .hole _, _, _
  | .cstyle _ _, _, _ => .err
def Variants.fall (cfg : Cfg) (l : Nat) : Variants → Nat → Nat → Bytes → Fate
  | .nil, _, _, _ => .err
  | .cons tag s vs, t, b, v => if t = tag then s.fall cfg l b v else vs.fall cfg l t b v
def Fields.fall (cfg : Cfg) (l : Nat) : Fields → Nat → Bytes → Fate
  | .nil, _, _ => .err
  | .cons s fs, b, v => match s.dec cfg v with
    | .ok _ rest => fs.fall cfg l b rest
    | _ => s.fall cfg l b v
end

mutual
/-- Arrays and paddings are of at most `isize::MAX + 1` bytes (there are no larger arrays). -/
def Schema.narrow : Schema → Bool
  | .unit | .bool | .int _ | .f64 | .rangedInt _ _ _ | .rangedFloat _ _ | .zarithN | .zarithZ | .bytes | .vecU8
  | .string | .cstyle _ _ | .hole _ => true
  | .fixedBytes n => n ≤ isizeMax + 1
  | .fixedString n => n ≤ isizeMax + 1
  | .option s | .nullable s | .dynamic _ s | .seq s | .fixSeq _ s | .limSeq _ s | .autobox s => s.narrow
  | .vpadded n s | .padded n s => n ≤ isizeMax + 1 && s.narrow
  | .data _ vs => vs.narrow
  | .record fs => fs.narrow
def Variants.narrow : Variants → Bool
  | .nil => true
  | .cons _ s vs => s.narrow && vs.narrow
def Fields.narrow : Fields → Bool
  | .nil => true
  | .cons s fs => s.narrow && fs.narrow
end

mutual
/-- The same when there is room enough before the cursor. -/
def Schema.overrun : Schema → Fate
  | .unit => .ok
  | .bool | .int _ | .f64 | .rangedInt _ _ _ | .rangedFloat _ _ | .fixedBytes _ | .fixedString _ | .option _ | .dynamic _ _
  | .cstyle _ _ | .data _ _ => .err
  | .zarithN | .zarithZ => .panic
  | .bytes | .vecU8 | .string => .ub
  | .nullable s | .autobox s => s.overrun
  | .vpadded _ s | .padded _ s | .limSeq _ s => s.overrun.closed
  | .seq s => s.overrun.forever
  | .fixSeq n s => if n = 0 then .ok else s.overrun
  | .hole _ => .diverge
  | .record fs => fs.overrun
def Fields.overrun : Fields → Fate
  | .nil => .ok
  | .cons s fs => s.overrun.next fs.overrun
end

mutual
/-- Nothing inside a `VPadded` runs into `x` when its window ends before the cursor. -/
def Schema.avoids (x : Fate) : Schema → Bool
  | .unit | .bool | .int _ | .f64 | .rangedInt _ _ _ | .rangedFloat _ _ | .zarithN | .zarithZ | .bytes | .vecU8
  | .string | .fixedBytes _ | .fixedString _ | .cstyle _ _ | .hole _ => true
  | .vpadded _ s => s.overrun ≠ x && s.avoids x
  | .option s | .nullable s | .dynamic _ s | .padded _ s | .seq s | .fixSeq _ s | .limSeq _ s | .autobox s => s.avoids x
  | .data _ vs => vs.avoids x
  | .record fs => fs.avoids x
def Variants.avoids (x : Fate) : Variants → Bool
  | .nil => true
  | .cons _ s vs => s.avoids x && vs.avoids x
def Fields.avoids (x : Fate) : Fields → Bool
  | .nil => true
  | .cons s fs => s.avoids x && fs.avoids x
end

end Verif
