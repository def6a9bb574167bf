import Verif.Spec.Schema
import Verif.Spec.Recursive
/-
SPECIFICATION: how many bytes the messages of a type can have.
-/
namespace Verif

/-- One after the other: sums of sizes. -/
def sizesSum (k : Nat → Prop) (L : Nat → Prop) (n : Nat) : Prop := ∃ ls : List Nat, k ls.length ∧ (∀ l ∈ ls, L l) ∧ ls.sum = n

mutual
/-- The numbers of bytes a message of the type can have. -/
def Schema.Sizes : Schema → Nat → Prop
  | .unit => fun n => n = 0
  | .bool => fun n => n = 1
  | .int t => fun n => n = t.len
  | .f64 => fun n => n = 8
  | .rangedInt t min max => fun n => n = t.len ∧ ∃ x : t.Val, Enc.inRange min max (t.toInt x)
  | .rangedFloat min max => fun n => n = 8 ∧ F64.le min max = true
  | .zarithN => fun n => 1 ≤ n
  | .zarithZ => fun n => 1 ≤ n
  | .bytes => fun _ => True
  | .vecU8 => fun _ => True
  | .string => fun _ => True
  | .fixedBytes k => fun n => n = k
  | .fixedString k => fun n => n = k
  | .option s => fun n => n = 1 ∨ ∃ m, s.Sizes m ∧ n = 1 + m
  | .nullable s => fun n => n = 0 ∨ s.Sizes n
  | .dynamic S s => fun n => ∃ m, s.Sizes m ∧ m ≤ S.maxLen ∧ n = S.len + m
  | .vpadded _ s => s.Sizes
  | .padded k s => fun n => ∃ m, s.Sizes m ∧ n = m + k
  | .seq s => sizesSum (fun _ => True) s.Sizes
  | .fixSeq k s => sizesSum (fun l => l = k) s.Sizes
  | .limSeq k s => sizesSum (fun l => l ≤ k) s.Sizes
  | .autobox s => s.Sizes
  | .hole _ => fun _ => False
  | .cstyle w tags => fun n => n = w.len ∧ tags ≠ []
  | .data w vs => fun n => ∃ m, vs.Sizes m ∧ n = w.len + m
  | .record fs => fs.Sizes
def Variants.Sizes : Variants → Nat → Prop
  | .nil => fun _ => False
  | .cons _ s vs => fun n => s.Sizes n ∨ vs.Sizes n
def Fields.Sizes : Fields → Nat → Prop
  | .nil => fun n => n = 0
  | .cons s fs => fun n => ∃ a b, s.Sizes a ∧ fs.Sizes b ∧ n = a + b
end

/-- The sizes of the messages of recursive types. -/
def Decls.Sizes (d : Decls) (i : Nat) (n : Nat) : Prop := ∃ m, (d.unfold m i).Sizes n

/-- The smaller of two sizes, if there are any. -/
def optMin : Option Nat → Option Nat → Option Nat
  | some a, some b => some (min a b)
  | some a, none => some a
  | none, b => b

mutual
/-- The smallest message; `none`: there are no messages. -/
def Schema.least : Schema → Option Nat
  | .unit => some 0
  | .bool => some 1
  | .int t => some t.len
  | .f64 => some 8
  | .rangedInt t min max =>
    if (0 < min ∧ min ≤ max) ∨ (min ≤ 0 ∧ min ≤ max ∧ min ≤ t.hi ∧ t.lo ≤ max) then some t.len else none
  | .rangedFloat min max => if F64.le min max = true then some 8 else none
  | .zarithN => some 1
  | .zarithZ => some 1
  | .bytes => some 0
  | .vecU8 => some 0
  | .string => some 0
  | .fixedBytes k => some k
  | .fixedString k => some k
  | .option _ => some 1
  | .nullable _ => some 0
  | .dynamic S s => match s.least with
    | some m => if m ≤ S.maxLen then some (S.len + m) else none
    | none => none
  | .vpadded _ s => s.least
  | .padded k s => s.least.map (· + k)
  | .seq _ => some 0
  | .fixSeq k s => if k = 0 then some 0 else s.least.map (k * ·)
  | .limSeq _ _ => some 0
  | .autobox s => s.least
  | .hole _ => none
  | .cstyle w tags => if tags = [] then none else some w.len
  | .data w vs => vs.least.map (w.len + ·)
  | .record fs => fs.least
def Variants.least : Variants → Option Nat
  | .nil => none
  | .cons _ s vs => optMin s.least vs.least
def Fields.least : Fields → Option Nat
  | .nil => some 0
  | .cons s fs => match s.least, fs.least with
    | some a, some b => some (a + b)
    | _, _ => none
end

mutual
/-- No message is longer than this (0 if there are no messages); `none`: there is no such bound. -/
def Schema.most : Schema → Option Nat
  | .unit => some 0
  | .bool => some 1
  | .int t => some t.len
  | .f64 => some 8
  | .rangedInt t min max => some ((Schema.rangedInt t min max).least.getD 0)
  | .rangedFloat min max => some ((Schema.rangedFloat min max).least.getD 0)
  | .zarithN => none
  | .zarithZ => none
  | .bytes => none
  | .vecU8 => none
  | .string => none
  | .fixedBytes k => some k
  | .fixedString k => some k
  | .option s => s.most.map (1 + ·)
  | .nullable s => s.most
  | .dynamic S s => if (Schema.dynamic S s).least = none then some 0 else match s.most with
    | some m => some (S.len + min m S.maxLen)
    | none => some (S.len + S.maxLen)
  | .vpadded _ s => s.most
  | .padded k s => if s.least = none then some 0 else s.most.map (· + k)
  | .seq s => if s.most = some 0 then some 0 else none
  | .fixSeq k s => if k = 0 ∨ s.least = none then some 0 else s.most.map (k * ·)
  | .limSeq k s => if k = 0 then some 0 else s.most.map (k * ·)
  | .autobox s => s.most
  | .hole _ => some 0
  | .cstyle w tags => some (if tags = [] then 0 else w.len)
  | .data w vs => if vs.least = none then some 0 else vs.most.map (w.len + ·)
  | .record fs => fs.most
def Variants.most : Variants → Option Nat
  | .nil => some 0
  | .cons _ s vs => match s.most, vs.most with
    | some a, some b => some (max a b)
    | _, _ => none
def Fields.most : Fields → Option Nat
  | .nil => some 0
  | .cons s fs => if s.least = none ∨ fs.least = none then some 0 else match s.most, fs.most with
    | some a, some b => some (a + b)
    | _, _ => none
end

end Verif
