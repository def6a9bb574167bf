import Verif.Recursive
/-
When a type leaves parts of another one undecoded: where the one says `Dynamic<S, T>` the other says `Dynamic<S, Bytes>`,
and where it says `VPadded<T, N>` the other says `VPadded<Bytes, N>`.  This is what one writes to look at the outside of
a message, and at its inside later or never.
-/
namespace Verif

/-- The lists have the same length and their elements are related one by one. -/
def Pairwise2 {α β : Type} (R : α → β → Prop) : List α → List β → Prop
  | [], [] => True
  | x :: xs, y :: ys => R x y ∧ Pairwise2 R xs ys
  | _, _ => False

/-- Both are absent, or both are there and related. -/
def Both {α β : Type} (R : α → β → Prop) : Option α → Option β → Prop
  | none, none => True
  | some x, some y => R x y
  | _, _ => False

/-- Values of the same arm whose payloads are related. -/
def Either2 {α β α' β' : Type} (R : α → α' → Prop) (Q : β → β' → Prop) : α ⊕ β → α' ⊕ β' → Prop
  | .inl x, .inl y => R x y
  | .inr x, .inr y => Q x y
  | _, _ => False

mutual
/-- `s'` leaves parts of `s` undecoded. -/
inductive Sealed : Schema → Schema → Type
  /-- nothing is left undecoded here -/
  | same (s : Schema) : Sealed s s
  /-- what is under a length prefix -/
  | prefixed (S : LenPref) (s : Schema) : Sealed (.dynamic S s) (.dynamic S .bytes)
  /-- what is in front of reserved bytes -/
  | reserved (n : Nat) (s : Schema) : Sealed (.vpadded n s) (.vpadded n .bytes)
  | option {s s' : Schema} (h : Sealed s s') : Sealed (.option s) (.option s')
  | nullable {s s' : Schema} (h : Sealed s s') : Sealed (.nullable s) (.nullable s')
  | dynamic (S : LenPref) {s s' : Schema} (h : Sealed s s') : Sealed (.dynamic S s) (.dynamic S s')
  | vpadded (n : Nat) {s s' : Schema} (h : Sealed s s') : Sealed (.vpadded n s) (.vpadded n s')
  | padded (n : Nat) {s s' : Schema} (h : Sealed s s') : Sealed (.padded n s) (.padded n s')
  | seq {s s' : Schema} (h : Sealed s s') : Sealed (.seq s) (.seq s')
  | fixSeq (n : Nat) {s s' : Schema} (h : Sealed s s') : Sealed (.fixSeq n s) (.fixSeq n s')
  | limSeq (n : Nat) {s s' : Schema} (h : Sealed s s') : Sealed (.limSeq n s) (.limSeq n s')
  | autobox {s s' : Schema} (h : Sealed s s') : Sealed (.autobox s) (.autobox s')
  | data (w : TagWidth) {vs vs' : Variants} (h : VSealed vs vs') : Sealed (.data w vs) (.data w vs')
  | record {fs fs' : Fields} (h : FSealed fs fs') : Sealed (.record fs) (.record fs')
/-- The same tags, with parts of the payloads left undecoded. -/
inductive VSealed : Variants → Variants → Type
  | nil : VSealed .nil .nil
  | cons (tag : Nat) {s s' : Schema} {vs vs' : Variants} (h : Sealed s s') (hs : VSealed vs vs') :
      VSealed (.cons tag s vs) (.cons tag s' vs')
/-- The same number of fields, with parts of them left undecoded. -/
inductive FSealed : Fields → Fields → Type
  | nil : FSealed .nil .nil
  | cons {s s' : Schema} {fs fs' : Fields} (h : Sealed s s') (hs : FSealed fs fs') : FSealed (.cons s fs) (.cons s' fs')
end

mutual
/-- The values are the same except for the undecoded parts, and these are related as `O` says: the bytes on one side, the
value of the part on the other. -/
def Sealed.Opens (O : (t : Schema) → Bytes → t.Val → Prop) : {s s' : Schema} → Sealed s s' → s'.Val → s.Val → Prop
  | _, _, .same _ => fun x y => x = y
  | _, _, .prefixed _ s => O s
  | _, _, .reserved _ s => O s
  | _, _, .option h => Both (h.Opens O)
  | _, _, .nullable h => Both (h.Opens O)
  | _, _, .dynamic _ h => h.Opens O
  | _, _, .vpadded _ h => h.Opens O
  | _, _, .padded _ h => h.Opens O
  | _, _, .seq h => Pairwise2 (h.Opens O)
  | _, _, .fixSeq _ h => Pairwise2 (h.Opens O)
  | _, _, .limSeq _ h => Pairwise2 (h.Opens O)
  | _, _, .autobox h => h.Opens O
  | _, _, .data _ h => h.Opens O
  | _, _, .record h => h.Opens O
def VSealed.Opens (O : (t : Schema) → Bytes → t.Val → Prop) : {vs vs' : Variants} → VSealed vs vs' → vs'.Val → vs.Val → Prop
  | _, _, .nil => fun _ _ => False
  | _, _, .cons _ h hs => Either2 (h.Opens O) (hs.Opens O)
def FSealed.Opens (O : (t : Schema) → Bytes → t.Val → Prop) : {fs fs' : Fields} → FSealed fs fs' → fs'.Val → fs.Val → Prop
  | _, _, .nil => fun _ _ => True
  | _, _, .cons h hs => fun x y => h.Opens O x.1 y.1 ∧ hs.Opens O x.2 y.2
end

/-! ### in recursive types -/

mutual
/-- Put schemas that leave parts undecoded in the place of the holes. -/
def Schema.sealFill {ρ ρ' : Nat → Schema} (e : ∀ i, Sealed (ρ i) (ρ' i)) : (s : Schema) → Sealed (s.fill ρ) (s.fill ρ')
  | .unit => .same .unit
  | .bool => .same .bool
  | .int t => .same (.int t)
  | .f64 => .same .f64
  | .rangedInt t min max => .same (.rangedInt t min max)
  | .rangedFloat min max => .same (.rangedFloat min max)
  | .zarithN => .same .zarithN
  | .zarithZ => .same .zarithZ
  | .bytes => .same .bytes
  | .vecU8 => .same .vecU8
  | .string => .same .string
  | .fixedBytes n => .same (.fixedBytes n)
  | .fixedString n => .same (.fixedString n)
  | .option s => .option (s.sealFill e)
  | .nullable s => .nullable (s.sealFill e)
  | .dynamic S s => .dynamic S (s.sealFill e)
  | .vpadded n s => .vpadded n (s.sealFill e)
  | .padded n s => .padded n (s.sealFill e)
  | .seq s => .seq (s.sealFill e)
  | .fixSeq n s => .fixSeq n (s.sealFill e)
  | .limSeq n s => .limSeq n (s.sealFill e)
  | .autobox s => .autobox (s.sealFill e)
  | .hole i => e i
  | .cstyle w tags => .same (.cstyle w tags)
  | .data w vs => .data w (vs.sealFill e)
  | .record fs => .record (fs.sealFill e)
def Variants.sealFill {ρ ρ' : Nat → Schema} (e : ∀ i, Sealed (ρ i) (ρ' i)) : (vs : Variants) → VSealed (vs.fill ρ) (vs.fill ρ')
  | .nil => .nil
  | .cons tag s vs => .cons tag (s.sealFill e) (vs.sealFill e)
def Fields.sealFill {ρ ρ' : Nat → Schema} (e : ∀ i, Sealed (ρ i) (ρ' i)) : (fs : Fields) → FSealed (fs.fill ρ) (fs.fill ρ')
  | .nil => .nil
  | .cons s fs => .cons (s.sealFill e) (fs.sealFill e)
end

mutual
def Sealed.fill {ρ ρ' : Nat → Schema} (e : ∀ i, Sealed (ρ i) (ρ' i)) : {s s' : Schema} → Sealed s s' → Sealed (s.fill ρ) (s'.fill ρ')
  | _, _, .same s => s.sealFill e
  | _, _, .prefixed S s => .prefixed S (s.fill ρ)
  | _, _, .reserved n s => .reserved n (s.fill ρ)
  | _, _, .option h => .option (h.fill e)
  | _, _, .nullable h => .nullable (h.fill e)
  | _, _, .dynamic S h => .dynamic S (h.fill e)
  | _, _, .vpadded n h => .vpadded n (h.fill e)
  | _, _, .padded n h => .padded n (h.fill e)
  | _, _, .seq h => .seq (h.fill e)
  | _, _, .fixSeq n h => .fixSeq n (h.fill e)
  | _, _, .limSeq n h => .limSeq n (h.fill e)
  | _, _, .autobox h => .autobox (h.fill e)
  | _, _, .data w h => .data w (h.fill e)
  | _, _, .record h => .record (h.fill e)
def VSealed.fill {ρ ρ' : Nat → Schema} (e : ∀ i, Sealed (ρ i) (ρ' i)) :
    {vs vs' : Variants} → VSealed vs vs' → VSealed (vs.fill ρ) (vs'.fill ρ')
  | _, _, .nil => .nil
  | _, _, .cons tag h hs => .cons tag (h.fill e) (hs.fill e)
def FSealed.fill {ρ ρ' : Nat → Schema} (e : ∀ i, Sealed (ρ i) (ρ' i)) :
    {fs fs' : Fields} → FSealed fs fs' → FSealed (fs.fill ρ) (fs'.fill ρ')
  | _, _, .nil => .nil
  | _, _, .cons h hs => .cons (h.fill e) (hs.fill e)
end

/-- The unfoldings of a family that leaves parts undecoded do so. -/
def Decls.sealed {d d' : Decls} (w : ∀ i, Sealed (d.body i) (d'.body i)) : (n i : Nat) → Sealed (d.unfold n i) (d'.unfold n i)
  | 0, i => .same (.hole i)
  | n + 1, i => (w i).fill (sealed w n)

end Verif
