import Verif.Recursive
import Verif.Lemmas.Num
/-
When a type is wider than another one: a later version of it, with more constructors, larger ranges and larger limits
on lengths – what one changes in a protocol without wanting to change the messages that exist.  The two types are
otherwise the same.
-/
namespace Verif

/-- The enum has an arm with this tag – the first one with it – and this payload. -/
inductive Arm (tag : Nat) (s : Schema) : Variants → Type
  | here (vs : Variants) : Arm tag s (.cons tag s vs)
  | there {vs : Variants} (tag' : Nat) (s' : Schema) (h : tag' ≠ tag) (a : Arm tag s vs) : Arm tag s (.cons tag' s' vs)

/-- The value of the enum with this arm and payload. -/
def Arm.inj {tag : Nat} {s : Schema} : {vs : Variants} → Arm tag s vs → s.Val → vs.Val
  | _, .here _ => Sum.inl
  | _, .there _ _ _ a => fun x => Sum.inr (a.inj x)

mutual
/-- `s'` is wider than `s`. -/
inductive Wider : Schema → Schema → Type
  | unit : Wider .unit .unit
  | bool : Wider .bool .bool
  | int (t : IntTy) : Wider (.int t) (.int t)
  | f64 : Wider .f64 .f64
  /-- a larger range; what is sent is the difference to the least number if that is positive, and then it must stay -/
  | rangedInt (t : IntTy) {min max min' max' : Int} (hmin : min' = min ∨ min' ≤ min ∧ min ≤ 0) (hmax : max ≤ max') :
      Wider (.rangedInt t min max) (.rangedInt t min' max')
  | rangedFloat {min max min' max' : BitVec 64} (hmin : min' = min ∨ F64.le min' min = true) (hmax : max' = max ∨ F64.le max max' = true) :
      Wider (.rangedFloat min max) (.rangedFloat min' max')
  | zarithN : Wider .zarithN .zarithN
  | zarithZ : Wider .zarithZ .zarithZ
  | bytes : Wider .bytes .bytes
  | vecU8 : Wider .vecU8 .vecU8
  | string : Wider .string .string
  | fixedBytes (n : Nat) : Wider (.fixedBytes n) (.fixedBytes n)
  | fixedString (n : Nat) : Wider (.fixedString n) (.fixedString n)
  | option {s s' : Schema} (h : Wider s s') : Wider (.option s) (.option s')
  | nullable {s s' : Schema} (h : Wider s s') : Wider (.nullable s) (.nullable s')
  | dynamic (S : LenPref) {s s' : Schema} (h : Wider s s') : Wider (.dynamic S s) (.dynamic S s')
  | vpadded (n : Nat) {s s' : Schema} (h : Wider s s') : Wider (.vpadded n s) (.vpadded n s')
  | padded (n : Nat) {s s' : Schema} (h : Wider s s') : Wider (.padded n s) (.padded n s')
  | seq {s s' : Schema} (h : Wider s s') : Wider (.seq s) (.seq s')
  | fixSeq (n : Nat) {s s' : Schema} (h : Wider s s') : Wider (.fixSeq n s) (.fixSeq n s')
  /-- a larger limit -/
  | limSeq {n n' : Nat} (hn : n ≤ n') {s s' : Schema} (h : Wider s s') : Wider (.limSeq n s) (.limSeq n' s')
  | autobox {s s' : Schema} (h : Wider s s') : Wider (.autobox s) (.autobox s')
  | hole (i : Nat) : Wider (.hole i) (.hole i)
  /-- more constructors, in any order -/
  | cstyle (w : TagWidth) {tags tags' : List Nat} (h : ∀ t ∈ tags, t ∈ tags') : Wider (.cstyle w tags) (.cstyle w tags')
  | data (w : TagWidth) {vs vs' : Variants} (h : VWider vs vs') : Wider (.data w vs) (.data w vs')
  | record {fs fs' : Fields} (h : FWider fs fs') : Wider (.record fs) (.record fs')
/-- Each arm is there, and its payload is wider. -/
inductive VWider : Variants → Variants → Type
  | nil (vs' : Variants) : VWider .nil vs'
  | cons (tag : Nat) {s s' : Schema} {vs vs' : Variants} (a : Arm tag s' vs') (h : Wider s s') (hs : VWider vs vs') :
      VWider (.cons tag s vs) vs'
/-- The same number of fields, each of them wider. -/
inductive FWider : Fields → Fields → Type
  | nil : FWider .nil .nil
  | cons {s s' : Schema} {fs fs' : Fields} (h : Wider s s') (hs : FWider fs fs') : FWider (.cons s fs) (.cons s' fs')
end

mutual
/-- The value of the narrower type as a value of the wider one. -/
def Wider.up : {s s' : Schema} → Wider s s' → s.Val → s'.Val
  | _, _, .unit => fun x => x
  | _, _, .bool => fun x => x
  | _, _, .int _ => fun x => x
  | _, _, .f64 => fun x => x
  | _, _, .rangedInt _ _ _ => fun x => x
  | _, _, .rangedFloat _ _ => fun x => x
  | _, _, .zarithN => fun x => x
  | _, _, .zarithZ => fun x => x
  | _, _, .bytes => fun x => x
  | _, _, .vecU8 => fun x => x
  | _, _, .string => fun x => x
  | _, _, .fixedBytes _ => fun x => x
  | _, _, .fixedString _ => fun x => x
  | _, _, .option h => Option.map h.up
  | _, _, .nullable h => Option.map h.up
  | _, _, .dynamic _ h => h.up
  | _, _, .vpadded _ h => h.up
  | _, _, .padded _ h => h.up
  | _, _, .seq h => List.map h.up
  | _, _, .fixSeq _ h => List.map h.up
  | _, _, .limSeq _ h => List.map h.up
  | _, _, .autobox h => h.up
  | _, _, .hole _ => fun x => x
  | _, _, .cstyle _ h => fun x => ⟨x.1, h x.1 x.2⟩
  | _, _, .data _ h => h.up
  | _, _, .record h => h.up
def VWider.up : {vs vs' : Variants} → VWider vs vs' → vs.Val → vs'.Val
  | _, _, .nil _ => fun x => nomatch x
  | _, _, .cons _ a h hs => Sum.elim (fun x => a.inj (h.up x)) hs.up
def FWider.up : {fs fs' : Fields} → FWider fs fs' → fs.Val → fs'.Val
  | _, _, .nil => fun x => x
  | _, _, .cons h hs => Prod.map h.up hs.up
end

/-! ### in recursive types -/

def Arm.fill (ρ : Nat → Schema) {tag : Nat} {s : Schema} : {vs : Variants} → Arm tag s vs → Arm tag (s.fill ρ) (vs.fill ρ)
  | _, .here _ => .here _
  | _, .there t _ h a => .there t _ h (a.fill ρ)

mutual
/-- Put wider schemas in the place of the holes. -/
def Wider.fill {ρ ρ' : Nat → Schema} (e : ∀ i, Wider (ρ i) (ρ' i)) : {s s' : Schema} → Wider s s' → Wider (s.fill ρ) (s'.fill ρ')
  | _, _, .unit => .unit
  | _, _, .bool => .bool
  | _, _, .int t => .int t
  | _, _, .f64 => .f64
  | _, _, .rangedInt t h h' => .rangedInt t h h'
  | _, _, .rangedFloat h h' => .rangedFloat h h'
  | _, _, .zarithN => .zarithN
  | _, _, .zarithZ => .zarithZ
  | _, _, .bytes => .bytes
  | _, _, .vecU8 => .vecU8
  | _, _, .string => .string
  | _, _, .fixedBytes n => .fixedBytes n
  | _, _, .fixedString n => .fixedString n
  | _, _, .option h => .option (h.fill e)
  | _, _, .nullable h => .nullable (h.fill e)
  | _, _, .dynamic S h => .dynamic S (h.fill e)
  | _, _, .vpadded n h => .vpadded n (h.fill e)
  | _, _, .padded n h => .padded n (h.fill e)
  | _, _, .seq h => .seq (h.fill e)
  | _, _, .fixSeq n h => .fixSeq n (h.fill e)
  | _, _, .limSeq hn h => .limSeq hn (h.fill e)
  | _, _, .autobox h => .autobox (h.fill e)
  | _, _, .hole i => e i
  | _, _, .cstyle w h => .cstyle w h
  | _, _, .data w h => .data w (h.fill e)
  | _, _, .record h => .record (h.fill e)
def VWider.fill {ρ ρ' : Nat → Schema} (e : ∀ i, Wider (ρ i) (ρ' i)) :
    {vs vs' : Variants} → VWider vs vs' → VWider (vs.fill ρ) (vs'.fill ρ')
  | _, _, .nil _ => .nil _
  | _, _, .cons tag a h hs => .cons tag (a.fill ρ') (h.fill e) (hs.fill e)
def FWider.fill {ρ ρ' : Nat → Schema} (e : ∀ i, Wider (ρ i) (ρ' i)) :
    {fs fs' : Fields} → FWider fs fs' → FWider (fs.fill ρ) (fs'.fill ρ')
  | _, _, .nil => .nil
  | _, _, .cons h hs => .cons (h.fill e) (hs.fill e)
end

/-- The unfoldings of a wider family of definitions are wider. -/
def Decls.wider {d d' : Decls} (w : ∀ i, Wider (d.body i) (d'.body i)) : (n i : Nat) → Wider (d.unfold n i) (d'.unfold n i)
  | 0, i => .hole i
  | n + 1, i => (w i).fill (wider w n)

/-- What a decoder says about a message of a wider type that is none of its own: a tag it does not know, a number out of
its range, a sequence that is longer than its limit. -/
inductive OutOfDate : ParseError → Prop
  | tag (w : TagWidth) (n : Nat) (tags : List Nat) (h : n ∉ tags) : OutOfDate (.token (.invalidTag w n (some tags)))
  | noTags : OutOfDate (.internal .noValidTags)
  | range (e : BoundsError Int) : OutOfDate (.external (.intRangeViolation e))
  | floatRange (e : BoundsError (BitVec 64)) : OutOfDate (.external (.floatRangeViolation e))
  | length (n : Nat) : OutOfDate (.external (.lengthViolation (.tooLong n (n + 1))))

end Verif
