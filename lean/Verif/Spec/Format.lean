import Verif.Spec.Decode
import Verif.Codec.Comb
/-
SPECIFICATION of the wire format: for each type the encoding of a value (`none`: not encodable, the
encoder panics) and the pure decoder.  Only data types and constants of the model are used here (integer
and prefix types, `toBe`/`ofBe`/`utf8`/`lossy` of the standard library, the range checks); none of the
codec, parser or target code is.
-/
namespace Verif

abbrev Enc (α : Type) : Type := α → Option Bytes

namespace Enc

variable {α β : Type}

/-- One encoding after the other. -/
def cat (a b : Option Bytes) : Option Bytes := do
  let x ← a
  let y ← b
  pure (x ++ y)

def unit : Enc Unit := fun _ => some []
def bool : Enc Bool := fun b => some [if b then 0xff else 0x00]
def int (t : IntTy) : Enc t.Val := fun x => some (toBe t.len x.toNat)
def f64 : Enc (BitVec 64) := fun x => some (toBe 8 x.toNat)

/-- The underlying values of a ranged integer: offsets from `min` when `min` is positive. -/
def inRange (min max v : Int) : Prop := if 0 < min then 0 ≤ v ∧ v ≤ max - min else min ≤ v ∧ v ≤ max

instance (min max v : Int) : Decidable (inRange min max v) := by unfold inRange; infer_instance

def rangedInt (t : IntTy) (min max : Int) : Enc t.Val := fun x =>
  if inRange min max (t.toInt x) then some (toBe t.len x.toNat) else none

def byteArr (n : Nat) : Enc (ByteArr n) := fun x => some x.1
def bytes : Enc Bytes := fun x => some x
def string : Enc (List Char) := fun x => some (utf8 x)

/-- Base 128, least significant digit first, top bit set on all digits but the last. -/
def nat7 (n : Nat) : Bytes := if n < 128 then [UInt8.ofNat n] else UInt8.ofNat (n % 128 + 128) :: nat7 (n / 128)
  termination_by n
  decreasing_by omega

def zarithN : Enc Nat := fun n => some (nat7 n)

/-- Six bits, the sign bit and the continuation bit in the first byte, then base 128. -/
def int7 (z : Int) : Bytes :=
  let s := if z < 0 then 64 else 0
  let n := z.natAbs
  if n < 64 then [UInt8.ofNat (n + s)] else UInt8.ofNat (n % 64 + s + 128) :: nat7 (n / 64)

def zarithZ : Enc Int := fun z => some (int7 z)

def option (e : Enc α) : Enc (Option α)
  | none => some [0x00]
  | some x => cat (some [0xff]) (e x)

def nullable (e : Enc α) : Enc (Option α)
  | none => some []
  | some x => e x

/-- `len` is the length announced for a value; it is the length of its encoding unless length estimates
are trusted (feature `enc_len_estimable_override`). -/
def dynamic (S : LenPref) (len : α → Option Nat) (e : Enc α) : Enc α := fun x =>
  match len x with
  | none => none
  | some l => if l ≤ S.maxLen then cat (some (toBe S.len l)) (e x) else none

/-- The announced length. -/
def lenOf (cfg : Cfg) (est : α → Nat) (e : Enc α) : α → Option Nat := fun x =>
  if cfg.encLenOverride then some (est x) else (e x).map List.length

def padded (n : Nat) (e : Enc α) : Enc α := fun x => cat (e x) (some (List.replicate n 0))

def list (e : Enc α) : Enc (List α)
  | [] => some []
  | x :: xs => cat (e x) (list e xs)

/-- A type without values. -/
def hole : Enc Empty := fun x => nomatch x

def cstyle (w : TagWidth) (tags : List Nat) : Enc (CEnum tags) := fun x => some (toBe w.len x.1)

/-- The arms of an enum. -/
def vnil : TagWidth → Enc Empty := fun _ x => nomatch x
def vcons (tag : Nat) (e : Enc α) (v : TagWidth → Enc β) : TagWidth → Enc (α ⊕ β) := fun w x =>
  match x with
  | .inl x => cat (some (toBe w.len tag)) (e x)
  | .inr y => v w y

/-- The fields of a record. -/
def fnil : Enc Unit := fun _ => some []
def fcons (e : Enc α) (f : Enc β) : Enc (α × β) := fun x => cat (e x.1) (f x.2)

end Enc

namespace Dec

variable {α β : Type}

def unit : D Unit := pure ()

def bool : D Bool := do
  let b ← D.byte
  if b = 0xff then pure true
  else if b = 0x00 then pure false
  else D.throw (.token (.invalidBoolean b))

def int (t : IntTy) : D t.Val := (fun bs => BitVec.ofNat _ (ofBe bs)) <$> D.take t.len

def f64 : D (BitVec 64) := (fun bs => BitVec.ofNat _ (ofBe bs)) <$> D.take 8

/-- Fail with the reported range violation. -/
def check {ε : Type} (r : Except ε α) (f : ε → ParseError) : D α :=
  match r with
  | .ok a => pure a
  | .error e => D.throw (f e)

def rangedInt (t : IntTy) (min max : Int) : D t.Val := do
  let x ← int t
  check ((restrict (t.toInt x) min max).map fun _ => x) (fun e => .external (.intRangeViolation e))

def rangedFloat (min max : BitVec 64) : D (BitVec 64) := do
  let x ← f64
  check (restrictFloat x min max) (fun e => .external (.floatRangeViolation e))

def byteArr (n : Nat) : D (ByteArr n) := do
  let bs ← D.take n
  if h : bs.length = n then pure ⟨bs, h⟩ else D.panic

def bytes : D Bytes := D.rest
def string : D (List Char) := lossy <$> D.rest

/-- Little-endian base-128 value of the low seven bits. -/
def val7 (bs : Bytes) : Nat := bs.foldr (fun b acc => b.toNat % 128 + 128 * acc) 0

/-- Value of a signed encoding: six bits and the sign from the first byte. -/
def ival7 (bs : Bytes) : Int :=
  match bs with
  | [] => 0
  | b :: bs =>
    let n : Nat := b.toNat % 64 + 64 * val7 bs
    if b.toNat / 64 % 2 = 1 then -(n : Int) else n

/-- Bytes up to and including the first one with a clear top bit. -/
def terminated : D Bytes := D.until_ (fun b => b.toNat < 128)

def zarithN : D Nat := val7 <$> terminated
def zarithZ : D Int := ival7 <$> terminated

/-- A tag, which has to be one of the given ones. -/
def tag (w : TagWidth) (tags : List Nat) : D Nat := do
  let t ← ofBe <$> D.take w.len
  if t ∈ tags then pure t
  else if tags = [] then D.throw (.internal .noValidTags)
  else D.throw (.token (.invalidTag w t (some tags)))

def option (d : D α) : D (Option α) := do
  let t ← tag .u8 [0x00, 0xff]
  if t = 0xff then some <$> d else pure none

def nullable (d : D α) : D (Option α) := D.ifEmpty (pure none) (some <$> d)

def lenPref (S : LenPref) : D Nat := do
  let n ← ofBe <$> D.take S.len
  if n ≤ S.maxLen then pure n
  else D.throw (.external (.intRangeViolation (.overflow S.maxLen n)))

def dynamic (S : LenPref) (d : D α) : D α := do
  let n ← lenPref S
  D.window n d

/-- All but the last `n` bytes; there have to be `n`. -/
def vpadded (cfg : Cfg) (n : Nat) (d : D α) : D α := fun v =>
  if n ≤ v.length then D.window (v.length - n) d v
  else match cfg.prof with
    | .debug => .panic
    | .release => .wild

def padded (cfg : Cfg) (n : Nat) (d : D α) : D α := do
  let a ← d
  let p ← D.take n
  if cfg.checkPadding ∧ p ≠ List.replicate n 0 then D.throw (.token (.nonNullPaddingByte p))
  else pure a

def seq (d : D α) : D (List α) := fun v => D.many d v

def fixSeq (n : Nat) (d : D α) : D (List α) := do
  let l ← D.upTo d n
  if l.length = n then pure l
  else D.throw (.external (.lengthViolation (.wrongLength n l.length)))

def limSeq (n : Nat) (d : D α) : D (List α) :=
  D.manyMax (.external (.lengthViolation (.tooLong n (n + 1)))) d n

/-- Running forever. -/
def hole : D Empty := fun _ => .diverge

def cstyle (w : TagWidth) (tags : List Nat) : D (CEnum tags) := do
  let t ← tag w tags
  if h : t ∈ tags then pure ⟨t, h⟩ else D.panic

def vnil : Nat → D Empty := fun _ => D.panic
def vcons (t : Nat) (d : D α) (v : Nat → D β) : Nat → D (α ⊕ β) := fun t' =>
  if t' = t then Sum.inl <$> d else Sum.inr <$> v t'

def data (w : TagWidth) (tags : List Nat) (v : Nat → D β) : D β := do
  let t ← tag w tags
  v t

def fnil : D Unit := pure ()
def fcons (d : D α) (f : D β) : D (α × β) := do
  let a ← d
  let b ← f
  pure (a, b)

end Dec

end Verif
