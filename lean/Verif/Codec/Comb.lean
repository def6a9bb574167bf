import Verif.Codec.Prim
/-
Codecs of the type constructors.
-/
namespace Verif

/-- Width in bytes of the tag types. -/
def TagWidth.len : TagWidth → Nat
  | .u8 => 1
  | .u16 => 2
  | .u30 => 4

/-- `Decode::parse` of the tag types u8, u16, u32 (src/int.rs:546-575), as a number. -/
def TagWidth.parse (w : TagWidth) {σ : Type} (P : ParserOps σ) : PM σ Nat := ofBe <$> P.takeFixed w.len

/-- `write_to` of a tag. -/
def TagWidth.write (w : TagWidth) {τ : Type} (T : TargetOps τ) (tag : Nat) : W τ :=
  W.add (W.push (T.pushAll (toBe w.len tag))) (W.resolveZero T)

/-- The length-prefix types (src/dynamic.rs:313-357). -/
inductive LenPref where
  | u8 | u16 | u30
  deriving DecidableEq, Repr

namespace LenPref

/-- Upper bound of the OCaml native 31-bit integers (src/int.rs `MAX_OCAML_NATIVE_INT`). -/
def u30Max : Nat := 0x3fffffff

/-- `FixedLength::LEN`. -/
def len : LenPref → Nat
  | .u8 => 1
  | .u16 => 2
  | .u30 => 4

/-- src/dynamic.rs:324-326, 338-340, 355-357 `max_len`. -/
def maxLen : LenPref → Nat
  | .u8 => 0xff
  | .u16 => 0xffff
  | .u30 => u30Max

/-- `S::try_from(l)` followed by `write_to`: u8/u16 (std), u30 (src/int.rs:456-476, 513-523: checked
conversion of the usize, then a ranged write); `none` is the `unreachable!()`. -/
def write (S : LenPref) {τ : Type} (T : TargetOps τ) (l : Nat) : W τ :=
  match S with
  | .u8 => match IntTy.tryFrom .u8 l with
    | some x => (Codec.int .u8).write T x
    | none => W.panic
  | .u16 => match IntTy.tryFrom .u16 l with
    | some x => (Codec.int .u16).write T x
    | none => W.panic
  | .u30 =>
    match restrict l 0 u30Max with
    | .ok _ => match IntTy.tryFrom .u32 l with
      | some x => (Codec.rangedInt .u32 0 u30Max).write T x
      | none => W.panic
    | .error _ => W.panic

/-- `S::parse(p)?.into()`. -/
def parse (S : LenPref) {σ : Type} (P : ParserOps σ) : PM σ Nat :=
  match S with
  | .u8 => BitVec.toNat <$> (Codec.int .u8).parse P
  | .u16 => BitVec.toNat <$> (Codec.int .u16).parse P
  | .u30 => BitVec.toNat <$> (Codec.rangedInt .u32 0 u30Max).parse P

/-- src/dynamic.rs:284-313 `marshall_usize` on exactly `LEN` bytes; `none` is the panic. For u30 the bytes are
read as an i32 and must be in range. -/
def marshall (S : LenPref) (bs : Bytes) : Option Nat :=
  match S with
  | .u8 => some (ofBe bs)
  | .u16 => some (ofBe bs)
  | .u30 =>
    let raw : Int := (BitVec.ofNat 32 (ofBe bs)).toInt
    match restrict raw 0 u30Max with
    | .ok _ => some raw.toNat
    | .error _ => none

/-- src/dynamic.rs:268-271 `parse_as_usize`. -/
def parseAsUsize (S : LenPref) {σ : Type} (P : ParserOps σ) : PM σ Nat := do
  let bs ← P.consume S.len
  M.ofOption (S.marshall bs)

end LenPref

/-- src/parse/mod.rs:421-425 `process_prefix` (returns the prefix). -/
def ParserOps.processPrefix {σ : Type} (P : ParserOps σ) (S : LenPref) : PM σ Nat := do
  let lp ← S.parseAsUsize P
  P.setFit lp
  pure lp

/-- src/parse/mod.rs:410-415 `skip_dynamic`. -/
def ParserOps.skipDynamic {σ : Type} (P : ParserOps σ) (S : LenPref) : PM σ Nat := do
  let lp ← P.processPrefix S
  P.skipExactly lp
  P.enforceTarget
  pure lp

namespace Codec

variable {α : Type}

/-- `Option<T>`: src/conv/mod.rs:411-428, src/conv/len.rs:176-193. -/
def option (c : Codec α) : Codec (Option α) where
  write T x :=
    W.add
      (match x with
        | some val => W.add (W.push (T.pushOne 0xff)) (c.write T val)
        | none => W.push (T.pushOne 0x00))
      (W.resolveZero T)
  parse P := do
    let tag ← ParserOps.takeTagword .u8 (TagWidth.parse .u8 P) [0x00, 0xff]
    if tag = 0xff then do
      let a ← c.parse P
      pure (some a)
    else if tag = 0x00 then pure none
    else M.panic
  known := match c.known with
    | some 0 => some 1
    | _ => none
  unknown x := match x with
    | none => 1
    | some x => 1 + c.estimate x

/-- `Nullable<T>`: src/schema.rs:313-349. -/
def nullable (c : Codec α) : Codec (Option α) where
  write T x := match x with
    | some x => W.add (c.write T x) (W.resolveZero T)
    | none => W.resolveZero T
  parse P := do
    let rem ← P.remainder
    if rem ≠ 0 then do
      let a ← c.parse P
      pure (some a)
    else pure none
  known := match c.known with
    | some 0 => some 0
    | _ => none
  unknown x := match x with
    | some x => c.estimate x
    | none => 0

/-- `Dynamic<S, T>`: src/dynamic.rs:202-216, 359-397. -/
def dynamic (cfg : Cfg) (S : LenPref) (c : Codec α) : Codec α where
  write T x :=
    match c.encLen cfg x with
    | none => W.panic
    | some l =>
      if l ≤ S.maxLen then fun t =>
        W.add (S.write T l) (W.add (c.write T x) (W.resolveZero T)) (T.anticipate (l + S.len) t)
      else W.panic
  parse P := do
    let buflen ← S.parse P
    P.setFit buflen
    let contents ← c.parse P
    P.enforceTarget
    pure contents
  known := match c.known with
    | some n => some (S.len + n)
    | none => none
  unknown x := S.len + c.unknown x

/-- `VPadded<T, N>`: src/dynamic.rs:457-490. -/
def vpadded (cfg : Cfg) (n : Nat) (c : Codec α) : Codec α where
  write T x := c.write T x
  parse P := do
    let rem ← P.remainder
    if cfg.prof = .debug ∧ ¬ rem ≥ n then M.panic
    else match usub cfg.prof rem n with
      | none => M.panic
      | some k => do
        P.setFit k
        let ret ← c.parse P
        P.enforceTarget
        pure ret
  known := c.known
  unknown x := c.unknown x

/-- `Padded<T, N>`: src/schema.rs:181-232.  `KNOWN = None` only occurs with feature
`relaxed_padding_invariant` (such types do not compile otherwise). -/
def padded (cfg : Cfg) (n : Nat) (c : Codec α) : Codec α where
  write T x := W.add (W.add (c.write T x) (W.push (T.pushMany (List.replicate n 0)))) (W.resolveZero T)
  parse P := do
    let ret ← c.parse P
    let padding ← P.consume n
    if cfg.checkPadding ∧ padding ≠ List.replicate n 0 then M.throw (.token (.nonNullPaddingByte padding))
    else pure ret
  known := match c.known with
    | some m => some (m + n)
    | none => none
  unknown x := c.unknown x + n

/-- `while p.remainder() != 0 { seq.push(T::parse(p)?) }` (src/seq/mod.rs:231-233). -/
def seqBody {σ : Type} (P : ParserOps σ) (parse : PM σ α) (acc : List α) : PM σ (List α ⊕ List α) := do
  let rem ← P.remainder
  if rem ≠ 0 then do
    let a ← parse
    pure (.inl (acc ++ [a]))
  else pure (.inr acc)

/-- `Sequence<T>`: src/seq/mod.rs:213-237. -/
noncomputable def seq (c : Codec α) : Codec (List α) where
  write T xs := W.add (c.writeList T xs) (W.resolveZero T)
  parse P := iterM (seqBody P (c.parse P)) []
  known := none
  unknown xs := (xs.map c.estimate).sum

/-- src/seq/boundedseq_impl.rs:47-59 `try_push` (the bounded sequence is its list of elements). -/
def tryPush {σ : Type} (limit : Nat) (acc : List α) (x : α) : PM σ (List α) :=
  if acc.length < limit then pure (acc ++ [x])
  else M.throw (.external (.lengthViolation (.tooLong limit (limit + 1))))

/-- One round of `while p.remainder() != 0 && seq.len() < N` (src/seq/fix.rs:283-285). -/
def fixBody {σ : Type} (n : Nat) (P : ParserOps σ) (parse : PM σ α) (acc : List α) : PM σ (List α ⊕ List α) := do
  let rem ← P.remainder
  if rem ≠ 0 ∧ acc.length < n then do
    let a ← parse
    let acc ← tryPush n acc a
    pure (.inl acc)
  else pure (.inr acc)

/-- `FixSeq<T, N>` as its list of elements: src/seq/fix.rs:256-297. -/
noncomputable def fixSeq (n : Nat) (c : Codec α) : Codec (List α) where
  write T xs := W.add (c.writeList T xs) (W.resolveZero T)
  parse P := do
    let seq ← iterM (fixBody n P (c.parse P)) []
    if seq.length = n then pure seq
    else M.throw (.external (.lengthViolation (.wrongLength n seq.length)))
  known := match c.known with
    | some m => some (n * m)
    | none => none
  unknown xs := (xs.map c.unknown).sum

/-- One round of `while p.remainder() != 0 { seq.try_push(T::parse(p)?)? }` (src/seq/lim.rs:303-305). -/
def limBody {σ : Type} (n : Nat) (P : ParserOps σ) (parse : PM σ α) (acc : List α) : PM σ (List α ⊕ List α) := do
  let rem ← P.remainder
  if rem ≠ 0 then do
    let a ← parse
    let acc ← tryPush n acc a
    pure (.inl acc)
  else pure (.inr acc)

/-- `LimSeq<T, N>` as its list of elements: src/seq/lim.rs:279-308. -/
noncomputable def limSeq (n : Nat) (c : Codec α) : Codec (List α) where
  write T xs := W.add (c.writeList T xs) (W.resolveZero T)
  parse P := iterM (limBody n P (c.parse P)) []
  known := none
  unknown xs := (xs.map c.estimate).sum

/-- `AutoBox<T>`: src/autobox.rs:246-267. -/
def autobox (c : Codec α) : Codec α where
  write T x := c.write T x
  parse P := c.parse P
  known := c.known
  unknown x := c.unknown x

/-- A type without values whose decoder runs forever: what is left of a recursive type when its definition
has been unfolded as often as wanted (Verif/Recursive.lean). -/
def hole : Codec Empty where
  write _ x := nomatch x
  parse _ := fun _ => .diverge
  known := none
  unknown x := nomatch x

end Codec

/-! ### enums -/

/-- An enum declared by `cstyle!`: its values are its declared discriminants. -/
def CEnum (tags : List Nat) : Type := { t : Nat // t ∈ tags }

instance (tags : List Nat) : DecidableEq (CEnum tags) := inferInstanceAs (DecidableEq { t : Nat // t ∈ tags })

namespace Codec

/-- `cstyle!`: src/adt.rs:85-117. -/
def cstyle (w : TagWidth) (tags : List Nat) : Codec (CEnum tags) where
  write T x := w.write T x.1
  parse P := do
    let tag ← ParserOps.takeTagword w (w.parse P) tags
    if h : tag ∈ tags then pure ⟨tag, h⟩ else M.panic
  known := some w.len
  unknown _ := w.len

end Codec

/-- The arms of a `data!` enum (src/adt.rs:255-380), one after the other. -/
structure VCodec (β : Type) : Type 1 where
  tags : List Nat
  /-- the match arms of `write_to` (355-365) -/
  write : (w : TagWidth) → {τ : Type} → TargetOps τ → β → W τ
  /-- the match arms of `parse` (342-353) -/
  parse : {σ : Type} → ParserOps σ → Nat → PM σ β
  /-- the match arms of `unknown` (367-378) -/
  unknown : TagWidth → β → Nat
  /-- `get_tagval` (280-284) -/
  tagval : β → Nat

namespace VCodec

/-- No arm left: `_ => unreachable!()`. -/
def nil : VCodec Empty where
  tags := []
  write _ _ _ x := nomatch x
  parse _ _ := M.panic
  unknown _ x := nomatch x
  tagval x := nomatch x

/-- One more arm in front. -/
def cons {α β : Type} (tag : Nat) (c : Codec α) (v : VCodec β) : VCodec (α ⊕ β) where
  tags := tag :: v.tags
  write w _ T x := match x with
    | .inl x => W.add (w.write T tag) (W.add (c.write T x) (W.resolveZero T))
    | .inr y => v.write w T y
  parse P t :=
    if t = tag then do
      let a ← c.parse P
      pure (.inl a)
    else do
      let b ← v.parse P t
      pure (.inr b)
  unknown w x := match x with
    | .inl x => w.len + c.estimate x
    | .inr y => v.unknown w y
  tagval x := match x with
    | .inl _ => tag
    | .inr y => v.tagval y

end VCodec

namespace Codec

/-- `data!`: src/adt.rs:342-378. -/
def data {β : Type} (w : TagWidth) (v : VCodec β) : Codec β where
  write T x := v.write w T x
  parse P := do
    let tag ← ParserOps.takeTagword w (w.parse P) v.tags
    v.parse P tag
  known := none
  unknown x := v.unknown w x

end Codec

/-! ### records -/

/-- The fields of a record with derived traits, in declaration order: encode_derive/src/lib.rs:22-60,
decode_derive/src/lib.rs:24-60, estimable_derive/src/lib.rs:75-170. -/
structure FCodec (β : Type) : Type 1 where
  /-- sum of the `write_to` of the fields, without the final `resolve_zero` -/
  write : {τ : Type} → TargetOps τ → β → W τ
  parse : {σ : Type} → ParserOps σ → PM σ β
  known : Option Nat
  unknown : β → Nat

namespace FCodec

def nil : FCodec Unit where
  write _ _ := W.zero
  parse _ := pure ()
  known := some 0
  unknown _ := 0

def cons {α β : Type} (c : Codec α) (f : FCodec β) : FCodec (α × β) where
  write T x := W.add (c.write T x.1) (f.write T x.2)
  parse P := do
    let a ← c.parse P
    let b ← f.parse P
    pure (a, b)
  known := match c.known, f.known with
    | some m, some n => some (m + n)
    | _, _ => none
  unknown x := c.unknown x.1 + f.unknown x.2

end FCodec

namespace Codec

/-- A record with derived `Encode`, `Decode`, `Estimable`. -/
def record {β : Type} (f : FCodec β) : Codec β where
  write T x := W.add (f.write T x) (W.resolveZero T)
  parse P := f.parse P
  known := f.known
  unknown x := f.unknown x

end Codec

end Verif
