import Verif.Codec.Comb
/-
Validators of tags.
-/
namespace Verif

/-- src/parse/error.rs:531-558 `TagValidator<U>`: what a value of an implementing type answers.  Tags are their numeric
values.  `into_valid` consumes the value, but nothing is asked of it afterwards. -/
structure Validator where
  isValid : Nat → Bool
  hasValid : Bool
  intoValid : List Nat

/-- src/parse/error.rs:565-577 `contains_u8`, `contains_u16`, `contains_u32`: `<[T]>::contains`. -/
def containsTag (needle : Nat) (haystack : List Nat) : Bool := haystack.contains needle

/-- The types that implement `TagValidator` (src/parse/error.rs:579-669).  A `HashSet` is the list of its elements in the
order in which this value is iterated (Rust does not say which, only that no element comes twice). -/
inductive TagSet where
  | array (tags : List Nat)
  | arrayRef (tags : List Nat)
  | slice (tags : List Nat)
  | vec (tags : List Nat)
  | vecRef (tags : List Nat)
  | hashSet (iter : List Nat) (nodup : iter.Nodup)

namespace TagSet

/-- src/parse/error.rs:581-593, 595-607, 609-621, 623-635, 637-649, 651-663: the impls. -/
def validator : TagSet → Validator
  | .array tags => ⟨fun raw => containsTag raw tags, decide (tags.length > 0), tags⟩
  | .arrayRef tags => ⟨fun raw => containsTag raw tags, decide (tags.length > 0), tags⟩
  | .slice tags => ⟨fun raw => containsTag raw tags, !tags.isEmpty, tags⟩
  | .vec tags => ⟨fun raw => containsTag raw tags, !tags.isEmpty, tags⟩
  | .vecRef tags => ⟨fun raw => containsTag raw tags, !tags.isEmpty, tags⟩
  | .hashSet iter _ => ⟨fun raw => iter.contains raw, !iter.isEmpty, iter⟩

end TagSet

/-- src/parse/mod.rs:310-328 `take_tagword` with any validator. -/
def ParserOps.takeTagwordBy {σ : Type} (w : TagWidth) (parseTag : PM σ Nat) (v : Validator) : PM σ Nat := do
  let actual ← parseTag
  if v.isValid actual then pure actual
  else if v.hasValid then M.throw (.token (.invalidTag w actual (some v.intoValid)))
  else M.throw (.internal .noValidTags)

end Verif
