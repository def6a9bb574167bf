import Verif.Codec.Comb
/-
The functions other than `parse` and `write_to` that `cstyle!` and `data!` declare, and declarations of enums and
records as lists of arms and fields.
-/
namespace Verif

/-- A `cstyle!` declaration: names and discriminants in order (src/adt.rs:47-51).  The Rust compiler rejects repeated
discriminants and discriminants that do not fit the backer. -/
abbrev CDecl : Type := List (String × Nat)

namespace CDecl

/-- src/adt.rs:60-62 `iter_tags` (and the array given to `take_tagword`, 86). -/
def iterTags (d : CDecl) : List Nat := d.map (·.2)

/-- src/adt.rs:54-58 `get_tagval`. -/
def getTagval (d : CDecl) (x : CEnum d.iterTags) : Nat := x.1

/-- src/adt.rs:64-69 `is_valid_tag`, and 292-297 for `data!`. -/
def isValidTag (d : CDecl) (val : Nat) : Bool := match d with
  | [] => false
  | (_, t) :: d => if val = t then true else isValidTag d val

/-- src/adt.rs:71-76 `get_name`, and 299-304 for `data!`. -/
def getName (d : CDecl) (val : Nat) : Option String := match d with
  | [] => none
  | (n, t) :: d => if val = t then some n else getName d val

/-- src/adt.rs:79-88 `TryFrom<$backer>`; an error holds the offending tag and the valid ones (the name of the type
is left out). -/
def tryFrom (d : CDecl) (val : Nat) : Except (Nat × Option (List Nat)) (CEnum d.iterTags) :=
  if h : val ∈ d.iterTags then .ok ⟨val, h⟩ else .error (val, some d.iterTags)

end CDecl

/-- The arms of a `data!` declaration (src/adt.rs:269-271): tags and payload codecs. -/
inductive Arms : Type → Type 1 where
  | nil : Arms Empty
  | cons {α β : Type} (tag : Nat) (c : Codec α) (as : Arms β) : Arms (α ⊕ β)

namespace Arms

def codec : {β : Type} → Arms β → VCodec β
  | _, nil => VCodec.nil
  | _, cons tag c as => VCodec.cons tag c as.codec

/-- The declared tags (`iter_tags`, src/adt.rs:288-290). -/
def tags : {β : Type} → Arms β → List Nat
  | _, nil => []
  | _, cons tag _ as => tag :: as.tags

theorem codec_tags : {β : Type} → (as : Arms β) → as.codec.tags = as.tags
  | _, nil => rfl
  | _, cons tag _ as => congrArg (tag :: ·) as.codec_tags

end Arms

/-- The fields of a record. -/
inductive FieldList : Type → Type 1 where
  | nil : FieldList Unit
  | cons {α β : Type} (c : Codec α) (fs : FieldList β) : FieldList (α × β)

namespace FieldList

def codec : {β : Type} → FieldList β → FCodec β
  | _, nil => FCodec.nil
  | _, cons c fs => FCodec.cons c fs.codec

end FieldList

end Verif
