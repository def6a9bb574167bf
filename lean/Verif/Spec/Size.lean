import Verif.Spec.Recursive
/-
SPECIFICATION: how much there is to a value.
-/
namespace Verif

mutual
/-- The number of scalars, elements, variants and boxes of a value, and the bytes of its strings and the bits of its
big numbers. -/
def Schema.size : (s : Schema) → s.Val → Nat
  | .unit => fun _ => 1
  | .bool => fun _ => 1
  | .int _ => fun _ => 1
  | .f64 => fun _ => 1
  | .rangedInt _ _ _ => fun _ => 1
  | .rangedFloat _ _ => fun _ => 1
  | .zarithN => fun (x : Nat) => 1 + bits x
  | .zarithZ => fun (x : Int) => 1 + bits x.natAbs
  | .bytes => fun (x : Bytes) => 1 + x.length
  | .vecU8 => fun (x : Bytes) => 1 + x.length
  | .string => fun (x : List Char) => 1 + (utf8 x).length
  | .fixedBytes n => fun _ => 1 + n
  | .fixedString n => fun _ => 1 + n
  | .option s => fun (o : Option s.Val) => 1 + (o.elim 0 s.size)
  | .nullable s => fun (o : Option s.Val) => 1 + (o.elim 0 s.size)
  | .dynamic _ s => s.size
  | .vpadded _ s => s.size
  | .padded _ s => s.size
  | .seq s => fun (xs : List s.Val) => 1 + (xs.map s.size).sum
  | .fixSeq _ s => fun (xs : List s.Val) => 1 + (xs.map s.size).sum
  | .limSeq _ s => fun (xs : List s.Val) => 1 + (xs.map s.size).sum
  | .autobox s => fun x => 1 + s.size x
  | .hole _ => fun _ => 0
  | .cstyle _ _ => fun _ => 1
  | .data _ vs => fun x => 1 + vs.size x
  | .record fs => fs.size
def Variants.size : (vs : Variants) → vs.Val → Nat
  | .nil => fun _ => 0
  | .cons _ s vs => Sum.elim s.size vs.size
def Fields.size : (fs : Fields) → fs.Val → Nat
  | .nil => fun _ => 1
  | .cons s fs => fun x => s.size x.1 + fs.size x.2
end

section
variable {ρ ρ' : Nat → Schema} {f : ∀ i, (ρ i).Val → (ρ' i).Val}

theorem List.map_size {α β : Type} {f : α → β} {s : α → Nat} {t : β → Nat} (h : ∀ x, t (f x) = s x) (xs : List α) :
    ((xs.map f).map t).sum = (xs.map s).sum := by
  rw [List.map_map]
  congr 1
  exact List.map_congr_left fun x _ => h x

theorem Option.map_size {α β : Type} {f : α → β} {s : α → Nat} {t : β → Nat} (h : ∀ x, t (f x) = s x) (o : Option α) :
    (o.map f).elim 0 t = o.elim 0 s := by
  cases o with
  | none => rfl
  | some x => exact h x

mutual
theorem Schema.size_mapFill (h : ∀ i x, (ρ' i).size (f i x) = (ρ i).size x) : ∀ (s : Schema) (x : (s.fill ρ).Val),
    (s.fill ρ').size (s.mapFill f x) = (s.fill ρ).size x
  | .unit, _ | .bool, _ | .int _, _ | .f64, _ | .rangedInt _ _ _, _ | .rangedFloat _ _, _ | .zarithN, _ | .zarithZ, _
  | .bytes, _ | .vecU8, _ | .string, _ | .fixedBytes _, _ | .fixedString _, _ | .cstyle _ _, _ => rfl
  | .option s, x => congrArg (1 + ·) (Option.map_size (s.size_mapFill h) x)
  | .nullable s, x => congrArg (1 + ·) (Option.map_size (s.size_mapFill h) x)
  | .dynamic _ s, x => s.size_mapFill h x
  | .vpadded _ s, x => s.size_mapFill h x
  | .padded _ s, x => s.size_mapFill h x
  | .seq s, x => congrArg (1 + ·) (List.map_size (s.size_mapFill h) x)
  | .fixSeq _ s, x => congrArg (1 + ·) (List.map_size (s.size_mapFill h) x)
  | .limSeq _ s, x => congrArg (1 + ·) (List.map_size (s.size_mapFill h) x)
  | .autobox s, x => congrArg (1 + ·) (s.size_mapFill h x)
  | .hole i, x => h i x
  | .data _ vs, x => congrArg (1 + ·) (vs.size_mapFill h x)
  | .record fs, x => fs.size_mapFill h x
theorem Variants.size_mapFill (h : ∀ i x, (ρ' i).size (f i x) = (ρ i).size x) : ∀ (vs : Variants) (x : (vs.fill ρ).Val),
    (vs.fill ρ').size (vs.mapFill f x) = (vs.fill ρ).size x
  | .nil, _ => rfl
  | .cons _ s _, .inl x => s.size_mapFill h x
  | .cons _ _ vs, .inr x => vs.size_mapFill h x
theorem Fields.size_mapFill (h : ∀ i x, (ρ' i).size (f i x) = (ρ i).size x) : ∀ (fs : Fields) (x : (fs.fill ρ).Val),
    (fs.fill ρ').size (fs.mapFill f x) = (fs.fill ρ).size x
  | .nil, _ => rfl
  | .cons s fs, x => by
    have h1 := s.size_mapFill h x.1
    have h2 := fs.size_mapFill h x.2
    exact congr (congrArg (· + ·) h1) h2
end
end

namespace Decls

variable (d : Decls)

theorem size_lift : ∀ n i x, (d.unfold (n + 1) i).size (d.lift n i x) = (d.unfold n i).size x
  | 0, _, x => nomatch x
  | n + 1, i, x => (d.body i).size_mapFill (size_lift n) x

/-- The size of a value of a recursive type. -/
def size {i : Nat} : d.Val i → Nat :=
  Quot.lift (fun p => (d.unfold p.1 i).size p.2) fun _ _ h => by
    cases h with
    | step n x => exact (d.size_lift n i x).symm

end Decls

end Verif
