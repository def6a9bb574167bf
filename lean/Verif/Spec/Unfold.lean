import Verif.RecCodec
/-
SPECIFICATION vocabulary for recursive types: the code of a definition whose recursive mentions are calls of
given codecs.  This is what the Rust compiler makes of the definition (src/autobox.rs:246-267: the traits of
`AutoBox<T>` call those of `T`).
-/
namespace Verif

mutual
/-- The values of a definition whose `i`-th recursive mention has values `V i`. -/
def Schema.ValIn (V : Nat → Type) : Schema → Type
  | .unit => Unit
  | .bool => Bool
  | .int t => t.Val
  | .f64 => BitVec 64
  | .rangedInt t _ _ => t.Val
  | .rangedFloat _ _ => BitVec 64
  | .zarithN => Nat
  | .zarithZ => Int
  | .bytes => Bytes
  | .vecU8 => Bytes
  | .string => List Char
  | .fixedBytes n => ByteArr n
  | .fixedString n => ByteArr n
  | .option s => Option (s.ValIn V)
  | .nullable s => Option (s.ValIn V)
  | .dynamic _ s => s.ValIn V
  | .vpadded _ s => s.ValIn V
  | .padded _ s => s.ValIn V
  | .seq s => List (s.ValIn V)
  | .fixSeq _ s => List (s.ValIn V)
  | .limSeq _ s => List (s.ValIn V)
  | .autobox s => s.ValIn V
  | .hole i => V i
  | .cstyle _ tags => CEnum tags
  | .data _ vs => vs.ValIn V
  | .record fs => fs.ValIn V
def Variants.ValIn (V : Nat → Type) : Variants → Type
  | .nil => Empty
  | .cons _ s vs => s.ValIn V ⊕ vs.ValIn V
def Fields.ValIn (V : Nat → Type) : Fields → Type
  | .nil => Unit
  | .cons s fs => s.ValIn V × fs.ValIn V
end

mutual
/-- The code of a definition; at the `i`-th recursive mention it calls `c i`. -/
noncomputable def Schema.codecIn (cfg : Cfg) {V : Nat → Type} (c : ∀ i, Codec (V i)) : (s : Schema) → Codec (s.ValIn V)
  | .unit => Codec.unit
  | .bool => Codec.bool
  | .int t => Codec.int t
  | .f64 => Codec.f64
  | .rangedInt t min max => Codec.rangedInt t min max
  | .rangedFloat min max => Codec.rangedFloat min max
  | .zarithN => Codec.zarithN
  | .zarithZ => Codec.zarithZ
  | .bytes => Codec.bytes
  | .vecU8 => Codec.vecU8
  | .string => Codec.string
  | .fixedBytes n => Codec.fixedBytes n
  | .fixedString n => Codec.fixedString n
  | .option s => Codec.option (s.codecIn cfg c)
  | .nullable s => Codec.nullable (s.codecIn cfg c)
  | .dynamic S s => Codec.dynamic cfg S (s.codecIn cfg c)
  | .vpadded n s => Codec.vpadded cfg n (s.codecIn cfg c)
  | .padded n s => Codec.padded cfg n (s.codecIn cfg c)
  | .seq s => Codec.seq (s.codecIn cfg c)
  | .fixSeq n s => Codec.fixSeq n (s.codecIn cfg c)
  | .limSeq n s => Codec.limSeq n (s.codecIn cfg c)
  | .autobox s => Codec.autobox (s.codecIn cfg c)
  | .hole i => c i
  | .cstyle w tags => Codec.cstyle w tags
  | .data w vs => Codec.data w (vs.codecIn cfg c)
  | .record fs => Codec.record (fs.codecIn cfg c)
noncomputable def Variants.codecIn (cfg : Cfg) {V : Nat → Type} (c : ∀ i, Codec (V i)) : (vs : Variants) → VCodec (vs.ValIn V)
  | .nil => VCodec.nil
  | .cons tag s vs => VCodec.cons tag (s.codecIn cfg c) (vs.codecIn cfg c)
noncomputable def Fields.codecIn (cfg : Cfg) {V : Nat → Type} (c : ∀ i, Codec (V i)) : (fs : Fields) → FCodec (fs.ValIn V)
  | .nil => FCodec.nil
  | .cons s fs => FCodec.cons (s.codecIn cfg c) (fs.codecIn cfg c)
end

mutual
/-- Turn the parts of a value that are in the holes into values of the recursive types. -/
def Schema.mapIn {ρ : Nat → Schema} {V : Nat → Type} (f : ∀ i, (ρ i).Val → V i) : (s : Schema) → (s.fill ρ).Val → s.ValIn V
  | .unit => fun x => x
  | .bool => fun x => x
  | .int _ => fun x => x
  | .f64 => fun x => x
  | .rangedInt _ _ _ => fun x => x
  | .rangedFloat _ _ => fun x => x
  | .zarithN => fun x => x
  | .zarithZ => fun x => x
  | .bytes => fun x => x
  | .vecU8 => fun x => x
  | .string => fun x => x
  | .fixedBytes _ => fun x => x
  | .fixedString _ => fun x => x
  | .option s => Option.map (s.mapIn f)
  | .nullable s => Option.map (s.mapIn f)
  | .dynamic _ s => s.mapIn f
  | .vpadded _ s => s.mapIn f
  | .padded _ s => s.mapIn f
  | .seq s => List.map (s.mapIn f)
  | .fixSeq _ s => List.map (s.mapIn f)
  | .limSeq _ s => List.map (s.mapIn f)
  | .autobox s => s.mapIn f
  | .hole i => f i
  | .cstyle _ _ => fun x => x
  | .data _ vs => vs.mapIn f
  | .record fs => fs.mapIn f
def Variants.mapIn {ρ : Nat → Schema} {V : Nat → Type} (f : ∀ i, (ρ i).Val → V i) : (vs : Variants) → (vs.fill ρ).Val → vs.ValIn V
  | .nil => fun x => x
  | .cons _ s vs => Sum.map (s.mapIn f) (vs.mapIn f)
def Fields.mapIn {ρ : Nat → Schema} {V : Nat → Type} (f : ∀ i, (ρ i).Val → V i) : (fs : Fields) → (fs.fill ρ).Val → fs.ValIn V
  | .nil => fun x => x
  | .cons s fs => Prod.map (s.mapIn f) (fs.mapIn f)
end

section
variable {ρ ρ' : Nat → Schema} {V : Nat → Type} {f : ∀ i, (ρ i).Val → V i} {f' : ∀ i, (ρ' i).Val → V i}
  {g : ∀ i, (ρ i).Val → (ρ' i).Val}

mutual
/-- Unfolding once more and then forgetting the depth is forgetting the depth. -/
theorem Schema.mapIn_mapFill (h : ∀ i x, f' i (g i x) = f i x) : ∀ (s : Schema) (x : (s.fill ρ).Val),
    s.mapIn f' (s.mapFill g x) = s.mapIn f x
  | .unit, _ | .bool, _ | .int _, _ | .f64, _ | .rangedInt _ _ _, _ | .rangedFloat _ _, _ | .zarithN, _ | .zarithZ, _
  | .bytes, _ | .vecU8, _ | .string, _ | .fixedBytes _, _ | .fixedString _, _ | .cstyle _ _, _ => rfl
  | .option _, none => rfl
  | .option s, some x => congrArg some (Schema.mapIn_mapFill h s x)
  | .nullable _, none => rfl
  | .nullable s, some x => congrArg some (Schema.mapIn_mapFill h s x)
  | .dynamic _ s, x => Schema.mapIn_mapFill h s x
  | .vpadded _ s, x => Schema.mapIn_mapFill h s x
  | .padded _ s, x => Schema.mapIn_mapFill h s x
  | .seq s, x => (List.map_map (l := x)).trans (List.map_congr_left fun y _ => Schema.mapIn_mapFill h s y)
  | .fixSeq _ s, x => (List.map_map (l := x)).trans (List.map_congr_left fun y _ => Schema.mapIn_mapFill h s y)
  | .limSeq _ s, x => (List.map_map (l := x)).trans (List.map_congr_left fun y _ => Schema.mapIn_mapFill h s y)
  | .autobox s, x => Schema.mapIn_mapFill h s x
  | .hole i, x => h i x
  | .data _ vs, x => Variants.mapIn_mapFill h vs x
  | .record fs, x => Fields.mapIn_mapFill h fs x
theorem Variants.mapIn_mapFill (h : ∀ i x, f' i (g i x) = f i x) : ∀ (vs : Variants) (x : (vs.fill ρ).Val),
    vs.mapIn f' (vs.mapFill g x) = vs.mapIn f x
  | .nil, _ => rfl
  | .cons _ s _, .inl x => congrArg Sum.inl (Schema.mapIn_mapFill h s x)
  | .cons _ _ vs, .inr x => congrArg Sum.inr (Variants.mapIn_mapFill h vs x)
theorem Fields.mapIn_mapFill (h : ∀ i x, f' i (g i x) = f i x) : ∀ (fs : Fields) (x : (fs.fill ρ).Val),
    fs.mapIn f' (fs.mapFill g x) = fs.mapIn f x
  | .nil, _ => rfl
  | .cons s fs, (x, y) => Prod.ext (Schema.mapIn_mapFill h s x) (Fields.mapIn_mapFill h fs y)
end
end

namespace Decls

variable (d : Decls)

/-- A value of a recursive type is a value of its definition with recursive parts: look inside it once. -/
def unroll {i : Nat} : d.Val i → (d.body i).ValIn d.Val :=
  Quot.lift (fun p => match p with
    | ⟨0, x⟩ => nomatch x
    | ⟨n + 1, x⟩ => (d.body i).mapIn (fun _ y => d.val n y) x)
    fun _ _ h => by
      cases h with
      | step n x =>
        cases n with
        | zero => exact nomatch x
        | succ n =>
          exact ((d.body i).mapIn_mapFill (f := fun _ y => d.val n y) (f' := fun _ y => d.val (n + 1) y) (g := d.lift n)
            (fun j y => (Quot.sound (.step n y)).symm) x).symm

end Decls

end Verif
