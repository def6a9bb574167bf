import Verif.Debug
import Verif.RecCodec
/-
Printing values of recursive types.
-/
namespace Verif

mutual
/-- `Debug::fmt` of a definition (see `Schema.debug`), whose `i`-th recursive mention is printed by `p i` (src/autobox.rs:204-208:
`AutoBox` prints what it holds).  Structs and enums have the names they have in the definition. -/
noncomputable def Schema.debugIn (cfg : Cfg) (W : Printing) {ρ : Nat → Schema} (p : ∀ i, (ρ i).Val → Option Text) :
    (s : Schema) → (s.fill ρ).Val → Option Text
  | .unit => fun _ => some text! "()"
  | .bool => fun (x : Bool) => some (DebugOf.bool x)
  | .int t => fun (x : t.Val) => some (signed (t.toInt x))
  | .f64 => fun (x : BitVec 64) => some (W.float x)
  | .rangedInt t _ _ => fun (x : t.Val) => some (DebugOf.tuple text! "RangedInt" (signed (t.toInt x)))
  | .rangedFloat _ _ => fun (x : BitVec 64) => some (text! "RangedFloat { val: " ++ W.float x ++ text! " }")
  | .zarithN => fun (n : Nat) => some (DebugOf.tuple text! "ℕ" (decimal n))
  | .zarithZ => fun (z : Int) => some (DebugOf.tuple text! "ℤ" (signed z))
  | .bytes => fun (bs : Bytes) => some (DebugOf.tuple text! "Bytes" (DebugOf.bytes bs))
  | .vecU8 => fun (bs : Bytes) => some (DebugOf.bytes bs)
  | .string => fun (cs : List Char) => some (W.str cs)
  | .fixedBytes n => fun (a : ByteArr n) => some (DebugOf.tuple text! "FixedBytes" (DebugOf.bytes a.1))
  | .fixedString n => fun (a : ByteArr n) =>
    some (text! "FixedString { contents: " ++ DebugOf.bytes a.1 ++ text! " }")
  | .option s => DebugOf.option (s.debugIn cfg W p)
  | .nullable s => fun x => (DebugOf.option (s.debugIn cfg W p) x).map (DebugOf.tuple text! "Nullable")
  | .dynamic S s => fun x => DebugOf.dynamic S (((s.fill ρ).codec cfg).encLen cfg x) (s.debugIn cfg W p x)
  | .vpadded _ s => s.debugIn cfg W p
  | .padded _ s => fun x => (s.debugIn cfg W p x).map (DebugOf.tuple text! "Padded")
  | .seq s => fun xs => (DebugOf.list (s.debugIn cfg W p) xs).map (DebugOf.tuple text! "Sequence")
  | .fixSeq _ s => fun xs => (DebugOf.list (s.debugIn cfg W p) xs).map (DebugOf.tuple text! "FixSeq")
  | .limSeq _ s => fun xs => (DebugOf.list (s.debugIn cfg W p) xs).map (DebugOf.tuple text! "LimSeq")
  | .autobox s => s.debugIn cfg W p
  | .hole i => p i
  | .cstyle _ tags => fun (x : CEnum tags) => some (W.variant tags x.1)
  | .data _ vs => fun x => (vs.debugIn cfg W p vs 0 x).map ('#' :: ·)
  | .record fs => fun x => (fs.debugIn cfg W p x).map (DebugOf.struct (W.record fs))
noncomputable def Variants.debugIn (cfg : Cfg) (W : Printing) {ρ : Nat → Schema} (p : ∀ i, (ρ i).Val → Option Text) :
    (vs : Variants) → (whole : Variants) → (i : Nat) → (vs.fill ρ).Val → Option Text
  | .nil => fun _ _ (x : Empty) => x.elim
  | .cons _ (.record fs) vs => fun whole i (x : (fs.fill ρ).Val ⊕ (vs.fill ρ).Val) => match x with
    | .inl y => (fs.debugIn cfg W p y).map (DebugOf.struct (W.arm whole i))
    | .inr y => vs.debugIn cfg W p whole (i + 1) y
  | .cons _ s vs => fun whole i (x : (s.fill ρ).Val ⊕ (vs.fill ρ).Val) => match x with
    | .inl y => (s.debugIn cfg W p y).map fun t => DebugOf.struct (W.arm whole i) [t]
    | .inr y => vs.debugIn cfg W p whole (i + 1) y
noncomputable def Fields.debugIn (cfg : Cfg) (W : Printing) {ρ : Nat → Schema} (p : ∀ i, (ρ i).Val → Option Text) :
    (fs : Fields) → (fs.fill ρ).Val → Option (List Text)
  | .nil => fun _ => some []
  | .cons s fs => fun (x : (s.fill ρ).Val × (fs.fill ρ).Val) => match s.debugIn cfg W p x.1 with
    | none => none
    | some t => (fs.debugIn cfg W p x.2).map (t :: ·)
end

/-! ### the text does not depend on the depth of the unfolding -/

namespace DebugOf
variable {α β : Type} {g : α → β} {p : α → Option Text} {q : β → Option Text}

theorem option_map (h : ∀ x, q (g x) = p x) (x : Option α) : option q (x.map g) = option p x := by
  cases x <;> simp [option, h]

theorem each_map (h : ∀ x, q (g x) = p x) : ∀ xs : List α, each q (xs.map g) = each p xs
  | [] => rfl
  | x :: xs => by simp only [List.map_cons, each, h, each_map h xs]

theorem list_map (h : ∀ x, q (g x) = p x) (xs : List α) : list q (xs.map g) = list p xs := by
  simp only [list, each_map h xs]

end DebugOf

/-- The texts of the fields of the struct of an arm. -/
noncomputable def Schema.armTextsIn (cfg : Cfg) (W : Printing) {ρ : Nat → Schema} (p : ∀ i, (ρ i).Val → Option Text) :
    (s : Schema) → (s.fill ρ).Val → Option (List Text)
  | .record fs => fs.debugIn cfg W p
  | s => fun y => (s.debugIn cfg W p y).map ([·])

section
variable (cfg : Cfg) (W : Printing) {ρ : Nat → Schema} (p : ∀ i, (ρ i).Val → Option Text)

theorem Variants.debugIn_inl (tag : Nat) (s : Schema) (vs whole : Variants) (i : Nat) (y : (s.fill ρ).Val) :
    (Variants.cons tag s vs).debugIn cfg W p whole i (.inl y : (s.fill ρ).Val ⊕ (vs.fill ρ).Val) =
      (s.armTextsIn cfg W p y).map (DebugOf.struct (W.arm whole i)) := by
  cases s
  case record fs => rfl
  all_goals
    show Option.map (fun t => DebugOf.struct (W.arm whole i) [t]) (Schema.debugIn cfg W p _ y) =
      Option.map _ (Option.map (fun t => [t]) (Schema.debugIn cfg W p _ y))
    cases Schema.debugIn cfg W p _ y <;> rfl

theorem Variants.debugIn_inr (tag : Nat) (s : Schema) (vs whole : Variants) (i : Nat) (y : (vs.fill ρ).Val) :
    (Variants.cons tag s vs).debugIn cfg W p whole i (.inr y : (s.fill ρ).Val ⊕ (vs.fill ρ).Val) =
      vs.debugIn cfg W p whole (i + 1) y := by
  cases s <;> rfl
end

section
variable (cfg : Cfg) (W : Printing) {ρ ρ' : Nat → Schema} {p : ∀ i, (ρ i).Val → Option Text}
  {p' : ∀ i, (ρ' i).Val → Option Text} {f : ∀ i, (ρ i).Val → (ρ' i).Val}

mutual
theorem Schema.debugIn_mapFill (hs : ∀ i, Codec.Sim (f i) ((ρ i).codec cfg) ((ρ' i).codec cfg)) (h : ∀ i x, p' i (f i x) = p i x) :
    ∀ (s : Schema) (x : (s.fill ρ).Val), s.debugIn cfg W p' (s.mapFill f x) = s.debugIn cfg W p x
  | .unit, _ | .bool, _ | .int _, _ | .f64, _ | .rangedInt _ _ _, _ | .rangedFloat _ _, _ | .zarithN, _ | .zarithZ, _
  | .bytes, _ | .vecU8, _ | .string, _ | .fixedBytes _, _ | .fixedString _, _ | .cstyle _ _, _ => rfl
  | .option s, x => DebugOf.option_map (s.debugIn_mapFill hs h) x
  | .nullable s, x => congrArg (Option.map _) (DebugOf.option_map (s.debugIn_mapFill hs h) x)
  | .dynamic S s, x => congr (congrArg (DebugOf.dynamic S) ((s.sim cfg hs).encLen cfg x)) (s.debugIn_mapFill hs h x)
  | .vpadded _ s, x => s.debugIn_mapFill hs h x
  | .padded _ s, x => congrArg (Option.map _) (s.debugIn_mapFill hs h x)
  | .seq s, x => congrArg (Option.map _) (DebugOf.list_map (s.debugIn_mapFill hs h) x)
  | .fixSeq _ s, x => congrArg (Option.map _) (DebugOf.list_map (s.debugIn_mapFill hs h) x)
  | .limSeq _ s, x => congrArg (Option.map _) (DebugOf.list_map (s.debugIn_mapFill hs h) x)
  | .autobox s, x => s.debugIn_mapFill hs h x
  | .hole i, x => h i x
  | .data _ vs, x => congrArg (Option.map _) (vs.debugIn_mapFill hs h vs 0 x)
  | .record fs, x => congrArg (Option.map _) (fs.debugIn_mapFill hs h x)
theorem Variants.debugIn_mapFill (hs : ∀ i, Codec.Sim (f i) ((ρ i).codec cfg) ((ρ' i).codec cfg)) (h : ∀ i x, p' i (f i x) = p i x) :
    ∀ (vs whole : Variants) (i : Nat) (x : (vs.fill ρ).Val),
      vs.debugIn cfg W p' whole i (vs.mapFill f x) = vs.debugIn cfg W p whole i x
  | .nil, _, _, x => nomatch x
  | .cons tag s vs, whole, i, .inl y => by
    refine (Variants.debugIn_inl cfg W p' tag s vs whole i (s.mapFill f y)).trans (.trans ?_
      (Variants.debugIn_inl cfg W p tag s vs whole i y).symm)
    refine congrArg (Option.map _) ?_
    cases s
    case record fs => exact fs.debugIn_mapFill hs h y
    all_goals exact congrArg (Option.map fun t => [t]) (Schema.debugIn_mapFill hs h _ y)
  | .cons tag s vs, whole, i, .inr y =>
    (Variants.debugIn_inr cfg W p' tag s vs whole i (vs.mapFill f y)).trans ((vs.debugIn_mapFill hs h whole (i + 1) y).trans
      (Variants.debugIn_inr cfg W p tag s vs whole i y).symm)
theorem Fields.debugIn_mapFill (hs : ∀ i, Codec.Sim (f i) ((ρ i).codec cfg) ((ρ' i).codec cfg)) (h : ∀ i x, p' i (f i x) = p i x) :
    ∀ (fs : Fields) (x : (fs.fill ρ).Val), fs.debugIn cfg W p' (fs.mapFill f x) = fs.debugIn cfg W p x
  | .nil, _ => rfl
  | .cons s fs, (x, y) => by
    show (match s.debugIn cfg W p' (s.mapFill f x) with
      | none => none
      | some t => (fs.debugIn cfg W p' (fs.mapFill f y)).map (t :: ·)) = _
    rw [s.debugIn_mapFill hs h x, fs.debugIn_mapFill hs h y]
    rfl
end
end

namespace Decls
variable (d : Decls) (cfg : Cfg) (W : Printing)

/-- The text of a value of an unfolding. -/
noncomputable def debugAt : (n i : Nat) → (d.unfold n i).Val → Option Text
  | 0, _ => fun x => nomatch x
  | n + 1, i => (d.body i).debugIn cfg W (debugAt n)

theorem debugAt_lift : ∀ n i x, d.debugAt cfg W (n + 1) i (d.lift n i x) = d.debugAt cfg W n i x
  | 0, _, x => nomatch x
  | n + 1, i, x => (d.body i).debugIn_mapFill cfg W (fun j => d.lift_sim cfg n j) (fun j y => debugAt_lift n j y) x

/-- `Debug::fmt` of the `i`-th type. -/
noncomputable def debug {i : Nat} : d.Val i → Option Text :=
  Quot.lift (fun p => d.debugAt cfg W p.1 i p.2) fun _ _ h => by
    cases h with
    | step n x => exact (d.debugAt_lift cfg W n i x).symm

end Decls

end Verif
