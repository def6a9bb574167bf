import Verif.Pretty
import Verif.RecDebug
/-
`{:#?}` of values of recursive types.
-/
namespace Verif

mutual
/-- `Debug::fmt` of a definition with the alternate flag (see `Schema.pretty`), whose `i`-th recursive mention is printed by `q i`,
and by `p i` where the flag is not set (src/autobox.rs:204-208: `AutoBox` hands over the formatter). -/
noncomputable def Schema.prettyIn (cfg : Cfg) (W : Printing) {ρ : Nat → Schema} (q p : ∀ i, (ρ i).Val → Option Text) :
    (s : Schema) → (s.fill ρ).Val → Option Text
  | .unit => fun _ => some text! "()"
  | .bool => fun (x : Bool) => some (DebugOf.bool x)
  | .int t => fun (x : t.Val) => some (signed (t.toInt x))
  | .f64 => fun (x : BitVec 64) => some (W.float x)
  | .rangedInt t _ _ => fun (x : t.Val) => some (PrettyOf.tuple text! "RangedInt" (signed (t.toInt x)))
  | .rangedFloat _ _ => fun (x : BitVec 64) => some (PrettyOf.struct (.named text! "RangedFloat" fun _ => text! "val") [W.float x])
  | .zarithN => fun (n : Nat) => some (DebugOf.tuple text! "ℕ" (decimal n))
  | .zarithZ => fun (z : Int) => some (DebugOf.tuple text! "ℤ" (signed z))
  | .bytes => fun (bs : Bytes) => some (PrettyOf.tuple text! "Bytes" (PrettyOf.bytes bs))
  | .vecU8 => fun (bs : Bytes) => some (PrettyOf.bytes bs)
  | .string => fun (cs : List Char) => some (W.str cs)
  | .fixedBytes n => fun (a : ByteArr n) => some (PrettyOf.tuple text! "FixedBytes" (PrettyOf.bytes a.1))
  | .fixedString n => fun (a : ByteArr n) =>
    some (PrettyOf.struct (.named text! "FixedString" fun _ => text! "contents") [PrettyOf.bytes a.1])
  | .option s => PrettyOf.option (s.prettyIn cfg W q p)
  | .nullable s => fun x => (PrettyOf.option (s.prettyIn cfg W q p) x).map (PrettyOf.tuple text! "Nullable")
  | .dynamic S s => fun x => DebugOf.dynamic S (((s.fill ρ).codec cfg).encLen cfg x) (s.debugIn cfg W p x)
  | .vpadded _ s => s.prettyIn cfg W q p
  | .padded _ s => fun x => (s.prettyIn cfg W q p x).map (PrettyOf.tuple text! "Padded")
  | .seq s => fun xs => (PrettyOf.list (s.prettyIn cfg W q p) xs).map (PrettyOf.tuple text! "Sequence")
  | .fixSeq _ s => fun xs => (PrettyOf.list (s.prettyIn cfg W q p) xs).map (PrettyOf.tuple text! "FixSeq")
  | .limSeq _ s => fun xs => (PrettyOf.list (s.prettyIn cfg W q p) xs).map (PrettyOf.tuple text! "LimSeq")
  | .autobox s => s.prettyIn cfg W q p
  | .hole i => q i
  | .cstyle _ tags => fun (x : CEnum tags) => some (W.variant tags x.1)
  | .data _ vs => fun x => (vs.debugIn cfg W p vs 0 x).map ('#' :: ·)
  | .record fs => fun x => (fs.prettyIn cfg W q p x).map (PrettyOf.struct (W.record fs))
/-- The texts of the fields. -/
noncomputable def Fields.prettyIn (cfg : Cfg) (W : Printing) {ρ : Nat → Schema} (q p : ∀ i, (ρ i).Val → Option Text) :
    (fs : Fields) → (fs.fill ρ).Val → Option (List Text)
  | .nil => fun _ => some []
  | .cons s fs => fun (x : (s.fill ρ).Val × (fs.fill ρ).Val) => match s.prettyIn cfg W q p x.1 with
    | none => none
    | some t => (fs.prettyIn cfg W q p x.2).map (t :: ·)
end

namespace PrettyOf
variable {α β : Type} {g : α → β} {p : α → Option Text} {q : β → Option Text}

theorem option_map (h : ∀ x, q (g x) = p x) (x : Option α) : option q (x.map g) = option p x := by
  cases x <;> simp [option, h]

theorem list_map (h : ∀ x, q (g x) = p x) (xs : List α) : list q (xs.map g) = list p xs := by
  simp only [list, DebugOf.each_map h xs]

end PrettyOf

section
variable (cfg : Cfg) (W : Printing) {ρ ρ' : Nat → Schema} {q p : ∀ i, (ρ i).Val → Option Text}
  {q' p' : ∀ i, (ρ' i).Val → Option Text} {f : ∀ i, (ρ i).Val → (ρ' i).Val}

mutual
theorem Schema.prettyIn_mapFill (hs : ∀ i, Codec.Sim (f i) ((ρ i).codec cfg) ((ρ' i).codec cfg)) (h : ∀ i x, q' i (f i x) = q i x)
    (h' : ∀ i x, p' i (f i x) = p i x) : ∀ (s : Schema) (x : (s.fill ρ).Val), s.prettyIn cfg W q' p' (s.mapFill f x) = s.prettyIn cfg W q p x
  | .unit, _ | .bool, _ | .int _, _ | .f64, _ | .rangedInt _ _ _, _ | .rangedFloat _ _, _ | .zarithN, _ | .zarithZ, _
  | .bytes, _ | .vecU8, _ | .string, _ | .fixedBytes _, _ | .fixedString _, _ | .cstyle _ _, _ => rfl
  | .option s, x => PrettyOf.option_map (s.prettyIn_mapFill hs h h') x
  | .nullable s, x => congrArg (Option.map _) (PrettyOf.option_map (s.prettyIn_mapFill hs h h') x)
  | .dynamic S s, x => congr (congrArg (DebugOf.dynamic S) ((s.sim cfg hs).encLen cfg x)) (s.debugIn_mapFill cfg W hs h' x)
  | .vpadded _ s, x => s.prettyIn_mapFill hs h h' x
  | .padded _ s, x => congrArg (Option.map _) (s.prettyIn_mapFill hs h h' x)
  | .seq s, x => congrArg (Option.map _) (PrettyOf.list_map (s.prettyIn_mapFill hs h h') x)
  | .fixSeq _ s, x => congrArg (Option.map _) (PrettyOf.list_map (s.prettyIn_mapFill hs h h') x)
  | .limSeq _ s, x => congrArg (Option.map _) (PrettyOf.list_map (s.prettyIn_mapFill hs h h') x)
  | .autobox s, x => s.prettyIn_mapFill hs h h' x
  | .hole i, x => h i x
  | .data _ vs, x => congrArg (Option.map _) (vs.debugIn_mapFill cfg W hs h' vs 0 x)
  | .record fs, x => congrArg (Option.map _) (fs.prettyIn_mapFill hs h h' x)
theorem Fields.prettyIn_mapFill (hs : ∀ i, Codec.Sim (f i) ((ρ i).codec cfg) ((ρ' i).codec cfg)) (h : ∀ i x, q' i (f i x) = q i x)
    (h' : ∀ i x, p' i (f i x) = p i x) : ∀ (fs : Fields) (x : (fs.fill ρ).Val), fs.prettyIn cfg W q' p' (fs.mapFill f x) = fs.prettyIn cfg W q p x
  | .nil, _ => rfl
  | .cons s fs, (x, y) => by
    show (match s.prettyIn cfg W q' p' (s.mapFill f x) with
      | none => none
      | some t => (fs.prettyIn cfg W q' p' (fs.mapFill f y)).map (t :: ·)) = _
    rw [s.prettyIn_mapFill hs h h' x, fs.prettyIn_mapFill hs h h' y]
    rfl
end
end

namespace Decls
variable (d : Decls) (cfg : Cfg) (W : Printing)

/-- The text of a value of an unfolding, on several lines. -/
noncomputable def prettyAt : (n i : Nat) → (d.unfold n i).Val → Option Text
  | 0, _ => fun x => nomatch x
  | n + 1, i => (d.body i).prettyIn cfg W (prettyAt n) (d.debugAt cfg W n)

theorem prettyAt_lift : ∀ n i x, d.prettyAt cfg W (n + 1) i (d.lift n i x) = d.prettyAt cfg W n i x
  | 0, _, x => nomatch x
  | n + 1, i, x => (d.body i).prettyIn_mapFill cfg W (fun j => d.lift_sim cfg n j) (fun j y => prettyAt_lift n j y)
    (fun j y => d.debugAt_lift cfg W n j y) x

/-- `Debug::fmt` of the `i`-th type with the alternate flag. -/
noncomputable def pretty {i : Nat} : d.Val i → Option Text :=
  Quot.lift (fun p => d.prettyAt cfg W p.1 i p.2) fun _ _ h => by
    cases h with
    | step n x => exact (d.prettyAt_lift cfg W n i x).symm

end Decls

end Verif
