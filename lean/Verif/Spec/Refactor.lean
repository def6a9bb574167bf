import Verif.Spec.Schema
import Verif.Recursive
/-
SPECIFICATION: types with the same wire format.  `Refactor s s'` lists the rearrangements of a type that are meant to
leave its messages alone; they can be made anywhere inside a type, one after the other, and undone.
-/
namespace Verif

/-- A one-to-one correspondence of values. -/
structure Iso (α β : Type) where
  to : α → β
  back : β → α
  back_to : ∀ x, back (to x) = x
  to_back : ∀ y, to (back y) = y

namespace Iso

variable {α β γ α' β' : Type}

def refl (α : Type) : Iso α α := ⟨fun x => x, fun x => x, fun _ => rfl, fun _ => rfl⟩
def symm (i : Iso α β) : Iso β α := ⟨i.back, i.to, i.to_back, i.back_to⟩
def trans (i : Iso α β) (j : Iso β γ) : Iso α γ :=
  ⟨fun x => j.to (i.to x), fun y => i.back (j.back y), fun x => by rw [j.back_to, i.back_to], fun y => by rw [i.to_back, j.to_back]⟩

def option (i : Iso α β) : Iso (Option α) (Option β) :=
  ⟨Option.map i.to, Option.map i.back, fun x => by cases x <;> simp [i.back_to], fun x => by cases x <;> simp [i.to_back]⟩

def list (i : Iso α β) : Iso (List α) (List β) :=
  ⟨List.map i.to, List.map i.back, fun x => by simp [Function.comp_def, i.back_to], fun x => by simp [Function.comp_def, i.to_back]⟩

def sum (i : Iso α β) (j : Iso α' β') : Iso (α ⊕ α') (β ⊕ β') :=
  ⟨Sum.map i.to j.to, Sum.map i.back j.back, fun x => by cases x <;> simp [i.back_to, j.back_to],
    fun x => by cases x <;> simp [i.to_back, j.to_back]⟩

def prod (i : Iso α β) (j : Iso α' β') : Iso (α × α') (β × β') :=
  ⟨Prod.map i.to j.to, Prod.map i.back j.back, fun x => by simp [Prod.map, i.back_to, j.back_to],
    fun x => by simp [Prod.map, i.to_back, j.to_back]⟩

theorem map_same {f : α → α} (h : ∀ x, f x = x) (x : Option α) : x.map f = x := by cases x <;> simp [h]
theorem list_same {f : α → α} (h : ∀ x, f x = x) : ∀ x : List α, x.map f = x
  | [] => rfl
  | a :: x => by rw [List.map_cons, h, list_same h x]
theorem map_comm {δ : Type} {f : α → β} {g : β → δ} {f' : α → γ} {g' : γ → δ} (h : ∀ x, g (f x) = g' (f' x)) (x : Option α) :
    (x.map f).map g = (x.map f').map g' := by cases x <;> simp [h]
theorem list_comm {δ : Type} {f : α → β} {g : β → δ} {f' : α → γ} {g' : γ → δ} (h : ∀ x, g (f x) = g' (f' x)) (x : List α) :
    (x.map f).map g = (x.map f').map g' := by simp [h]
theorem pair_eq {a a' : α} {b b' : β} (h : a = a') (h' : b = b') : (a, b) = (a', b') := by rw [h, h']

/-- Without a component that carries no information. -/
def unitL : Iso (Unit × α) α := ⟨Prod.snd, fun x => ((), x), fun _ => rfl, fun _ => rfl⟩
def unitR : Iso (α × Unit) α := ⟨Prod.fst, fun x => (x, ()), fun _ => rfl, fun _ => rfl⟩
def assoc : Iso ((α × β) × γ) (α × (β × γ)) :=
  ⟨fun x => (x.1.1, x.1.2, x.2), fun x => ((x.1, x.2.1), x.2.2), fun _ => rfl, fun _ => rfl⟩

/-- Two arms in the other order. -/
def swap : Iso (α ⊕ (β ⊕ γ)) (β ⊕ (α ⊕ γ)) :=
  ⟨fun | .inl x => .inr (.inl x) | .inr (.inl y) => .inl y | .inr (.inr z) => .inr (.inr z),
   fun | .inl x => .inr (.inl x) | .inr (.inl y) => .inl y | .inr (.inr z) => .inr (.inr z),
   fun x => by rcases x with x | x | x <;> rfl, fun x => by rcases x with x | x | x <;> rfl⟩

/-- A byte as a number of eight bits. -/
def byte : Iso (BitVec 8) UInt8 := ⟨UInt8.ofBitVec, UInt8.toBitVec, fun _ => rfl, fun _ => rfl⟩

/-- An optional value as an enum with an empty arm. -/
def optionArms : Iso (Option α) (Unit ⊕ (α ⊕ Empty)) :=
  ⟨fun | none => .inl () | some x => .inr (.inl x), fun | .inl _ => none | .inr (.inl x) => some x,
   fun x => by cases x <;> rfl, fun x => by rcases x with x | x | x <;> first | rfl | exact nomatch x⟩

/-- Nothing, or something without information. -/
def optionUnit : Iso (Option Unit) Bool :=
  ⟨Option.isSome, fun b => if b then some () else none, fun x => by rcases x with _ | x <;> rfl, fun b => by cases b <;> rfl⟩

/-- The booleans as an enum. -/
def boolEnum : Iso Bool (CEnum [0, 255]) :=
  ⟨fun b => if b then ⟨255, .tail _ (.head _)⟩ else ⟨0, .head _⟩, fun x => x.1 == 255, fun b => by cases b <;> rfl, fun x => by
    obtain ⟨t, h⟩ := x
    rcases List.mem_cons.1 h with rfl | h
    · rfl
    · rcases List.mem_cons.1 h with rfl | h
      · rfl
      · cases h⟩

end Iso

/-- The fields of one record, then those of another. -/
def Fields.append : Fields → Fields → Fields
  | .nil, gs => gs
  | .cons s fs, gs => .cons s (fs.append gs)

def Fields.appendIso : (fs gs : Fields) → Iso (fs.Val × gs.Val) (fs.append gs).Val
  | .nil, _ => Iso.unitL
  | .cons s fs, gs => Iso.assoc.trans ((Iso.refl s.Val).prod (fs.appendIso gs))

/-- Arms without payload. -/
def Variants.units : List Nat → Variants
  | [] => .nil
  | t :: ts => .cons t .unit (.units ts)

def Variants.unitsTo : (tags : List Nat) → CEnum tags → (Variants.units tags).Val
  | [], x => nomatch x.2
  | t :: ts, x => if h : x.1 = t then .inl () else .inr (Variants.unitsTo ts ⟨x.1, (List.mem_cons.1 x.2).resolve_left h⟩)

def Variants.unitsBack : (tags : List Nat) → (Variants.units tags).Val → CEnum tags
  | [], x => nomatch x
  | t :: _, .inl _ => ⟨t, .head _⟩
  | _ :: ts, .inr y => ⟨(Variants.unitsBack ts y).1, .tail _ (Variants.unitsBack ts y).2⟩

theorem Variants.units_back_to : ∀ (tags : List Nat) (x : CEnum tags), Variants.unitsBack tags (Variants.unitsTo tags x) = x
  | [], x => nomatch x.2
  | t :: ts, x => by
    by_cases h : x.1 = t
    · have e : Variants.unitsTo (t :: ts) x = .inl () := dif_pos h
      rw [e]
      exact Subtype.ext h.symm
    · have e : Variants.unitsTo (t :: ts) x = .inr (Variants.unitsTo ts ⟨x.1, (List.mem_cons.1 x.2).resolve_left h⟩) := dif_neg h
      rw [e]
      have e' := congrArg (fun z => z.1) (Variants.units_back_to ts ⟨x.1, (List.mem_cons.1 x.2).resolve_left h⟩)
      exact Subtype.ext e'

theorem Variants.units_to_back : ∀ (tags : List Nat), tags.Nodup → ∀ y, Variants.unitsTo tags (Variants.unitsBack tags y) = y
  | [], _, y => nomatch y
  | t :: ts, _, .inl () => by
    unfold Variants.unitsTo
    exact dif_pos rfl
  | t :: ts, hd, .inr y => by
    have hne : (Variants.unitsBack ts y).1 ≠ t := fun h => (List.nodup_cons.1 hd).1 (h ▸ (Variants.unitsBack ts y).2)
    unfold Variants.unitsTo
    exact (dif_neg hne).trans (congrArg Sum.inr (Variants.units_to_back ts (List.nodup_cons.1 hd).2 y))

def Variants.unitsIso (tags : List Nat) (hd : tags.Nodup) : Iso (CEnum tags) (Variants.units tags).Val :=
  ⟨Variants.unitsTo tags, Variants.unitsBack tags, Variants.units_back_to tags, Variants.units_to_back tags hd⟩

mutual
/-- Rearrangements of a type. -/
inductive Refactor : Schema → Schema → Type
  | refl (s : Schema) : Refactor s s
  | symm {s s' : Schema} (h : Refactor s s') : Refactor s' s
  | trans {s s' s'' : Schema} (h : Refactor s s') (h' : Refactor s' s'') : Refactor s s''
  /-- boxing -/
  | autobox (s : Schema) : Refactor (.autobox s) s
  /-- no padding -/
  | unpadded (s : Schema) : Refactor (.padded 0 s) s
  /-- a struct with one field -/
  | newtype (s : Schema) : Refactor (.record (.cons s .nil)) s
  | vecU8 : Refactor .vecU8 .bytes
  | seqU8 : Refactor (.seq (.int .u8)) .bytes
  | boolEnum : Refactor .bool (.cstyle .u8 [0, 255])
  | optionUnit : Refactor (.option .unit) .bool
  | optionArms (s : Schema) : Refactor (.option s) (.data .u8 (.cons 0 .unit (.cons 255 s .nil)))
  /-- an enum without payloads by either macro -/
  | plainEnum (w : TagWidth) (tags : List Nat) (h : tags.Nodup) : Refactor (.cstyle w tags) (.data w (Variants.units tags))
  /-- the range of all integers of the type -/
  | fullRange (t : IntTy) {min max : Int} (hmin : min ≤ t.lo) (hmax : t.hi ≤ max) :
      Refactor (.rangedInt t min max) (.int t)
  | inOption {s s' : Schema} (h : Refactor s s') : Refactor (.option s) (.option s')
  | inNullable {s s' : Schema} (h : Refactor s s') : Refactor (.nullable s) (.nullable s')
  | inDynamic (S : LenPref) {s s' : Schema} (h : Refactor s s') : Refactor (.dynamic S s) (.dynamic S s')
  | inVpadded (n : Nat) {s s' : Schema} (h : Refactor s s') : Refactor (.vpadded n s) (.vpadded n s')
  | inPadded (n : Nat) {s s' : Schema} (h : Refactor s s') : Refactor (.padded n s) (.padded n s')
  | inSeq {s s' : Schema} (h : Refactor s s') : Refactor (.seq s) (.seq s')
  | inFixSeq (n : Nat) {s s' : Schema} (h : Refactor s s') : Refactor (.fixSeq n s) (.fixSeq n s')
  | inLimSeq (n : Nat) {s s' : Schema} (h : Refactor s s') : Refactor (.limSeq n s) (.limSeq n s')
  | inAutobox {s s' : Schema} (h : Refactor s s') : Refactor (.autobox s) (.autobox s')
  | inData (w : TagWidth) {vs vs' : Variants} (h : VRefactor vs vs') : Refactor (.data w vs) (.data w vs')
  | inRecord {fs fs' : Fields} (h : FRefactor fs fs') : Refactor (.record fs) (.record fs')
/-- Rearrangements of arms. -/
inductive VRefactor : Variants → Variants → Type
  | refl (vs : Variants) : VRefactor vs vs
  | symm {vs vs' : Variants} (h : VRefactor vs vs') : VRefactor vs' vs
  | trans {vs vs' vs'' : Variants} (h : VRefactor vs vs') (h' : VRefactor vs' vs'') : VRefactor vs vs''
  | cons (tag : Nat) {s s' : Schema} {vs vs' : Variants} (h : Refactor s s') (hs : VRefactor vs vs') :
      VRefactor (.cons tag s vs) (.cons tag s' vs')
  /-- arms in another order -/
  | swap (t t' : Nat) (s s' : Schema) (vs : Variants) (h : t ≠ t') : VRefactor (.cons t s (.cons t' s' vs)) (.cons t' s' (.cons t s vs))
/-- Rearrangements of fields. -/
inductive FRefactor : Fields → Fields → Type
  | refl (fs : Fields) : FRefactor fs fs
  | symm {fs fs' : Fields} (h : FRefactor fs fs') : FRefactor fs' fs
  | trans {fs fs' fs'' : Fields} (h : FRefactor fs fs') (h' : FRefactor fs' fs'') : FRefactor fs fs''
  | cons {s s' : Schema} {fs fs' : Fields} (h : Refactor s s') (hs : FRefactor fs fs') : FRefactor (.cons s fs) (.cons s' fs')
  /-- a field without information -/
  | drop (fs : Fields) : FRefactor (.cons .unit fs) fs
  /-- the fields of a field -/
  | flatten (fs gs : Fields) : FRefactor (.cons (.record fs) gs) (fs.append gs)
end

mutual
/-- Which value of the one type is which of the other. -/
def Refactor.iso : {s s' : Schema} → Refactor s s' → Iso s.Val s'.Val
  | _, _, .refl _ => Iso.refl _
  | _, _, .symm h => h.iso.symm
  | _, _, .trans h h' => h.iso.trans h'.iso
  | _, _, .autobox s => Iso.refl s.Val
  | _, _, .unpadded s => Iso.refl s.Val
  | _, _, .newtype s => (Iso.unitR : Iso (s.Val × Unit) s.Val)
  | _, _, .vecU8 => Iso.refl Bytes
  | _, _, .seqU8 => Iso.byte.list
  | _, _, .boolEnum => Iso.boolEnum
  | _, _, .optionUnit => Iso.optionUnit
  | _, _, .optionArms s => (Iso.optionArms : Iso (Option s.Val) (Unit ⊕ (s.Val ⊕ Empty)))
  | _, _, .plainEnum _ tags h => Variants.unitsIso tags h
  | _, _, .fullRange t _ _ => Iso.refl t.Val
  | _, _, .inOption h => h.iso.option
  | _, _, .inNullable h => h.iso.option
  | _, _, .inDynamic _ h => h.iso
  | _, _, .inVpadded _ h => h.iso
  | _, _, .inPadded _ h => h.iso
  | _, _, .inSeq h => h.iso.list
  | _, _, .inFixSeq _ h => h.iso.list
  | _, _, .inLimSeq _ h => h.iso.list
  | _, _, .inAutobox h => h.iso
  | _, _, .inData _ h => h.iso
  | _, _, .inRecord h => h.iso
def VRefactor.iso : {vs vs' : Variants} → VRefactor vs vs' → Iso vs.Val vs'.Val
  | _, _, .refl _ => Iso.refl _
  | _, _, .symm h => h.iso.symm
  | _, _, .trans h h' => h.iso.trans h'.iso
  | _, _, .cons _ h hs => h.iso.sum hs.iso
  | _, _, .swap _ _ s s' vs _ => (Iso.swap : Iso (s.Val ⊕ (s'.Val ⊕ vs.Val)) _)
def FRefactor.iso : {fs fs' : Fields} → FRefactor fs fs' → Iso fs.Val fs'.Val
  | _, _, .refl _ => Iso.refl _
  | _, _, .symm h => h.iso.symm
  | _, _, .trans h h' => h.iso.trans h'.iso
  | _, _, .cons h hs => h.iso.prod hs.iso
  | _, _, .drop fs => (Iso.unitL : Iso (Unit × fs.Val) fs.Val)
  | _, _, .flatten fs gs => fs.appendIso gs
end

/-! ### recursive types -/

section
variable {ρ ρ' ρ₂ ρ₃ : Nat → Schema}

mutual
theorem Schema.mapFill_same : ∀ (s : Schema) (x : (s.fill ρ).Val), s.mapFill (fun _ x => x) x = x
  | .unit, _ | .bool, _ | .int _, _ | .f64, _ | .rangedInt _ _ _, _ | .rangedFloat _ _, _ | .zarithN, _ | .zarithZ, _ | .bytes, _
  | .vecU8, _ | .string, _ | .fixedBytes _, _ | .fixedString _, _ | .cstyle _ _, _ | .hole _, _ => rfl
  | .option s, x | .nullable s, x => Iso.map_same s.mapFill_same x
  | .dynamic _ s, x | .vpadded _ s, x | .padded _ s, x | .autobox s, x => s.mapFill_same x
  | .seq s, x | .fixSeq _ s, x | .limSeq _ s, x => Iso.list_same s.mapFill_same x
  | .data _ vs, x => vs.mapFill_same x
  | .record fs, x => fs.mapFill_same x
theorem Variants.mapFill_same : ∀ (vs : Variants) (x : (vs.fill ρ).Val), vs.mapFill (fun _ x => x) x = x
  | .nil, x => nomatch x
  | .cons _ s _, .inl x => congrArg Sum.inl (s.mapFill_same x)
  | .cons _ _ vs, .inr y => congrArg Sum.inr (vs.mapFill_same y)
theorem Fields.mapFill_same : ∀ (fs : Fields) (x : (fs.fill ρ).Val), fs.mapFill (fun _ x => x) x = x
  | .nil, _ => rfl
  | .cons s fs, (x, y) => Iso.pair_eq (s.mapFill_same x) (fs.mapFill_same y)
end

mutual
theorem Schema.mapFill_comm {f : ∀ i, (ρ i).Val → (ρ' i).Val} {g : ∀ i, (ρ' i).Val → (ρ₃ i).Val} {f' : ∀ i, (ρ i).Val → (ρ₂ i).Val}
    {g' : ∀ i, (ρ₂ i).Val → (ρ₃ i).Val} (h : ∀ i x, g i (f i x) = g' i (f' i x)) :
    ∀ (s : Schema) (x : (s.fill ρ).Val), s.mapFill g (s.mapFill f x) = s.mapFill g' (s.mapFill f' x)
  | .unit, _ | .bool, _ | .int _, _ | .f64, _ | .rangedInt _ _ _, _ | .rangedFloat _ _, _ | .zarithN, _ | .zarithZ, _ | .bytes, _
  | .vecU8, _ | .string, _ | .fixedBytes _, _ | .fixedString _, _ | .cstyle _ _, _ => rfl
  | .hole i, x => h i x
  | .option s, x | .nullable s, x => Iso.map_comm (s.mapFill_comm h) x
  | .dynamic _ s, x | .vpadded _ s, x | .padded _ s, x | .autobox s, x => s.mapFill_comm h x
  | .seq s, x | .fixSeq _ s, x | .limSeq _ s, x => Iso.list_comm (s.mapFill_comm h) x
  | .data _ vs, x => vs.mapFill_comm h x
  | .record fs, x => fs.mapFill_comm h x
theorem Variants.mapFill_comm {f : ∀ i, (ρ i).Val → (ρ' i).Val} {g : ∀ i, (ρ' i).Val → (ρ₃ i).Val} {f' : ∀ i, (ρ i).Val → (ρ₂ i).Val}
    {g' : ∀ i, (ρ₂ i).Val → (ρ₃ i).Val} (h : ∀ i x, g i (f i x) = g' i (f' i x)) :
    ∀ (vs : Variants) (x : (vs.fill ρ).Val), vs.mapFill g (vs.mapFill f x) = vs.mapFill g' (vs.mapFill f' x)
  | .nil, x => nomatch x
  | .cons _ s _, .inl x => congrArg Sum.inl (s.mapFill_comm h x)
  | .cons _ _ vs, .inr y => congrArg Sum.inr (vs.mapFill_comm h y)
theorem Fields.mapFill_comm {f : ∀ i, (ρ i).Val → (ρ' i).Val} {g : ∀ i, (ρ' i).Val → (ρ₃ i).Val} {f' : ∀ i, (ρ i).Val → (ρ₂ i).Val}
    {g' : ∀ i, (ρ₂ i).Val → (ρ₃ i).Val} (h : ∀ i x, g i (f i x) = g' i (f' i x)) :
    ∀ (fs : Fields) (x : (fs.fill ρ).Val), fs.mapFill g (fs.mapFill f x) = fs.mapFill g' (fs.mapFill f' x)
  | .nil, _ => rfl
  | .cons s fs, (x, y) => Iso.pair_eq (s.mapFill_comm h x) (fs.mapFill_comm h y)
end

variable (e : ∀ i, Iso (ρ i).Val (ρ' i).Val)

/-- The same type with corresponding types in its holes. -/
def Schema.fillIso (s : Schema) : Iso (s.fill ρ).Val (s.fill ρ').Val where
  to := s.mapFill fun i => (e i).to
  back := s.mapFill fun i => (e i).back
  back_to x := (s.mapFill_comm (f' := fun _ x => x) (g' := fun _ x => x) (fun i x => (e i).back_to x) x).trans
    ((s.mapFill_same _).trans (s.mapFill_same x))
  to_back x := (s.mapFill_comm (f' := fun _ x => x) (g' := fun _ x => x) (fun i x => (e i).to_back x) x).trans
    ((s.mapFill_same _).trans (s.mapFill_same x))

def Variants.fillIso (vs : Variants) : Iso (vs.fill ρ).Val (vs.fill ρ').Val where
  to := vs.mapFill fun i => (e i).to
  back := vs.mapFill fun i => (e i).back
  back_to x := (vs.mapFill_comm (f' := fun _ x => x) (g' := fun _ x => x) (fun i x => (e i).back_to x) x).trans
    ((vs.mapFill_same _).trans (vs.mapFill_same x))
  to_back x := (vs.mapFill_comm (f' := fun _ x => x) (g' := fun _ x => x) (fun i x => (e i).to_back x) x).trans
    ((vs.mapFill_same _).trans (vs.mapFill_same x))

def Fields.fillIso (fs : Fields) : Iso (fs.fill ρ).Val (fs.fill ρ').Val where
  to := fs.mapFill fun i => (e i).to
  back := fs.mapFill fun i => (e i).back
  back_to x := (fs.mapFill_comm (f' := fun _ x => x) (g' := fun _ x => x) (fun i x => (e i).back_to x) x).trans
    ((fs.mapFill_same _).trans (fs.mapFill_same x))
  to_back x := (fs.mapFill_comm (f' := fun _ x => x) (g' := fun _ x => x) (fun i x => (e i).to_back x) x).trans
    ((fs.mapFill_same _).trans (fs.mapFill_same x))

end

/-- Arms without payload have no holes. -/
def Variants.unitsFill (ρ : Nat → Schema) : (tags : List Nat) → Iso (Variants.units tags).Val ((Variants.units tags).fill ρ).Val
  | [] => Iso.refl Empty
  | _ :: ts => (Iso.refl Unit).sum (Variants.unitsFill ρ ts)

def Fields.appendFill (ρ : Nat → Schema) : (fs gs : Fields) → Iso ((fs.fill ρ).Val × (gs.fill ρ).Val) ((fs.append gs).fill ρ).Val
  | .nil, _ => Iso.unitL
  | .cons s fs, gs => Iso.assoc.trans ((Iso.refl (s.fill ρ).Val).prod (fs.appendFill ρ gs))

mutual
/-- Which value of the one type is which of the other, with corresponding types in their holes. -/
def Refactor.fillIso : {s s' : Schema} → Refactor s s' → {ρ ρ' : Nat → Schema} → (∀ i, Iso (ρ i).Val (ρ' i).Val) →
    Iso (s.fill ρ).Val (s'.fill ρ').Val
  | _, _, .refl s, _, _, e => s.fillIso e
  | _, _, .symm h, _, _, e => (h.fillIso fun i => (e i).symm).symm
  | _, _, .trans h h', _, _, e => (h.fillIso e).trans (h'.fillIso fun _ => Iso.refl _)
  | _, _, .autobox s, _, _, e => s.fillIso e
  | _, _, .unpadded s, _, _, e => s.fillIso e
  | _, _, .newtype s, ρ, _, e => (Iso.unitR : Iso ((s.fill ρ).Val × Unit) (s.fill ρ).Val).trans (s.fillIso e)
  | _, _, .vecU8, _, _, _ => Iso.refl Bytes
  | _, _, .seqU8, _, _, _ => Iso.byte.list
  | _, _, .boolEnum, _, _, _ => Iso.boolEnum
  | _, _, .optionUnit, _, _, _ => Iso.optionUnit
  | _, _, .optionArms s, _, ρ', e =>
    (s.fillIso e).option.trans (Iso.optionArms : Iso (Option (s.fill ρ').Val) (Unit ⊕ ((s.fill ρ').Val ⊕ Empty)))
  | _, _, .plainEnum _ tags h, _, ρ', _ => (Variants.unitsIso tags h).trans (Variants.unitsFill ρ' tags)
  | _, _, .fullRange t _ _, _, _, _ => Iso.refl t.Val
  | _, _, .inOption h, _, _, e => (h.fillIso e).option
  | _, _, .inNullable h, _, _, e => (h.fillIso e).option
  | _, _, .inDynamic _ h, _, _, e => h.fillIso e
  | _, _, .inVpadded _ h, _, _, e => h.fillIso e
  | _, _, .inPadded _ h, _, _, e => h.fillIso e
  | _, _, .inSeq h, _, _, e => (h.fillIso e).list
  | _, _, .inFixSeq _ h, _, _, e => (h.fillIso e).list
  | _, _, .inLimSeq _ h, _, _, e => (h.fillIso e).list
  | _, _, .inAutobox h, _, _, e => h.fillIso e
  | _, _, .inData _ h, _, _, e => h.fillIso e
  | _, _, .inRecord h, _, _, e => h.fillIso e
def VRefactor.fillIso : {vs vs' : Variants} → VRefactor vs vs' → {ρ ρ' : Nat → Schema} → (∀ i, Iso (ρ i).Val (ρ' i).Val) →
    Iso (vs.fill ρ).Val (vs'.fill ρ').Val
  | _, _, .refl vs, _, _, e => vs.fillIso e
  | _, _, .symm h, _, _, e => (h.fillIso fun i => (e i).symm).symm
  | _, _, .trans h h', _, _, e => (h.fillIso e).trans (h'.fillIso fun _ => Iso.refl _)
  | _, _, .cons _ h hs, _, _, e => (h.fillIso e).sum (hs.fillIso e)
  | _, _, .swap _ _ s s' vs _, _, _, e => ((s.fillIso e).sum ((s'.fillIso e).sum (vs.fillIso e))).trans Iso.swap
def FRefactor.fillIso : {fs fs' : Fields} → FRefactor fs fs' → {ρ ρ' : Nat → Schema} → (∀ i, Iso (ρ i).Val (ρ' i).Val) →
    Iso (fs.fill ρ).Val (fs'.fill ρ').Val
  | _, _, .refl fs, _, _, e => fs.fillIso e
  | _, _, .symm h, _, _, e => (h.fillIso fun i => (e i).symm).symm
  | _, _, .trans h h', _, _, e => (h.fillIso e).trans (h'.fillIso fun _ => Iso.refl _)
  | _, _, .cons h hs, _, _, e => (h.fillIso e).prod (hs.fillIso e)
  | _, _, .drop fs, ρ, _, e => (Iso.unitL : Iso (Unit × (fs.fill ρ).Val) (fs.fill ρ).Val).trans (fs.fillIso e)
  | _, _, .flatten fs gs, _, ρ', e => ((fs.fillIso e).prod (gs.fillIso e)).trans (fs.appendFill ρ' gs)
end

/-- Two families of recursive types whose definitions are rearrangements of each other: values of their unfoldings. -/
def Decls.iso {d d' : Decls} (w : ∀ i, Refactor (d.body i) (d'.body i)) : (n i : Nat) → Iso (d.unfold n i).Val (d'.unfold n i).Val
  | 0, _ => Iso.refl Empty
  | n + 1, i => (w i).fillIso (iso w n)

end Verif
