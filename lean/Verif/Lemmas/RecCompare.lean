import Verif.RecCompare
import Verif.Lemmas.Wider
import Verif.Lemmas.Hash
import Verif.Lemmas.Zeros
/-
Comparing and hashing values of recursive types: it does not matter how often one has unfolded.
-/
namespace Verif

namespace Cmp

variable {α β α' β' : Type}

/-- A change of representation that a comparison does not notice. -/
def Unseen {γ : Type} (g : α → β) (c : α → α → γ) (c' : β → β → γ) : Prop := ∀ x y, c' (g x) (g y) = c x y

theorem Unseen.optionEq {g : α → β} {c : α → α → Bool} {c' : β → β → Bool} (h : Unseen g c c') :
    Unseen (Option.map g) (Cmp.optionEq c) (Cmp.optionEq c')
  | none, none => rfl
  | none, some _ => rfl
  | some _, none => rfl
  | some x, some y => h x y

theorem Unseen.option {g : α → β} {c : α → α → Option Ordering} {c' : β → β → Option Ordering} (h : Unseen g c c') :
    Unseen (Option.map g) (Cmp.option c) (Cmp.option c')
  | none, none => rfl
  | none, some _ => rfl
  | some _, none => rfl
  | some x, some y => h x y

theorem Unseen.sliceEq {g : α → β} {c : α → α → Bool} {c' : β → β → Bool} (h : Unseen g c c') :
    Unseen (List.map g) (Cmp.sliceEq c) (Cmp.sliceEq c') := fun xs ys => by
  have : ∀ xs ys : List α, (((xs.map g).zip (ys.map g)).all fun (x, y) => c' x y) = (xs.zip ys).all fun (x, y) => c x y := by
    intro xs
    induction xs with
    | nil => intro ys; rfl
    | cons x xs ih =>
      intro ys
      cases ys with
      | nil => rfl
      | cons y ys =>
        show (c' (g x) (g y) && _) = (c x y && _)
        rw [h x y]; exact congrArg _ (ih ys)
  show ((xs.map g).length == (ys.map g).length && _) = (xs.length == ys.length && _)
  rw [this, List.length_map, List.length_map]

theorem Unseen.slice {g : α → β} {c : α → α → Option Ordering} {c' : β → β → Option Ordering} (h : Unseen g c c') :
    Unseen (List.map g) (Cmp.slice c) (Cmp.slice c')
  | [], [] => rfl
  | [], _ :: _ => rfl
  | _ :: _, [] => rfl
  | x :: xs, y :: ys => by
    have ih : Cmp.slice c' (xs.map g) (ys.map g) = Cmp.slice c xs ys := Unseen.slice h xs ys
    simp only [List.map_cons, Cmp.slice, h x y, ih]

theorem Unseen.orElseEq {g : α → β} {g' : α' → β'} {c : α → α → Bool} {c' : β → β → Bool} {e : α' → α' → Bool}
    {e' : β' → β' → Bool} (h : Unseen g c c') (k : Unseen g' e e') :
    Unseen (Sum.map g g') (Cmp.orElseEq c e) (Cmp.orElseEq c' e')
  | .inl x, .inl y => h x y
  | .inl _, .inr _ => rfl
  | .inr _, .inl _ => rfl
  | .inr x, .inr y => k x y

theorem Unseen.orElse {g : α → β} {g' : α' → β'} {c : α → α → Option Ordering} {c' : β → β → Option Ordering}
    {e : α' → α' → Option Ordering} {e' : β' → β' → Option Ordering} (h : Unseen g c c') (k : Unseen g' e e') :
    Unseen (Sum.map g g') (Cmp.orElse c e) (Cmp.orElse c' e')
  | .inl x, .inl y => h x y
  | .inl _, .inr _ => rfl
  | .inr _, .inl _ => rfl
  | .inr x, .inr y => k x y

theorem Unseen.andEq {g : α → β} {g' : α' → β'} {c : α → α → Bool} {c' : β → β → Bool} {e : α' → α' → Bool}
    {e' : β' → β' → Bool} (h : Unseen g c c') (k : Unseen g' e e') :
    Unseen (Prod.map g g') (fun x y : α × α' => c x.1 y.1 && e x.2 y.2) (fun x y : β × β' => c' x.1 y.1 && e' x.2 y.2) :=
  fun x y => by
    show (c' (g x.1) (g y.1) && e' (g' x.2) (g' y.2)) = _
    rw [h, k]

theorem Unseen.andThen {g : α → β} {g' : α' → β'} {c : α → α → Option Ordering} {c' : β → β → Option Ordering}
    {e : α' → α' → Option Ordering} {e' : β' → β' → Option Ordering} (h : Unseen g c c') (k : Unseen g' e e') :
    Unseen (Prod.map g g') (Cmp.andThen c e) (Cmp.andThen c' e') := fun x y => by
  simp only [Cmp.andThen, Prod.map_fst, Prod.map_snd, h x.1 y.1, k x.2 y.2]

end Cmp

open Cmp (Unseen)

section
variable {ρ ρ' : Nat → Schema} {f : ∀ i, (ρ i).Val → (ρ' i).Val}

mutual
theorem Schema.eqv_fill (hf : ∀ i, Unseen (f i) (ρ i).eqv (ρ' i).eqv) :
    (s : Schema) → Unseen (s.mapFill f) (s.fill ρ).eqv (s.fill ρ').eqv
  | .unit | .bool | .int _ | .f64 | .rangedInt _ _ _ | .rangedFloat _ _ | .zarithN | .zarithZ | .bytes | .vecU8
  | .string | .fixedBytes _ | .fixedString _ | .cstyle _ _ => fun _ _ => rfl
  | .option s => (Schema.eqv_fill hf s).optionEq
  | .nullable s => (Schema.eqv_fill hf s).optionEq
  | .dynamic _ s => Schema.eqv_fill hf s
  | .vpadded _ s => Schema.eqv_fill hf s
  | .padded _ s => Schema.eqv_fill hf s
  | .seq s => (Schema.eqv_fill hf s).sliceEq
  | .fixSeq _ s => (Schema.eqv_fill hf s).sliceEq
  | .limSeq _ s => (Schema.eqv_fill hf s).sliceEq
  | .autobox s => Schema.eqv_fill hf s
  | .hole i => hf i
  | .data _ vs => Variants.eqv_fill hf vs
  | .record fs => Fields.eqv_fill hf fs
theorem Variants.eqv_fill (hf : ∀ i, Unseen (f i) (ρ i).eqv (ρ' i).eqv) :
    (vs : Variants) → Unseen (vs.mapFill f) (vs.fill ρ).eqv (vs.fill ρ').eqv
  | .nil => fun x => nomatch x
  | .cons _ s vs => (Schema.eqv_fill hf s).orElseEq (Variants.eqv_fill hf vs)
theorem Fields.eqv_fill (hf : ∀ i, Unseen (f i) (ρ i).eqv (ρ' i).eqv) :
    (fs : Fields) → Unseen (fs.mapFill f) (fs.fill ρ).eqv (fs.fill ρ').eqv
  | .nil => fun _ _ => rfl
  | .cons s fs => (Schema.eqv_fill hf s).andEq (Fields.eqv_fill hf fs)
end

mutual
theorem Schema.pcmp_fill (hf : ∀ i, Unseen (f i) (ρ i).pcmp (ρ' i).pcmp) :
    (s : Schema) → Unseen (s.mapFill f) (s.fill ρ).pcmp (s.fill ρ').pcmp
  | .unit | .bool | .int _ | .f64 | .rangedInt _ _ _ | .rangedFloat _ _ | .zarithN | .zarithZ | .bytes | .vecU8
  | .string | .fixedBytes _ | .fixedString _ | .cstyle _ _ => fun _ _ => rfl
  | .option s => (Schema.pcmp_fill hf s).option
  | .nullable s => (Schema.pcmp_fill hf s).option
  | .dynamic _ s => Schema.pcmp_fill hf s
  | .vpadded _ s => Schema.pcmp_fill hf s
  | .padded _ s => Schema.pcmp_fill hf s
  | .seq s => (Schema.pcmp_fill hf s).slice
  | .fixSeq _ s => (Schema.pcmp_fill hf s).slice
  | .limSeq _ s => (Schema.pcmp_fill hf s).slice
  | .autobox s => Schema.pcmp_fill hf s
  | .hole i => hf i
  | .data _ vs => Variants.pcmp_fill hf vs
  | .record fs => Fields.pcmp_fill hf fs
theorem Variants.pcmp_fill (hf : ∀ i, Unseen (f i) (ρ i).pcmp (ρ' i).pcmp) :
    (vs : Variants) → Unseen (vs.mapFill f) (vs.fill ρ).pcmp (vs.fill ρ').pcmp
  | .nil => fun x => nomatch x
  | .cons _ s vs => (Schema.pcmp_fill hf s).orElse (Variants.pcmp_fill hf vs)
theorem Fields.pcmp_fill (hf : ∀ i, Unseen (f i) (ρ i).pcmp (ρ' i).pcmp) :
    (fs : Fields) → Unseen (fs.mapFill f) (fs.fill ρ).pcmp (fs.fill ρ').pcmp
  | .nil => fun _ _ => rfl
  | .cons s fs => (Schema.pcmp_fill hf s).andThen (Fields.pcmp_fill hf fs)
end

mutual
theorem Schema.nan_fill (hf : ∀ i x, (ρ' i).HasNan (f i x) ↔ (ρ i).HasNan x) :
    (s : Schema) → ∀ x, (s.fill ρ').HasNan (s.mapFill f x) ↔ (s.fill ρ).HasNan x
  | .unit | .bool | .int _ | .f64 | .rangedInt _ _ _ | .rangedFloat _ _ | .zarithN | .zarithZ | .bytes | .vecU8
  | .string | .fixedBytes _ | .fixedString _ | .cstyle _ _ => fun _ => .rfl
  | .option s => option_nan (Schema.nan_fill hf s)
  | .nullable s => option_nan (Schema.nan_fill hf s)
  | .dynamic _ s => Schema.nan_fill hf s
  | .vpadded _ s => Schema.nan_fill hf s
  | .padded _ s => Schema.nan_fill hf s
  | .seq s => list_nan (Schema.nan_fill hf s)
  | .fixSeq _ s => list_nan (Schema.nan_fill hf s)
  | .limSeq _ s => list_nan (Schema.nan_fill hf s)
  | .autobox s => Schema.nan_fill hf s
  | .hole i => hf i
  | .data _ vs => Variants.nan_fill hf vs
  | .record fs => Fields.nan_fill hf fs
where
  option_nan {α β : Type} {g : α → β} {N : α → Prop} {N' : β → Prop} (h : ∀ x, N' (g x) ↔ N x) :
      ∀ o : Option α, (∃ y, o.map g = some y ∧ N' y) ↔ ∃ x, o = some x ∧ N x
    | none => Iff.intro (fun ⟨_, h, _⟩ => by cases h) (fun ⟨_, h, _⟩ => by cases h)
    | some x => ⟨fun ⟨_, e, k⟩ => ⟨x, rfl, (h x).mp ((Option.some.inj e) ▸ k)⟩,
        fun ⟨_, e, k⟩ => ⟨g x, rfl, (h x).mpr ((Option.some.inj e) ▸ k)⟩⟩
  list_nan {α β : Type} {g : α → β} {N : α → Prop} {N' : β → Prop} (h : ∀ x, N' (g x) ↔ N x) (l : List α) :
      (∃ y ∈ l.map g, N' y) ↔ ∃ x ∈ l, N x :=
    ⟨fun ⟨_, m, k⟩ => by obtain ⟨x, hx, rfl⟩ := List.mem_map.mp m; exact ⟨x, hx, (h x).mp k⟩,
      fun ⟨x, m, k⟩ => ⟨g x, List.mem_map_of_mem m, (h x).mpr k⟩⟩
theorem Variants.nan_fill (hf : ∀ i x, (ρ' i).HasNan (f i x) ↔ (ρ i).HasNan x) :
    (vs : Variants) → ∀ x, (vs.fill ρ').HasNan (vs.mapFill f x) ↔ (vs.fill ρ).HasNan x
  | .nil => fun x => nomatch x
  | .cons _ s vs => fun x => match x with
    | .inl x => Schema.nan_fill hf s x
    | .inr x => Variants.nan_fill hf vs x
theorem Fields.nan_fill (hf : ∀ i x, (ρ' i).HasNan (f i x) ↔ (ρ i).HasNan x) :
    (fs : Fields) → ∀ x, (fs.fill ρ').HasNan (fs.mapFill f x) ↔ (fs.fill ρ).HasNan x
  | .nil => fun _ => .rfl
  | .cons s fs => fun x => or_congr (Schema.nan_fill hf s x.1) (Fields.nan_fill hf fs x.2)
end

end

/-- The integer types, whose slices are hashed at once. -/
def Schema.isInt : Schema → Bool
  | .int _ => true
  | _ => false

theorem HashOf.elems_each (e : Endian) : (s : Schema) → s.isInt = false → ∀ (h : s.Val → List HashCall) xs,
    HashOf.elems e s h xs = xs.flatMap h
  | .int _, hi => nomatch hi
  | .unit, _ | .bool, _ | .f64, _ | .rangedInt _ _ _, _ | .rangedFloat _ _, _ | .zarithN, _ | .zarithZ, _ | .bytes, _
  | .vecU8, _ | .string, _ | .fixedBytes _, _ | .fixedString _, _ | .option _, _ | .nullable _, _ | .dynamic _ _, _
  | .vpadded _ _, _ | .padded _ _, _ | .seq _, _ | .fixSeq _ _, _ | .limSeq _ _, _ | .autobox _, _ | .hole _, _
  | .cstyle _ _, _ | .data _ _, _ | .record _, _ => fun _ _ => rfl

section
variable {ρ ρ' : Nat → Schema} {f : ∀ i, (ρ i).Val → (ρ' i).Val}

theorem Schema.isInt_fill (hi : ∀ i, (ρ i).isInt = false) : (s : Schema) → s.isInt = false → (s.fill ρ).isInt = false
  | .int _, h => nomatch h
  | .unit, _ | .bool, _ | .f64, _ | .rangedInt _ _ _, _ | .rangedFloat _ _, _ | .zarithN, _ | .zarithZ, _ | .bytes, _
  | .vecU8, _ | .string, _ | .fixedBytes _, _ | .fixedString _, _ | .option _, _ | .nullable _, _ | .dynamic _ _, _
  | .vpadded _ _, _ | .padded _ _, _ | .seq _, _ | .fixSeq _ _, _ | .limSeq _ _, _ | .autobox _, _
  | .cstyle _ _, _ | .data _ _, _ | .record _, _ => rfl
  | .hole i, _ => hi i

theorem HashOf.slice_fill (e : Endian) (hi : ∀ i, (ρ i).isInt = false) (hi' : ∀ i, (ρ' i).isInt = false) (s : Schema)
    (h : ∀ x, (s.fill ρ').hash e (s.mapFill f x) = (s.fill ρ).hash e x) (xs : List (s.fill ρ).Val) :
    HashOf.slice e (s.fill ρ') ((s.fill ρ').hash e) (xs.map (s.mapFill f)) =
      HashOf.slice e (s.fill ρ) ((s.fill ρ).hash e) xs := by
  unfold HashOf.slice
  rw [List.length_map]
  congr 1
  cases hs : s.isInt with
  | false =>
    rw [HashOf.elems_each e _ (s.isInt_fill hi' hs), HashOf.elems_each e _ (s.isInt_fill hi hs)]
    rw [List.flatMap_map]
    congr 1
    exact funext h
  | true =>
    cases s <;> first | (cases hs; done) | skip
    next t =>
      exact congrArg (HashOf.elems e (.int t) ((Schema.int t).hash e)) (List.map_id' (xs : List t.Val))

theorem HashOf.option_map {α β : Type} {g : α → β} {h : α → List HashCall} {h' : β → List HashCall}
    (k : ∀ x, h' (g x) = h x) : ∀ o : Option α, HashOf.option h' (o.map g) = HashOf.option h o
  | none => rfl
  | some x => congrArg (HashCall.discr 1 :: ·) (k x)

mutual
theorem Schema.hash_fill (e : Endian) (hi : ∀ i, (ρ i).isInt = false) (hi' : ∀ i, (ρ' i).isInt = false)
    (hf : ∀ i x, (ρ' i).hash e (f i x) = (ρ i).hash e x) :
    (s : Schema) → ∀ x, (s.fill ρ').hash e (s.mapFill f x) = (s.fill ρ).hash e x
  | .unit | .bool | .int _ | .f64 | .rangedInt _ _ _ | .rangedFloat _ _ | .zarithN | .zarithZ | .bytes | .vecU8
  | .string | .fixedBytes _ | .fixedString _ | .cstyle _ _ => fun _ => rfl
  | .option s => HashOf.option_map (Schema.hash_fill e hi hi' hf s)
  | .nullable s => HashOf.option_map (Schema.hash_fill e hi hi' hf s)
  | .dynamic _ s => Schema.hash_fill e hi hi' hf s
  | .vpadded _ s => Schema.hash_fill e hi hi' hf s
  | .padded _ s => Schema.hash_fill e hi hi' hf s
  | .seq s => HashOf.slice_fill e hi hi' s (Schema.hash_fill e hi hi' hf s)
  | .fixSeq _ s => HashOf.slice_fill e hi hi' s (Schema.hash_fill e hi hi' hf s)
  | .limSeq _ s => HashOf.slice_fill e hi hi' s (Schema.hash_fill e hi hi' hf s)
  | .autobox s => Schema.hash_fill e hi hi' hf s
  | .hole i => hf i
  | .data w vs => Variants.hash_fill e hi hi' hf w vs
  | .record fs => Fields.hash_fill e hi hi' hf fs
theorem Variants.hash_fill (e : Endian) (hi : ∀ i, (ρ i).isInt = false) (hi' : ∀ i, (ρ' i).isInt = false)
    (hf : ∀ i x, (ρ' i).hash e (f i x) = (ρ i).hash e x) (w : TagWidth) :
    (vs : Variants) → ∀ x, (vs.fill ρ').hash e w (vs.mapFill f x) = (vs.fill ρ).hash e w x
  | .nil => fun x => nomatch x
  | .cons tag s vs => fun x => match x with
    | .inl x => congrArg (HashCall.int w.len tag :: ·) (Schema.hash_fill e hi hi' hf s x)
    | .inr x => Variants.hash_fill e hi hi' hf w vs x
theorem Fields.hash_fill (e : Endian) (hi : ∀ i, (ρ i).isInt = false) (hi' : ∀ i, (ρ' i).isInt = false)
    (hf : ∀ i x, (ρ' i).hash e (f i x) = (ρ i).hash e x) :
    (fs : Fields) → ∀ x, (fs.fill ρ').hash e (fs.mapFill f x) = (fs.fill ρ).hash e x
  | .nil => fun _ => rfl
  | .cons s fs => fun x => congr (congrArg _ (Schema.hash_fill e hi hi' hf s x.1)) (Fields.hash_fill e hi hi' hf fs x.2)
end

end

namespace Decls

variable (d : Decls)

theorem lift_eqv : ∀ n i, Unseen (d.lift n i) (d.unfold n i).eqv (d.unfold (n + 1) i).eqv
  | 0, _ => fun x => nomatch x
  | n + 1, i => (d.body i).eqv_fill fun j => lift_eqv n j

theorem lift_pcmp : ∀ n i, Unseen (d.lift n i) (d.unfold n i).pcmp (d.unfold (n + 1) i).pcmp
  | 0, _ => fun x => nomatch x
  | n + 1, i => (d.body i).pcmp_fill fun j => lift_pcmp n j

theorem lift_nan : ∀ n i x, (d.unfold (n + 1) i).HasNan (d.lift n i x) ↔ (d.unfold n i).HasNan x
  | 0, _ => fun x => nomatch x
  | n + 1, i => (d.body i).nan_fill fun j => lift_nan n j

theorem body_isInt (i : Nat) : (d.body i).isInt = false := by
  have h := d.unsized i ⟨.release, false, false, false⟩
  cases hb : d.body i <;> first | rfl | skip
  rw [hb] at h
  cases h

theorem unfold_isInt : ∀ n i, (d.unfold n i).isInt = false
  | 0, _ => rfl
  | n + 1, i => (d.body i).isInt_fill (fun j => unfold_isInt n j) (d.body_isInt i)

theorem lift_hash (e : Endian) : ∀ n i x, (d.unfold (n + 1) i).hash e (d.lift n i x) = (d.unfold n i).hash e x
  | 0, _ => fun x => nomatch x
  | n + 1, i => (d.body i).hash_fill e (d.unfold_isInt n) (d.unfold_isInt (n + 1)) fun j => lift_hash e n j

theorem reach {i n : Nat} {γ : Type} (c : ∀ n, (d.unfold n i).Val → (d.unfold n i).Val → γ)
    (hc : ∀ n, Unseen (d.lift n i) (c n) (c (n + 1))) (x y : (d.unfold n i).Val) :
    ∀ k, ∃ x' y', d.val (n + k) x' = d.val n x ∧ d.val (n + k) y' = d.val n y ∧ c (n + k) x' y' = c n x y
  | 0 => ⟨x, y, rfl, rfl, rfl⟩
  | k + 1 => by
    obtain ⟨x', y', h1, h2, h3⟩ := reach c hc x y k
    exact ⟨d.lift _ i x', d.lift _ i y', (d.val_lift _ x').trans h1, (d.val_lift _ y').trans h2, (hc _ x' y').trans h3⟩

/-- It does not matter in which unfolding one compares. -/
theorem same {i n m : Nat} {γ : Type} (c : ∀ n, (d.unfold n i).Val → (d.unfold n i).Val → γ)
    (hc : ∀ n, Unseen (d.lift n i) (c n) (c (n + 1))) {x y : (d.unfold n i).Val} {x' y' : (d.unfold m i).Val}
    (hx : d.val n x = d.val m x') (hy : d.val n y = d.val m y') : c n x y = c m x' y' := by
  obtain ⟨a, b, h1, h2, h3⟩ := d.reach c hc x y m
  obtain ⟨a', b', h4, h5, h6⟩ : ∃ a' b', d.val (n + m) a' = d.val m x' ∧ d.val (n + m) b' = d.val m y' ∧
      c (n + m) a' b' = c m x' y' := by
    rw [Nat.add_comm]
    exact d.reach c hc x' y' n
  have e1 : a = a' := d.val_inj (h1.trans (hx.trans h4.symm))
  have e2 : b = b' := d.val_inj (h2.trans (hy.trans h5.symm))
  rw [← h3, ← h6, e1, e2]

theorem both_val {i n : Nat} {γ : Type} [Inhabited γ] (c : ∀ n, (d.unfold n i).Val → (d.unfold n i).Val → γ)
    (hc : ∀ n, Unseen (d.lift n i) (c n) (c (n + 1))) (x y : (d.unfold n i).Val) :
    d.both c (d.val n x) (d.val n y) = c n x y := by
  have h : ∃ m x' y', d.val n x = d.val m x' ∧ d.val n y = d.val m y' := ⟨n, x, y, rfl, rfl⟩
  unfold both
  rw [dif_pos h]
  have k := h.choose_spec.choose_spec.choose_spec
  exact (d.same c hc k.1 k.2).symm

theorem eqv_val {i n : Nat} (x y : (d.unfold n i).Val) : d.eqv (d.val n x) (d.val n y) = (d.unfold n i).eqv x y :=
  d.both_val _ (fun n => d.lift_eqv n i) x y

theorem pcmp_val {i n : Nat} (x y : (d.unfold n i).Val) : d.pcmp (d.val n x) (d.val n y) = (d.unfold n i).pcmp x y :=
  d.both_val _ (fun n => d.lift_pcmp n i) x y

theorem hash_val (e : Endian) {i n : Nat} (x : (d.unfold n i).Val) : d.hash e (d.val n x) = (d.unfold n i).hash e x :=
  d.both_val (fun n x _ => (d.unfold n i).hash e x) (fun n x _ => d.lift_hash e n i x) x x

theorem nan_val {i n : Nat} (x : (d.unfold n i).Val) : d.HasNan (d.val n x) ↔ (d.unfold n i).HasNan x := by
  constructor
  · rintro ⟨m, y, h, k⟩
    exact ((d.same (fun n x _ => (d.unfold n i).HasNan x) (fun n x _ => propext (d.lift_nan n i x)) h h).mpr k)
  · exact fun k => ⟨n, x, rfl, k⟩

/-- Three values are values of one unfolding. -/
theorem exists_three {i : Nat} (a b c : d.Val i) :
    ∃ n x y z, a = d.val n x ∧ b = d.val n y ∧ c = d.val n z := by
  obtain ⟨n, x, y, rfl, rfl⟩ := d.exists_two a b
  obtain ⟨m, z, rfl⟩ := d.exists_val c
  obtain ⟨x', hx⟩ := d.val_at x m
  obtain ⟨y', hy⟩ := d.val_at y m
  obtain ⟨z', hz⟩ : ∃ z', d.val (n + m) z' = d.val m z := by
    rw [Nat.add_comm]
    exact d.val_at z n
  exact ⟨n + m, x', y', z', hx.symm, hy.symm, hz.symm⟩

end Decls

section
variable {ρ : Nat → Schema}
mutual
theorem Schema.floatFree_fill (h : ∀ i, (ρ i).floatFree = true) : ∀ s : Schema, s.floatFree = true → (s.fill ρ).floatFree = true
  | .unit, _ | .bool, _ | .int _, _ | .rangedInt _ _ _, _ | .zarithN, _ | .zarithZ, _ | .bytes, _ | .vecU8, _
  | .string, _ | .fixedBytes _, _ | .fixedString _, _ | .cstyle _ _, _ => rfl
  | .f64, hs => nomatch hs
  | .rangedFloat _ _, hs => nomatch hs
  | .hole i, _ => h i
  | .option s, hs | .nullable s, hs | .dynamic _ s, hs | .vpadded _ s, hs | .padded _ s, hs | .seq s, hs
  | .fixSeq _ s, hs | .limSeq _ s, hs | .autobox s, hs => Schema.floatFree_fill h s hs
  | .data _ vs, hs => Variants.floatFree_fill h vs hs
  | .record fs, hs => Fields.floatFree_fill h fs hs
theorem Variants.floatFree_fill (h : ∀ i, (ρ i).floatFree = true) :
    ∀ vs : Variants, vs.floatFree = true → (vs.fill ρ).floatFree = true
  | .nil, _ => rfl
  | .cons _ s vs, hs =>
    have k := (Bool.and_eq_true _ _).mp hs
    (Bool.and_eq_true _ _).mpr ⟨Schema.floatFree_fill h s k.1, Variants.floatFree_fill h vs k.2⟩
theorem Fields.floatFree_fill (h : ∀ i, (ρ i).floatFree = true) :
    ∀ fs : Fields, fs.floatFree = true → (fs.fill ρ).floatFree = true
  | .nil, _ => rfl
  | .cons s fs, hs =>
    have k := (Bool.and_eq_true _ _).mp hs
    (Bool.and_eq_true _ _).mpr ⟨Schema.floatFree_fill h s k.1, Fields.floatFree_fill h fs k.2⟩
end

mutual
theorem Schema.rangedFloats_fill (h : ∀ i, (ρ i).rangedFloats = true) :
    ∀ s : Schema, s.rangedFloats = true → (s.fill ρ).rangedFloats = true
  | .unit, _ | .bool, _ | .int _, _ | .rangedInt _ _ _, _ | .zarithN, _ | .zarithZ, _ | .bytes, _ | .vecU8, _
  | .string, _ | .fixedBytes _, _ | .fixedString _, _ | .cstyle _ _, _ | .rangedFloat _ _, _ => rfl
  | .f64, hs => nomatch hs
  | .hole i, _ => h i
  | .option s, hs | .nullable s, hs | .dynamic _ s, hs | .vpadded _ s, hs | .padded _ s, hs | .seq s, hs
  | .fixSeq _ s, hs | .limSeq _ s, hs | .autobox s, hs => Schema.rangedFloats_fill h s hs
  | .data _ vs, hs => Variants.rangedFloats_fill h vs hs
  | .record fs, hs => Fields.rangedFloats_fill h fs hs
theorem Variants.rangedFloats_fill (h : ∀ i, (ρ i).rangedFloats = true) :
    ∀ vs : Variants, vs.rangedFloats = true → (vs.fill ρ).rangedFloats = true
  | .nil, _ => rfl
  | .cons _ s vs, hs =>
    have k := (Bool.and_eq_true _ _).mp hs
    (Bool.and_eq_true _ _).mpr ⟨Schema.rangedFloats_fill h s k.1, Variants.rangedFloats_fill h vs k.2⟩
theorem Fields.rangedFloats_fill (h : ∀ i, (ρ i).rangedFloats = true) :
    ∀ fs : Fields, fs.rangedFloats = true → (fs.fill ρ).rangedFloats = true
  | .nil, _ => rfl
  | .cons s fs, hs =>
    have k := (Bool.and_eq_true _ _).mp hs
    (Bool.and_eq_true _ _).mpr ⟨Schema.rangedFloats_fill h s k.1, Fields.rangedFloats_fill h fs k.2⟩
end
end

theorem Decls.floatFree (d : Decls) (h : ∀ i, (d.body i).floatFree = true) : ∀ n i, (d.unfold n i).floatFree = true
  | 0, _ => rfl
  | n + 1, i => (d.body i).floatFree_fill (fun j => d.floatFree h n j) (h i)

theorem Decls.rangedFloats (d : Decls) (h : ∀ i, (d.body i).rangedFloats = true) : ∀ n i, (d.unfold n i).rangedFloats = true
  | 0, _ => rfl
  | n + 1, i => (d.body i).rangedFloats_fill (fun j => d.rangedFloats h n j) (h i)

end Verif
