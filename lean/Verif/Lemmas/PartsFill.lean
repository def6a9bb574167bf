import Verif.Spec.Parts
import Verif.RecCodec
/-
The parts of a value of an unfolding do not depend on its depth.
-/
namespace Verif

section
variable {ρ ρ' : Nat → Schema} {f : ∀ i, (ρ i).Val → (ρ' i).Val} {P : (s : Schema) → s.Val → Prop}

mutual
theorem Schema.eachPart_fill (hP : ∀ s : Schema, (∀ i, s ≠ .hole i) → ∀ x : (s.fill ρ).Val, P (s.fill ρ') (s.mapFill f x) ↔ P (s.fill ρ) x)
    (h : ∀ i x, (ρ' i).eachPart P (f i x) ↔ (ρ i).eachPart P x) :
    ∀ (s : Schema) (x : (s.fill ρ).Val), (s.fill ρ').eachPart P (s.mapFill f x) ↔ (s.fill ρ).eachPart P x
  | .unit, x => hP .unit nofun x
  | .bool, x => hP .bool nofun x
  | .int t, x => hP (.int t) nofun x
  | .f64, x => hP .f64 nofun x
  | .rangedInt t min max, x => hP (.rangedInt t min max) nofun x
  | .rangedFloat min max, x => hP (.rangedFloat min max) nofun x
  | .zarithN, x => hP .zarithN nofun x
  | .zarithZ, x => hP .zarithZ nofun x
  | .bytes, x => hP .bytes nofun x
  | .vecU8, x => hP .vecU8 nofun x
  | .string, x => hP .string nofun x
  | .fixedBytes n, x => hP (.fixedBytes n) nofun x
  | .fixedString n, x => hP (.fixedString n) nofun x
  | .cstyle w tags, x => hP (.cstyle w tags) nofun x
  | .hole i, x => h i x
  | .option s, x => and_congr (hP (.option s) nofun x) (s.eachOption_fill hP h x)
  | .nullable s, x => and_congr (hP (.nullable s) nofun x) (s.eachOption_fill hP h x)
  | .dynamic S s, x => and_congr (hP (.dynamic S s) nofun x) (s.eachPart_fill hP h x)
  | .vpadded n s, x => and_congr (hP (.vpadded n s) nofun x) (s.eachPart_fill hP h x)
  | .padded n s, x => and_congr (hP (.padded n s) nofun x) (s.eachPart_fill hP h x)
  | .autobox s, x => and_congr (hP (.autobox s) nofun x) (s.eachPart_fill hP h x)
  | .seq s, x => and_congr (hP (.seq s) nofun x) (s.eachList_fill hP h x)
  | .fixSeq n s, x => and_congr (hP (.fixSeq n s) nofun x) (s.eachList_fill hP h x)
  | .limSeq n s, x => and_congr (hP (.limSeq n s) nofun x) (s.eachList_fill hP h x)
  | .data w vs, x => and_congr (hP (.data w vs) nofun x) (vs.eachPart_fill hP h x)
  | .record fs, x => and_congr (hP (.record fs) nofun x) (fs.eachPart_fill hP h x)
theorem Schema.eachOption_fill (hP : ∀ s : Schema, (∀ i, s ≠ .hole i) → ∀ x : (s.fill ρ).Val, P (s.fill ρ') (s.mapFill f x) ↔ P (s.fill ρ) x)
    (h : ∀ i x, (ρ' i).eachPart P (f i x) ↔ (ρ i).eachPart P x) (s : Schema) (x : Option (s.fill ρ).Val) :
    (∀ y, x.map (s.mapFill f) = some y → (s.fill ρ').eachPart P y) ↔ (∀ y, x = some y → (s.fill ρ).eachPart P y) := by
  cases x with
  | none => exact ⟨fun _ => nofun, fun _ => nofun⟩
  | some x =>
    have h1 := s.eachPart_fill hP h x
    exact ⟨fun h2 y e => Option.some.inj e ▸ h1.mp (h2 _ rfl), fun h2 y e => Option.some.inj e ▸ h1.mpr (h2 _ rfl)⟩
theorem Schema.eachList_fill (hP : ∀ s : Schema, (∀ i, s ≠ .hole i) → ∀ x : (s.fill ρ).Val, P (s.fill ρ') (s.mapFill f x) ↔ P (s.fill ρ) x)
    (h : ∀ i x, (ρ' i).eachPart P (f i x) ↔ (ρ i).eachPart P x) (s : Schema) (xs : List (s.fill ρ).Val) :
    (∀ y ∈ xs.map (s.mapFill f), (s.fill ρ').eachPart P y) ↔ (∀ y ∈ xs, (s.fill ρ).eachPart P y) := by
  have h1 := s.eachPart_fill hP h
  refine ⟨fun h2 y hy => (h1 y).mp (h2 _ (List.mem_map_of_mem hy)), fun h2 y hy => ?_⟩
  obtain ⟨x, hx, rfl⟩ := List.mem_map.mp hy
  exact (h1 x).mpr (h2 x hx)
theorem Variants.eachPart_fill (hP : ∀ s : Schema, (∀ i, s ≠ .hole i) → ∀ x : (s.fill ρ).Val, P (s.fill ρ') (s.mapFill f x) ↔ P (s.fill ρ) x)
    (h : ∀ i x, (ρ' i).eachPart P (f i x) ↔ (ρ i).eachPart P x) :
    ∀ (vs : Variants) (x : (vs.fill ρ).Val), (vs.fill ρ').eachPart P (vs.mapFill f x) ↔ (vs.fill ρ).eachPart P x
  | .nil, _ => Iff.rfl
  | .cons tag s vs, .inl x => by
    have h1 := s.eachPart_fill hP h x
    exact ⟨fun h2 => ⟨fun y e => Sum.inl.inj e ▸ h1.mp (h2.1 _ rfl), nofun⟩,
      fun h2 => ⟨fun y e => Sum.inl.inj e ▸ h1.mpr (h2.1 _ rfl), nofun⟩⟩
  | .cons tag s vs, .inr x => by
    have h1 := vs.eachPart_fill hP h x
    exact ⟨fun h2 => ⟨nofun, fun y e => Sum.inr.inj e ▸ h1.mp (h2.2 _ rfl)⟩,
      fun h2 => ⟨nofun, fun y e => Sum.inr.inj e ▸ h1.mpr (h2.2 _ rfl)⟩⟩
theorem Fields.eachPart_fill (hP : ∀ s : Schema, (∀ i, s ≠ .hole i) → ∀ x : (s.fill ρ).Val, P (s.fill ρ') (s.mapFill f x) ↔ P (s.fill ρ) x)
    (h : ∀ i x, (ρ' i).eachPart P (f i x) ↔ (ρ i).eachPart P x) :
    ∀ (fs : Fields) (x : (fs.fill ρ).Val), (fs.fill ρ').eachPart P (fs.mapFill f x) ↔ (fs.fill ρ).eachPart P x
  | .nil, _ => Iff.rfl
  | .cons s fs, x => and_congr (s.eachPart_fill hP h x.1) (fs.eachPart_fill hP h x.2)
end
end

/-- A condition on the parts of a value that does not look into the recursive parts is one on values of the recursive type. -/
theorem Decls.eachPart_lift (d : Decls) {P : (s : Schema) → s.Val → Prop}
    (hP : ∀ (ρ ρ' : Nat → Schema) (f : ∀ i, (ρ i).Val → (ρ' i).Val) (s : Schema), (∀ i, s ≠ .hole i) →
      ∀ x : (s.fill ρ).Val, P (s.fill ρ') (s.mapFill f x) ↔ P (s.fill ρ) x) :
    ∀ n i x, (d.unfold (n + 1) i).eachPart P (d.lift n i x) ↔ (d.unfold n i).eachPart P x
  | 0, _, x => nomatch x
  | n + 1, i, x => (d.body i).eachPart_fill (hP _ _ _) (fun j y => eachPart_lift d hP n j y) x

end Verif
