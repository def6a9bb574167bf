import Verif.RecCodec
import Verif.Lemmas.Stored
/-
The code of an unfolding with storage in view does not depend on its depth.
-/
namespace Verif

/-- The memory a type takes does not depend on how often its definition has been unfolded. -/
def Layout.Uniform (L : Layout) (d : Decls) : Prop :=
  ∀ (n : Nat) (t : Schema), L.size (t.fill (d.unfold (n + 1))) = L.size (t.fill (d.unfold n))

theorem MLe.panics {α α' σ : Type} {f : α → α'} {m : PM σ α} {m' : PM σ α'} (h : ∀ s, m s = .panic) (h' : ∀ s, m' s = .panic) :
    MLe f m m' := fun s => .inr (by rw [h' s, M.map_run, h s]; rfl)

theorem Codec.Sim.storedFix {α α' : Type} {f : α → α'} {c : Codec α} {c' : Codec α'} (h : Codec.Sim f c c') (array : Bool) (size n : Nat) :
    Codec.Sim (List.map f) (Codec.storedFix array size n c) (Codec.storedFix array size n c') := by
  have h1 : Codec.Sim (List.map f) (Codec.fixSeq n c) (Codec.fixSeq n c') := .fixSeq n h
  by_cases hr : Room array size n
  · rw [Codec.storedFix_room hr, Codec.storedFix_room hr]
    exact h1
  · exact ⟨h1.write, fun P => .panics (Codec.storedFix_none hr c P) (Codec.storedFix_none hr c' P), h1.known, h1.unknown⟩

theorem Codec.Sim.storedLim {α α' : Type} {f : α → α'} {c : Codec α} {c' : Codec α'} (h : Codec.Sim f c c') (array : Bool) (size n : Nat) :
    Codec.Sim (List.map f) (Codec.storedLim array size n c) (Codec.storedLim array size n c') := by
  have h1 : Codec.Sim (List.map f) (Codec.limSeq n c) (Codec.limSeq n c') := .limSeq n h
  by_cases hr : Room array size n
  · rw [Codec.storedLim_room hr, Codec.storedLim_room hr]
    exact h1
  · exact ⟨h1.write, fun P => .panics (Codec.storedLim_none hr c P) (Codec.storedLim_none hr c' P), h1.known, h1.unknown⟩

section
variable {L : Layout} {ρ ρ' : Nat → Schema} {f : ∀ i, (ρ i).Val → (ρ' i).Val}

mutual
theorem Schema.storedSim (cfg : Cfg) (hL : ∀ t : Schema, L.size (t.fill ρ') = L.size (t.fill ρ))
    (h : ∀ i, Codec.Sim (f i) ((ρ i).storedCodec L cfg) ((ρ' i).storedCodec L cfg)) :
    ∀ s : Schema, Codec.Sim (s.mapFill f) ((s.fill ρ).storedCodec L cfg) ((s.fill ρ').storedCodec L cfg)
  | .unit => .refl _
  | .bool => .refl _
  | .int _ => .refl _
  | .f64 => .refl _
  | .rangedInt _ _ _ => .refl _
  | .rangedFloat _ _ => .refl _
  | .zarithN => .refl _
  | .zarithZ => .refl _
  | .bytes => .refl _
  | .vecU8 => .refl _
  | .string => .refl _
  | .fixedBytes _ => .refl _
  | .fixedString _ => .refl _
  | .option s => .option (s.storedSim cfg hL h)
  | .nullable s => .nullable (s.storedSim cfg hL h)
  | .dynamic S s => .dynamic cfg S (s.storedSim cfg hL h)
  | .vpadded n s => .vpadded cfg n (s.storedSim cfg hL h)
  | .padded n s => .padded cfg n (s.storedSim cfg hL h)
  | .seq s => .seq (s.storedSim cfg hL h)
  | .fixSeq n s => by
    show Codec.Sim _ (Codec.storedFix _ _ n _) (Codec.storedFix _ (L.size (s.fill ρ')) n _)
    rw [hL s]
    exact .storedFix (s.storedSim cfg hL h) _ _ n
  | .limSeq n s => by
    show Codec.Sim _ (Codec.storedLim _ _ n _) (Codec.storedLim _ (L.size (s.fill ρ')) n _)
    rw [hL s]
    exact .storedLim (s.storedSim cfg hL h) _ _ n
  | .autobox s => .autobox (s.storedSim cfg hL h)
  | .hole i => h i
  | .cstyle _ _ => .refl _
  | .data w vs => .data w (vs.storedSim cfg hL h)
  | .record fs => .record (fs.storedSim cfg hL h)
theorem Variants.storedSim (cfg : Cfg) (hL : ∀ t : Schema, L.size (t.fill ρ') = L.size (t.fill ρ))
    (h : ∀ i, Codec.Sim (f i) ((ρ i).storedCodec L cfg) ((ρ' i).storedCodec L cfg)) :
    ∀ vs : Variants, VCodec.Sim (vs.mapFill f) ((vs.fill ρ).storedCodec L cfg) ((vs.fill ρ').storedCodec L cfg)
  | .nil => .nil
  | .cons tag s vs => .cons tag (s.storedSim cfg hL h) (vs.storedSim cfg hL h)
theorem Fields.storedSim (cfg : Cfg) (hL : ∀ t : Schema, L.size (t.fill ρ') = L.size (t.fill ρ))
    (h : ∀ i, Codec.Sim (f i) ((ρ i).storedCodec L cfg) ((ρ' i).storedCodec L cfg)) :
    ∀ fs : Fields, FCodec.Sim (fs.mapFill f) ((fs.fill ρ).storedCodec L cfg) ((fs.fill ρ').storedCodec L cfg)
  | .nil => .nil
  | .cons s fs => .cons (s.storedSim cfg hL h) (fs.storedSim cfg hL h)
end

end

theorem Decls.lift_storedSim (d : Decls) {L : Layout} (hL : L.Uniform d) (cfg : Cfg) : ∀ n i,
    Codec.Sim (d.lift n i) ((d.unfold n i).storedCodec L cfg) ((d.unfold (n + 1) i).storedCodec L cfg)
  | 0, i => {
      write := fun _ x => nomatch x
      parse := fun _ _ => .inl rfl
      known := by
        show ((d.unfold 1 i).storedCodec L cfg).known = none
        rw [((d.unfold 1 i).stored_enc L cfg).known, d.unfold_one]
        exact d.unsized i cfg
      unknown := fun x => nomatch x }
  | n + 1, i => (d.body i).storedSim cfg (hL n) fun j => lift_storedSim d hL cfg n j

end Verif
