import Verif.RecCodec
import Verif.Lemmas.Usize
/-
Code with counts of type `usize` that works like another one on more values.
-/
namespace Verif

variable {α β α' β' : Type}

/-- `m'` works like `m` on the values `f x`. -/
structure Machine.Sim (f : α → α') (m : Machine α) (m' : Machine α') : Prop where
  write : ∀ {τ : Type} (T : TargetOps τ) x, m'.write T (f x) = m.write T x
  known : m'.known = m.known
  unknown : ∀ x, m'.unknown (f x) = m.unknown x

structure VMachine.Sim (f : α → α') (m : VMachine α) (m' : VMachine α') : Prop where
  write : ∀ (w : TagWidth) {τ : Type} (T : TargetOps τ) x, m'.write w T (f x) = m.write w T x
  unknown : ∀ w x, m'.unknown w (f x) = m.unknown w x

structure FMachine.Sim (f : α → α') (m : FMachine α) (m' : FMachine α') : Prop where
  write : ∀ {τ : Type} (T : TargetOps τ) x, m'.write T (f x) = m.write T x
  known : m'.known = m.known
  unknown : ∀ x, m'.unknown (f x) = m.unknown x

namespace Machine.Sim

variable {f : α → α'} {m : Machine α} {m' : Machine α'}

theorem refl (m : Machine α) : Sim (fun x => x) m m := ⟨fun _ _ => rfl, rfl, fun _ => rfl⟩

theorem estimate (h : Sim f m m') (x : α) : m'.estimate (f x) = m.estimate x := by
  unfold Machine.estimate
  rw [h.known, h.unknown]

theorem encLen (h : Sim f m m') (cfg : Cfg) (x : α) : m'.encLen cfg (f x) = m.encLen cfg x := by
  unfold Machine.encLen
  rw [h.estimate, h.write]

theorem writeList (h : Sim f m m') (p : Profile) {τ : Type} (T : TargetOps τ) (xs : List α) :
    m'.writeList p T (xs.map f) = m.writeList p T xs := by
  unfold Machine.writeList
  rw [List.map_map]
  congr 1
  exact List.map_congr_left fun x _ => h.write T x

theorem map_estimate (h : Sim f m m') (xs : List α) : (xs.map f).map m'.estimate = xs.map m.estimate := by
  rw [List.map_map]
  exact List.map_congr_left fun x _ => h.estimate x

theorem map_unknown (h : Sim f m m') (xs : List α) : (xs.map f).map m'.unknown = xs.map m.unknown := by
  rw [List.map_map]
  exact List.map_congr_left fun x _ => h.unknown x

theorem option (p : Profile) (h : Sim f m m') : Sim (Option.map f) (m.option p) (m'.option p) where
  write T x := by
    cases x with
    | none => rfl
    | some x => simp only [Machine.option, Option.map, h.write]
  known := by simp only [Machine.option, h.known]
  unknown x := by
    cases x with
    | none => rfl
    | some x => simp only [Machine.option, Option.map, h.estimate]

theorem nullable (p : Profile) (h : Sim f m m') : Sim (Option.map f) (m.nullable p) (m'.nullable p) where
  write T x := by
    cases x with
    | none => rfl
    | some x => simp only [Machine.nullable, Option.map, h.write]
  known := by simp only [Machine.nullable, h.known]
  unknown x := by
    cases x with
    | none => rfl
    | some x => simp only [Machine.nullable, Option.map, h.estimate]

theorem dynamic (p : Profile) (cfg : Cfg) (S : LenPref) (h : Sim f m m') : Sim f (m.dynamic p cfg S) (m'.dynamic p cfg S) where
  write T x := by simp only [Machine.dynamic, h.encLen, h.write]
  known := by simp only [Machine.dynamic, h.known]
  unknown x := by simp only [Machine.dynamic, h.unknown]

theorem vpadded (h : Sim f m m') : Sim f m.vpadded m'.vpadded := ⟨h.write, h.known, h.unknown⟩

theorem padded (p : Profile) (n : Nat) (h : Sim f m m') : Sim f (m.padded p n) (m'.padded p n) where
  write T x := by simp only [Machine.padded, h.write]
  known := by simp only [Machine.padded, h.known]
  unknown x := by simp only [Machine.padded, h.unknown]

theorem seq (p : Profile) (h : Sim f m m') : Sim (List.map f) (m.seq p) (m'.seq p) where
  write T x := by simp only [Machine.seq, h.writeList]
  known := rfl
  unknown x := by simp only [Machine.seq, h.map_estimate]

theorem fixSeq (p : Profile) (n : Nat) (h : Sim f m m') : Sim (List.map f) (m.fixSeq p n) (m'.fixSeq p n) where
  write T x := by simp only [Machine.fixSeq, h.writeList]
  known := by simp only [Machine.fixSeq, h.known]
  unknown x := by simp only [Machine.fixSeq, h.map_unknown]

theorem data (w : TagWidth) {v : VMachine α} {v' : VMachine α'} (h : VMachine.Sim f v v') :
    Sim f (Machine.data w v) (Machine.data w v') := ⟨h.write w, rfl, h.unknown w⟩

theorem record (p : Profile) {v : FMachine α} {v' : FMachine α'} (h : FMachine.Sim f v v') :
    Sim f (Machine.record p v) (Machine.record p v') where
  write T x := by simp only [Machine.record, h.write]
  known := h.known
  unknown x := by simp only [Machine.record, h.unknown]

end Machine.Sim

theorem VMachine.Sim.nil : VMachine.Sim (fun x => x) VMachine.nil VMachine.nil := ⟨fun _ _ _ _ => rfl, fun _ _ => rfl⟩

theorem VMachine.Sim.cons (p : Profile) (tag : Nat) {f : α → α'} {g : β → β'} {m : Machine α} {m' : Machine α'}
    {v : VMachine β} {v' : VMachine β'} (h : Machine.Sim f m m') (hv : VMachine.Sim g v v') :
    VMachine.Sim (Sum.map f g) (VMachine.cons p tag m v) (VMachine.cons p tag m' v') where
  write w _ T x := by
    cases x with
    | inl x => simp only [VMachine.cons, Sum.map, Sum.elim_inl, Function.comp, h.write]
    | inr x => exact hv.write w T x
  unknown w x := by
    cases x with
    | inl x => simp only [VMachine.cons, Sum.map, Sum.elim_inl, Function.comp, h.estimate]
    | inr x => exact hv.unknown w x

theorem FMachine.Sim.nil : FMachine.Sim (fun x => x) FMachine.nil FMachine.nil := ⟨fun _ _ => rfl, rfl, fun _ => rfl⟩

theorem FMachine.Sim.cons {f : α → α'} {g : β → β'} {m : Machine α} {m' : Machine α'} {v : FMachine β} {v' : FMachine β'}
    (h : Machine.Sim f m m') (hv : FMachine.Sim g v v') :
    FMachine.Sim (Prod.map f g) (FMachine.cons m v) (FMachine.cons m' v') where
  write T x := by simp only [FMachine.cons, Prod.map, h.write, hv.write]
  known := by simp only [FMachine.cons, h.known, hv.known]
  unknown x := by simp only [FMachine.cons, Prod.map, h.unknown, hv.unknown]

mutual
theorem Schema.msim (cfg : Cfg) {ρ ρ' : Nat → Schema} {f : ∀ i, (ρ i).Val → (ρ' i).Val}
    (h : ∀ i, Machine.Sim (f i) ((ρ i).machine cfg) ((ρ' i).machine cfg)) :
    ∀ s : Schema, Machine.Sim (s.mapFill f) ((s.fill ρ).machine cfg) ((s.fill ρ').machine cfg)
  | .unit => .refl _
  | .bool => .refl _
  | .int _ => .refl _
  | .f64 => .refl _
  | .rangedInt _ _ _ => .refl _
  | .rangedFloat _ _ => .refl _
  | .zarithN => .refl _
  | .zarithZ => .refl _
  | .bytes => .refl _
  | .vecU8 => .refl _
  | .string => .refl _
  | .fixedBytes _ => .refl _
  | .fixedString _ => .refl _
  | .option s => .option _ (s.msim cfg h)
  | .nullable s => .nullable _ (s.msim cfg h)
  | .dynamic S s => .dynamic _ cfg S (s.msim cfg h)
  | .vpadded _ s => .vpadded (s.msim cfg h)
  | .padded n s => .padded _ n (s.msim cfg h)
  | .seq s => .seq _ (s.msim cfg h)
  | .fixSeq n s => .fixSeq _ n (s.msim cfg h)
  | .limSeq _ s => .seq _ (s.msim cfg h)
  | .autobox s => .vpadded (s.msim cfg h)
  | .hole i => h i
  | .cstyle _ _ => .refl _
  | .data w vs => .data w (vs.msim cfg h)
  | .record fs => .record _ (fs.msim cfg h)
theorem Variants.msim (cfg : Cfg) {ρ ρ' : Nat → Schema} {f : ∀ i, (ρ i).Val → (ρ' i).Val}
    (h : ∀ i, Machine.Sim (f i) ((ρ i).machine cfg) ((ρ' i).machine cfg)) :
    ∀ vs : Variants, VMachine.Sim (vs.mapFill f) ((vs.fill ρ).machine cfg) ((vs.fill ρ').machine cfg)
  | .nil => .nil
  | .cons tag s vs => .cons _ tag (s.msim cfg h) (vs.msim cfg h)
theorem Fields.msim (cfg : Cfg) {ρ ρ' : Nat → Schema} {f : ∀ i, (ρ i).Val → (ρ' i).Val}
    (h : ∀ i, Machine.Sim (f i) ((ρ i).machine cfg) ((ρ' i).machine cfg)) :
    ∀ fs : Fields, FMachine.Sim (fs.mapFill f) ((fs.fill ρ).machine cfg) ((fs.fill ρ').machine cfg)
  | .nil => .nil
  | .cons s fs => .cons (s.msim cfg h) (fs.msim cfg h)
end

theorem Decls.lift_msim (d : Decls) (cfg : Cfg) : ∀ n i,
    Machine.Sim (d.lift n i) ((d.unfold n i).machine cfg) ((d.unfold (n + 1) i).machine cfg)
  | 0, i => {
      write := fun _ x => nomatch x
      known := by
        show ((d.unfold 1 i).machine cfg).known = none
        rw [((d.unfold 1 i).agrees cfg).known, d.unfold_one]
        exact d.unsized i cfg
      unknown := fun x => nomatch x }
  | n + 1, i => (d.body i).msim cfg fun j => lift_msim d cfg n j

end Verif
