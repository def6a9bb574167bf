import Verif.Spec.Room
import Verif.Spec.Size
import Verif.Lemmas.StoredSim
/-
What bounded sequences reserve is bounded by the size of the value they are in.
-/
namespace Verif

section
variable {L : Layout} {K : Nat}

theorem sum_reserved {α : Type} {f g : α → Nat} (h : ∀ x, f x ≤ K * g x) (xs : List α) : (xs.map f).sum ≤ K * (xs.map g).sum := by
  induction xs with
  | nil => exact Nat.zero_le _
  | cons x xs ih =>
    simp only [List.map_cons, List.sum_cons, Nat.mul_add]
    exact Nat.add_le_add (h x) ih

theorem elim_reserved {α : Type} {f g : α → Nat} (h : ∀ x, f x ≤ K * g x) (o : Option α) : o.elim 0 f ≤ K * (1 + o.elim 0 g) := by
  cases o with
  | none => exact Nat.zero_le _
  | some x => exact Nat.le_trans (h x) (Nat.mul_le_mul_left K (Nat.le_add_left _ 1))

mutual
theorem Schema.reserved_le : ∀ (s : Schema), s.largest L ≤ K → ∀ x : s.Val, s.reserved L x ≤ K * s.size x
  | .unit, _, _ | .bool, _, _ | .int _, _, _ | .f64, _, _ | .rangedInt _ _ _, _, _ | .rangedFloat _ _, _, _ | .zarithN, _, _
  | .zarithZ, _, _ | .bytes, _, _ | .vecU8, _, _ | .string, _, _ | .fixedBytes _, _, _ | .fixedString _, _, _ | .hole _, _, _
  | .cstyle _ _, _, _ => Nat.zero_le _
  | .option s, h, x => elim_reserved (s.reserved_le h) x
  | .nullable s, h, x => elim_reserved (s.reserved_le h) x
  | .dynamic _ s, h, x => s.reserved_le h x
  | .vpadded _ s, h, x => s.reserved_le h x
  | .padded _ s, h, x => s.reserved_le h x
  | .seq s, h, xs => Nat.le_trans (sum_reserved (s.reserved_le h) xs) (Nat.mul_le_mul_left K (Nat.le_add_left _ 1))
  | .fixSeq n s, h, xs => by
    have h1 := sum_reserved (s.reserved_le (Nat.le_trans (Nat.le_max_right _ _) h)) xs
    have h2 := Nat.le_trans (Nat.le_max_left _ _) h
    show Reserve _ _ n + (xs.map (s.reserved L)).sum ≤ K * (1 + (xs.map s.size).sum)
    rw [Nat.mul_add, Nat.mul_one]
    exact Nat.add_le_add h2 h1
  | .limSeq n s, h, xs => by
    have h1 := sum_reserved (s.reserved_le (Nat.le_trans (Nat.le_max_right _ _) h)) xs
    have h2 := Nat.le_trans (Nat.le_max_left _ _) h
    show Reserve _ _ n + (xs.map (s.reserved L)).sum ≤ K * (1 + (xs.map s.size).sum)
    rw [Nat.mul_add, Nat.mul_one]
    exact Nat.add_le_add h2 h1
  | .autobox s, h, x => Nat.le_trans (s.reserved_le h x) (Nat.mul_le_mul_left K (Nat.le_add_left _ 1))
  | .data _ vs, h, x => Nat.le_trans (vs.reserved_le h x) (Nat.mul_le_mul_left K (Nat.le_add_left _ 1))
  | .record fs, h, x => fs.reserved_le h x
theorem Variants.reserved_le : ∀ (vs : Variants), vs.largest L ≤ K → ∀ x : vs.Val, vs.reserved L x ≤ K * vs.size x
  | .nil, _, _ => Nat.zero_le _
  | .cons _ s _, h, .inl x => s.reserved_le (Nat.le_trans (Nat.le_max_left _ _) h) x
  | .cons _ _ vs, h, .inr x => vs.reserved_le (Nat.le_trans (Nat.le_max_right _ _) h) x
theorem Fields.reserved_le : ∀ (fs : Fields), fs.largest L ≤ K → ∀ x : fs.Val, fs.reserved L x ≤ K * fs.size x
  | .nil, _, _ => Nat.zero_le _
  | .cons s fs, h, x => by
    show s.reserved L x.1 + fs.reserved L x.2 ≤ K * (s.size x.1 + fs.size x.2)
    rw [Nat.mul_add]
    exact Nat.add_le_add (s.reserved_le (Nat.le_trans (Nat.le_max_left _ _) h) x.1)
      (fs.reserved_le (Nat.le_trans (Nat.le_max_right _ _) h) x.2)
end

variable {ρ : Nat → Schema}

mutual
theorem Schema.largest_fill (hL : ∀ t : Schema, L.size (t.fill ρ) = L.size t) (h : ∀ i, (ρ i).largest L ≤ K) :
    ∀ s : Schema, s.largest L ≤ K → (s.fill ρ).largest L ≤ K
  | .unit, _ | .bool, _ | .int _, _ | .f64, _ | .rangedInt _ _ _, _ | .rangedFloat _ _, _ | .zarithN, _ | .zarithZ, _ | .bytes, _
  | .vecU8, _ | .string, _ | .fixedBytes _, _ | .fixedString _, _ | .cstyle _ _, _ => Nat.zero_le _
  | .hole i, _ => h i
  | .option s, hs | .nullable s, hs | .dynamic _ s, hs | .vpadded _ s, hs | .padded _ s, hs | .seq s, hs
  | .autobox s, hs => s.largest_fill hL h hs
  | .fixSeq n s, hs => by
    show max (Reserve _ (L.size (s.fill ρ)) n) _ ≤ K
    rw [hL s]
    exact Nat.max_le.mpr ⟨Nat.le_trans (Nat.le_max_left _ _) hs, s.largest_fill hL h (Nat.le_trans (Nat.le_max_right _ _) hs)⟩
  | .limSeq n s, hs => by
    show max (Reserve _ (L.size (s.fill ρ)) n) _ ≤ K
    rw [hL s]
    exact Nat.max_le.mpr ⟨Nat.le_trans (Nat.le_max_left _ _) hs, s.largest_fill hL h (Nat.le_trans (Nat.le_max_right _ _) hs)⟩
  | .data _ vs, hs => vs.largest_fill hL h hs
  | .record fs, hs => fs.largest_fill hL h hs
theorem Variants.largest_fill (hL : ∀ t : Schema, L.size (t.fill ρ) = L.size t) (h : ∀ i, (ρ i).largest L ≤ K) :
    ∀ vs : Variants, vs.largest L ≤ K → (vs.fill ρ).largest L ≤ K
  | .nil, _ => Nat.zero_le _
  | .cons _ s vs, hs => Nat.max_le.mpr ⟨s.largest_fill hL h (Nat.le_trans (Nat.le_max_left _ _) hs),
      vs.largest_fill hL h (Nat.le_trans (Nat.le_max_right _ _) hs)⟩
theorem Fields.largest_fill (hL : ∀ t : Schema, L.size (t.fill ρ) = L.size t) (h : ∀ i, (ρ i).largest L ≤ K) :
    ∀ fs : Fields, fs.largest L ≤ K → (fs.fill ρ).largest L ≤ K
  | .nil, _ => Nat.zero_le _
  | .cons s fs, hs => Nat.max_le.mpr ⟨s.largest_fill hL h (Nat.le_trans (Nat.le_max_left _ _) hs),
      fs.largest_fill hL h (Nat.le_trans (Nat.le_max_right _ _) hs)⟩
end

theorem Layout.Uniform.fill {d : Decls} (hL : L.Uniform d) : ∀ (n : Nat) (t : Schema), L.size (t.fill (d.unfold n)) = L.size t
  | 0, t => congrArg L.size t.fill_hole
  | n + 1, t => (hL n t).trans (Layout.Uniform.fill hL n t)

theorem Decls.largest_unfold {d : Decls} (hL : L.Uniform d) (h : ∀ i, (d.body i).largest L ≤ K) : ∀ n i, (d.unfold n i).largest L ≤ K
  | 0, _ => Nat.zero_le _
  | n + 1, i => (d.body i).largest_fill (hL.fill n) (largest_unfold hL h n) (h i)

end

section
variable {L : Layout} {ρ ρ' : Nat → Schema} {f : ∀ i, (ρ i).Val → (ρ' i).Val}

mutual
theorem Schema.hasRoom_fill (hL : ∀ t : Schema, L.size (t.fill ρ) = L.size t) (h : ∀ i, (ρ i).HasRoom L) :
    ∀ s : Schema, s.HasRoom L → (s.fill ρ).HasRoom L
  | .unit, _ | .bool, _ | .int _, _ | .f64, _ | .rangedInt _ _ _, _ | .rangedFloat _ _, _ | .zarithN, _ | .zarithZ, _ | .bytes, _
  | .vecU8, _ | .string, _ | .fixedBytes _, _ | .fixedString _, _ | .cstyle _ _, _ => trivial
  | .hole i, _ => h i
  | .option s, hs | .nullable s, hs | .dynamic _ s, hs | .vpadded _ s, hs | .padded _ s, hs | .seq s, hs
  | .autobox s, hs => s.hasRoom_fill hL h hs
  | .fixSeq n s, hs => by
    show Room _ (L.size (s.fill ρ)) n ∧ _
    rw [hL s]
    exact ⟨hs.1, s.hasRoom_fill hL h hs.2⟩
  | .limSeq n s, hs => by
    show Room _ (L.size (s.fill ρ)) n ∧ _
    rw [hL s]
    exact ⟨hs.1, s.hasRoom_fill hL h hs.2⟩
  | .data _ vs, hs => vs.hasRoom_fill hL h hs
  | .record fs, hs => fs.hasRoom_fill hL h hs
theorem Variants.hasRoom_fill (hL : ∀ t : Schema, L.size (t.fill ρ) = L.size t) (h : ∀ i, (ρ i).HasRoom L) :
    ∀ vs : Variants, vs.HasRoom L → (vs.fill ρ).HasRoom L
  | .nil, _ => trivial
  | .cons _ s vs, hs => ⟨s.hasRoom_fill hL h hs.1, vs.hasRoom_fill hL h hs.2⟩
theorem Fields.hasRoom_fill (hL : ∀ t : Schema, L.size (t.fill ρ) = L.size t) (h : ∀ i, (ρ i).HasRoom L) :
    ∀ fs : Fields, fs.HasRoom L → (fs.fill ρ).HasRoom L
  | .nil, _ => trivial
  | .cons s fs, hs => ⟨s.hasRoom_fill hL h hs.1, fs.hasRoom_fill hL h hs.2⟩
end

theorem Decls.hasRoom_unfold {d : Decls} (hL : L.Uniform d) (h : ∀ i, (d.body i).HasRoom L) : ∀ n i, (d.unfold n i).HasRoom L
  | 0, _ => trivial
  | n + 1, i => (d.body i).hasRoom_fill (hL.fill n) (hasRoom_unfold hL h n) (h i)

end

end Verif
