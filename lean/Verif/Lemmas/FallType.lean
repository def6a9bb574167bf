import Verif.Lemmas.Fall
import Verif.Lemmas.Recursive
/-
What types say about how release builds end.
-/
namespace Verif

section

variable {o d : Nat}

/-- Too little room before the cursor makes the difference. -/
def Homing (r r' : Fate) : Prop := r = r' ∨ (r = .err ∧ r' ≠ .ok)

theorem Homing.closed {r r' : Fate} (h : Homing r r') : Homing r.closed r'.closed := by
  rcases h with rfl | ⟨rfl, h⟩
  · exact .inl rfl
  · exact .inr ⟨rfl, Fate.closed_ne _⟩

theorem Homing.forever {r r' : Fate} (h : Homing r r') : Homing r.forever r'.forever := by
  rcases h with rfl | ⟨rfl, h⟩
  · exact .inl rfl
  · exact .inr ⟨rfl, by cases r' <;> nofun⟩

theorem Homing.next {r r' q q' : Fate} (h : Homing r r') (h' : Homing q q') : Homing (r.next q) (r'.next q') := by
  rcases h with rfl | ⟨rfl, h⟩
  · cases r with
    | ok => exact h'
    | _ => exact .inl rfl
  · refine .inr ⟨rfl, ?_⟩
    cases r' with
    | ok => exact absurd rfl h
    | _ => nofun

mutual
theorem Schema.fate_overrun (o d : Nat) : ∀ s : Schema, Homing (s.fate o d) s.overrun
  | .unit | .bool | .int _ | .f64 | .rangedInt _ _ _ | .rangedFloat _ _ | .fixedBytes _ | .fixedString _ | .option _ | .dynamic _ _
  | .cstyle _ _ | .data _ _ | .zarithN | .zarithZ | .bytes | .vecU8 | .string | .hole _ => .inl rfl
  | .nullable s | .autobox s => s.fate_overrun o d
  | .vpadded n s => by
    rw [Schema.fate, Schema.overrun]
    split
    · exact (s.fate_overrun o (d + n)).closed
    · exact .inr ⟨rfl, Fate.closed_ne _⟩
  | .padded _ s | .limSeq _ s => (s.fate_overrun o d).closed
  | .seq s => (s.fate_overrun o d).forever
  | .fixSeq n s => by
    rw [Schema.fate, Schema.overrun]
    split
    · exact .inl rfl
    · exact s.fate_overrun o d
  | .record fs => fs.fate_overrun o d
theorem Fields.fate_overrun (o d : Nat) : ∀ fs : Fields, Homing (fs.fate o d) fs.overrun
  | .nil => .inl rfl
  | .cons s fs => (s.fate_overrun o d).next (fs.fate_overrun o d)
end

theorem Fate.first_ne {α : Type} {x : Fate} {d : D α} {g : Bytes → Fate} (h : ∀ v, g v ≠ x) : ∀ k v, Fate.first d g k v ≠ x
  | 0, v => h v
  | k + 1, v => by
    rw [Fate.first]
    split
    · exact first_ne h k _
    · exact h v

variable (cfg : Cfg) (l : Nat) {x : Fate} (hx : x ≠ .err)
include hx

mutual
theorem Schema.fall_ne : ∀ s : Schema, s.avoids x = true → ∀ b v, s.fall cfg l b v ≠ x
  | .unit, _, _, _ | .bool, _, _, _ | .int _, _, _, _ | .f64, _, _, _ | .rangedInt _ _ _, _, _, _ | .rangedFloat _ _, _, _, _
  | .zarithN, _, _, _ | .zarithZ, _, _, _ | .bytes, _, _, _ | .vecU8, _, _, _ | .string, _, _, _ | .fixedBytes _, _, _, _
  | .fixedString _, _, _, _ | .cstyle _ _, _, _, _ | .hole _, _, _, _ => hx.symm
  | .option s, h, b, v => s.fall_ne h b _
  | .nullable s, h, b, v | .autobox s, h, b, v | .padded _ s, h, b, v => s.fall_ne h b v
  | .dynamic S s, h, b, v => by
    rw [Schema.fall]
    split
    · exact s.fall_ne h _ _
    · exact hx.symm
  | .vpadded n s, h, b, v => by
    simp only [Schema.avoids, Bool.and_eq_true, decide_eq_true_eq] at h
    rw [Schema.fall]
    split
    · exact s.fall_ne h.2 _ _
    · split
      · rcases s.fate_overrun (l - (v.length + b)) (n - v.length) with e | ⟨e, _⟩
        · rw [e]
          cases ho : s.overrun with
          | ok => exact hx.symm
          | _ => rw [ho] at h; exact h.1
        · rw [e]
          exact hx.symm
      · exact hx.symm
  | .seq s, h, b, v | .fixSeq _ s, h, b, v | .limSeq _ s, h, b, v => Fate.first_ne (fun v => s.fall_ne h b v) _ v
  | .data w vs, h, b, v => by
    rw [Schema.fall]
    split
    · exact vs.fall_ne h _ _ _
    · exact hx.symm
  | .record fs, h, b, v => fs.fall_ne h b v
theorem Variants.fall_ne : ∀ vs : Variants, vs.avoids x = true → ∀ t b v, vs.fall cfg l t b v ≠ x
  | .nil, _, _, _, _ => hx.symm
  | .cons tag s vs, h, t, b, v => by
    simp only [Variants.avoids, Bool.and_eq_true] at h
    rw [Variants.fall]
    split
    · exact s.fall_ne h.1 b v
    · exact vs.fall_ne h.2 t b v
theorem Fields.fall_ne : ∀ fs : Fields, fs.avoids x = true → ∀ b v, fs.fall cfg l b v ≠ x
  | .nil, _, _, _ => hx.symm
  | .cons s fs, h, b, v => by
    simp only [Fields.avoids, Bool.and_eq_true] at h
    rw [Fields.fall]
    split
    · exact fs.fall_ne h.2 b _
    · exact s.fall_ne h.1 b v
end

end

/-! ### windows are not opened before the cursor -/

theorem Fate.first_err {α : Type} {d : D α} {g : Bytes → Fate} (h : ∀ v, g v = .err) : ∀ k v, Fate.first d g k v = .err
  | 0, v => h v
  | k + 1, v => by
    rw [Fate.first]
    split
    · exact Fate.first_err h k _
    · exact h v

section

variable {cfg : Cfg}

mutual
theorem Schema.fall_zero : ∀ (s : Schema) b v, s.fall cfg 0 b v = .err
  | .unit, _, _ | .bool, _, _ | .int _, _, _ | .f64, _, _ | .rangedInt _ _ _, _, _ | .rangedFloat _ _, _, _
  | .zarithN, _, _ | .zarithZ, _, _ | .bytes, _, _ | .vecU8, _, _ | .string, _, _ | .fixedBytes _, _, _
  | .fixedString _, _, _ | .cstyle _ _, _, _ | .hole _, _, _ => rfl
  | .option s, b, v => s.fall_zero b _
  | .nullable s, b, v | .autobox s, b, v | .padded _ s, b, v => s.fall_zero b v
  | .dynamic S s, b, v => by
    rw [Schema.fall]
    split
    · exact s.fall_zero _ _
    · rfl
  | .vpadded n s, b, v => by
    rw [Schema.fall]
    split
    · exact s.fall_zero _ _
    · exact if_neg (by omega)
  | .seq s, b, v | .fixSeq _ s, b, v | .limSeq _ s, b, v => Fate.first_err (fun v => s.fall_zero b v) _ v
  | .data w vs, b, v => by
    rw [Schema.fall]
    split
    · exact vs.fall_zero _ _ _
    · rfl
  | .record fs, b, v => fs.fall_zero b v
theorem Variants.fall_zero : ∀ (vs : Variants) t b v, vs.fall cfg 0 t b v = .err
  | .nil, _, _, _ => rfl
  | .cons tag s vs, t, b, v => by
    rw [Variants.fall]
    split
    · exact s.fall_zero b v
    · exact vs.fall_zero t b v
theorem Fields.fall_zero : ∀ (fs : Fields) b v, fs.fall cfg 0 b v = .err
  | .nil, _, _ => rfl
  | .cons s fs, b, v => by
    rw [Fields.fall]
    split
    · exact fs.fall_zero b _
    · exact s.fall_zero b v
end

end

/-! ### recursive types -/

section

variable {ρ : Nat → Schema}

mutual
theorem Schema.narrow_fill (h : ∀ i, (ρ i).narrow = true) : ∀ s : Schema, s.narrow = true → (s.fill ρ).narrow = true
  | .unit, hs | .bool, hs | .int _, hs | .f64, hs | .rangedInt _ _ _, hs | .rangedFloat _ _, hs | .zarithN, hs
  | .zarithZ, hs | .bytes, hs | .vecU8, hs | .string, hs | .fixedBytes _, hs | .fixedString _, hs | .cstyle _ _, hs => hs
  | .hole i, _ => h i
  | .option s, hs | .nullable s, hs | .dynamic _ s, hs | .seq s, hs
  | .fixSeq _ s, hs | .limSeq _ s, hs | .autobox s, hs => s.narrow_fill h hs
  | .vpadded n s, hs => by
    simp only [Schema.fill, Schema.narrow, Bool.and_eq_true] at hs ⊢
    exact ⟨hs.1, s.narrow_fill h hs.2⟩
  | .padded n s, hs => by
    simp only [Schema.fill, Schema.narrow, Bool.and_eq_true] at hs ⊢
    exact ⟨hs.1, s.narrow_fill h hs.2⟩
  | .data _ vs, hs => vs.narrow_fill h hs
  | .record fs, hs => fs.narrow_fill h hs
theorem Variants.narrow_fill (h : ∀ i, (ρ i).narrow = true) : ∀ vs : Variants, vs.narrow = true → (vs.fill ρ).narrow = true
  | .nil, hs => hs
  | .cons _ s vs, hs => by
    simp only [Variants.fill, Variants.narrow, Bool.and_eq_true] at hs ⊢
    exact ⟨s.narrow_fill h hs.1, vs.narrow_fill h hs.2⟩
theorem Fields.narrow_fill (h : ∀ i, (ρ i).narrow = true) : ∀ fs : Fields, fs.narrow = true → (fs.fill ρ).narrow = true
  | .nil, hs => hs
  | .cons s fs, hs => by
    simp only [Fields.fill, Fields.narrow, Bool.and_eq_true] at hs ⊢
    exact ⟨s.narrow_fill h hs.1, fs.narrow_fill h hs.2⟩
end

theorem Decls.narrow (d : Decls) (h : ∀ i, (d.body i).narrow = true) : ∀ n i, (d.unfold n i).narrow = true
  | 0, _ => rfl
  | n + 1, i => (d.body i).narrow_fill (d.narrow h n) (h i)

theorem Fate.of_closed {r : Fate} (h : r.closed ≠ .diverge) : r ≠ .diverge := by
  rintro rfl
  exact h rfl

mutual
/-- Where nothing diverges no hole is reached. -/
theorem Schema.overrun_fill : ∀ s : Schema, s.overrun ≠ .diverge → (s.fill ρ).overrun = s.overrun
  | .unit, _ | .bool, _ | .int _, _ | .f64, _ | .rangedInt _ _ _, _ | .rangedFloat _ _, _ | .zarithN, _
  | .zarithZ, _ | .bytes, _ | .vecU8, _ | .string, _ | .fixedBytes _, _ | .fixedString _, _ | .cstyle _ _, _
  | .option _, _ | .dynamic _ _, _ | .data _ _, _ => rfl
  | .hole i, h => absurd rfl h
  | .nullable s, h | .autobox s, h => s.overrun_fill h
  | .vpadded _ s, h | .padded _ s, h | .limSeq _ s, h => congrArg Fate.closed (s.overrun_fill (Fate.of_closed h))
  | .seq s, h => congrArg Fate.forever (s.overrun_fill fun e => h (congrArg Fate.forever e))
  | .fixSeq n s, h => by
    rw [Schema.fill, Schema.overrun, Schema.overrun]
    split
    · rfl
    · rename_i hn
      rw [Schema.overrun, if_neg hn] at h
      exact s.overrun_fill h
  | .record fs, h => fs.overrun_fill h
theorem Fields.overrun_fill : ∀ fs : Fields, fs.overrun ≠ .diverge → (fs.fill ρ).overrun = fs.overrun
  | .nil, _ => rfl
  | .cons s fs, h => by
    rw [Fields.fill, Fields.overrun, Fields.overrun]
    rw [Fields.overrun] at h
    have h1 := s.overrun_fill fun e => h (by rw [e]; rfl)
    rw [h1]
    cases ho : s.overrun with
    | ok =>
      rw [ho] at h
      exact fs.overrun_fill h
    | _ => rfl
end

mutual
theorem Schema.avoids_fill {x : Fate} (h : ∀ i, (ρ i).avoids x = true) : ∀ s : Schema, s.avoids .diverge = true → s.avoids x = true →
    (s.fill ρ).avoids x = true
  | .unit, _, hs | .bool, _, hs | .int _, _, hs | .f64, _, hs | .rangedInt _ _ _, _, hs | .rangedFloat _ _, _, hs | .zarithN, _, hs
  | .zarithZ, _, hs | .bytes, _, hs | .vecU8, _, hs | .string, _, hs | .fixedBytes _, _, hs | .fixedString _, _, hs
  | .cstyle _ _, _, hs => hs
  | .hole i, _, _ => h i
  | .option s, hd, hs | .nullable s, hd, hs | .dynamic _ s, hd, hs | .seq s, hd, hs | .padded _ s, hd, hs
  | .fixSeq _ s, hd, hs | .limSeq _ s, hd, hs | .autobox s, hd, hs => s.avoids_fill h hd hs
  | .vpadded n s, hd, hs => by
    simp only [Schema.fill, Schema.avoids, Bool.and_eq_true, decide_eq_true_eq] at hd hs ⊢
    rw [s.overrun_fill hd.1]
    exact ⟨hs.1, s.avoids_fill h hd.2 hs.2⟩
  | .data _ vs, hd, hs => vs.avoids_fill h hd hs
  | .record fs, hd, hs => fs.avoids_fill h hd hs
theorem Variants.avoids_fill {x : Fate} (h : ∀ i, (ρ i).avoids x = true) : ∀ vs : Variants, vs.avoids .diverge = true →
    vs.avoids x = true → (vs.fill ρ).avoids x = true
  | .nil, _, hs => hs
  | .cons _ s vs, hd, hs => by
    simp only [Variants.fill, Variants.avoids, Bool.and_eq_true] at hd hs ⊢
    exact ⟨s.avoids_fill h hd.1 hs.1, vs.avoids_fill h hd.2 hs.2⟩
theorem Fields.avoids_fill {x : Fate} (h : ∀ i, (ρ i).avoids x = true) : ∀ fs : Fields, fs.avoids .diverge = true →
    fs.avoids x = true → (fs.fill ρ).avoids x = true
  | .nil, _, hs => hs
  | .cons s fs, hd, hs => by
    simp only [Fields.fill, Fields.avoids, Bool.and_eq_true] at hd hs ⊢
    exact ⟨s.avoids_fill h hd.1 hs.1, fs.avoids_fill h hd.2 hs.2⟩
end

theorem Decls.avoids (d : Decls) {x : Fate} (hd : ∀ i, (d.body i).avoids .diverge = true) (h : ∀ i, (d.body i).avoids x = true) :
    ∀ n i, (d.unfold n i).avoids x = true
  | 0, _ => rfl
  | n + 1, i => (d.body i).avoids_fill (d.avoids hd h n) (hd i) (h i)

end

end Verif
