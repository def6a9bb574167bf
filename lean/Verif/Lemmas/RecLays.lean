import Verif.RecPretty
import Verif.Lemmas.Lays
/-
For every recursive type, the alternate form of `Debug` spreads the plain one over several lines.
-/
namespace Verif

/-- What is shown by induction. -/
def Schema.LaysIn (cfg : Cfg) (W : Printing) {ρ : Nat → Schema} (q p : ∀ i, (ρ i).Val → Option Text) (s : Schema) (x : (s.fill ρ).Val) : Prop :=
  AlikeOpt Spreads (s.prettyIn cfg W q p x) (s.debugIn cfg W p x) ∧ ∀ ps, s.armTextsIn cfg W p x = some ps → ∃ ts, Each Spreads ts ps

mutual
theorem Schema.laysIn (cfg : Cfg) {W : Printing} (hW : W.Tidy) {ρ : Nat → Schema} {q p : ∀ i, (ρ i).Val → Option Text}
    (hq : ∀ i x, AlikeOpt Spreads (q i x) (p i x)) : ∀ (s : Schema) (x : (s.fill ρ).Val), s.LaysIn cfg W q p x
  | .unit, _ =>
    have h := AlikeOpt.some (Word.spreads (word_text (by decide) (by decide)))
    ⟨h, arm_single h⟩
  | .bool, x =>
    have h : AlikeOpt Spreads (some (DebugOf.bool x)) (some (DebugOf.bool x)) := .some (Word.spreads (by
      cases x <;> exact word_text (by decide) (by decide)))
    ⟨h, arm_single h⟩
  | .int t, x =>
    have h := AlikeOpt.some (word_signed (t.toInt x)).spreads
    ⟨h, arm_single h⟩
  | .f64, x =>
    have h := AlikeOpt.some (hW.float x).spreads
    ⟨h, arm_single h⟩
  | .rangedInt t _ _, x =>
    have h := AlikeOpt.some ((word_signed (t.toInt x)).spreads.tuple (name := text! "RangedInt") (word_text (by decide) (by decide)))
    ⟨h, arm_single h⟩
  | .rangedFloat _ _, x =>
    have h := AlikeOpt.some (Each.struct (sh := .named text! "RangedFloat" fun _ => text! "val") (.cons (hW.float x).spreads .nil)
      ⟨word_text (by decide) (by decide), fun _ => word_text (by decide) (by decide)⟩)
    ⟨h, arm_single h⟩
  | .zarithN, n =>
    have h := AlikeOpt.some (Word.spreads (t := DebugOf.tuple text! "ℕ" (decimal n)) (word_text (c := 'ℕ') (by decide) (by
      have := (word_decimal n).2; simp [this])))
    ⟨h, arm_single h⟩
  | .zarithZ, z =>
    have h := AlikeOpt.some (Word.spreads (t := DebugOf.tuple text! "ℤ" (signed z)) (word_text (c := 'ℤ') (by decide) (by
      have := (word_signed z).2; simp [this])))
    ⟨h, arm_single h⟩
  | .bytes, bs =>
    have h := AlikeOpt.some ((spreads_bytes bs).tuple (name := text! "Bytes") (word_text (by decide) (by decide)))
    ⟨h, arm_single h⟩
  | .vecU8, bs =>
    have h := AlikeOpt.some (spreads_bytes bs)
    ⟨h, arm_single h⟩
  | .string, x =>
    have h := AlikeOpt.some (hW.str x).spreads
    ⟨h, arm_single h⟩
  | .fixedBytes _, a =>
    have h := AlikeOpt.some ((spreads_bytes a.1).tuple (name := text! "FixedBytes") (word_text (by decide) (by decide)))
    ⟨h, arm_single h⟩
  | .fixedString _, a =>
    have h := AlikeOpt.some (Each.struct (sh := .named text! "FixedString" fun _ => text! "contents") (.cons (spreads_bytes a.1) .nil)
      ⟨word_text (by decide) (by decide), fun _ => word_text (by decide) (by decide)⟩)
    ⟨h, arm_single h⟩
  | .cstyle _ tags, x =>
    have h := AlikeOpt.some (hW.variant tags x.1).spreads
    ⟨h, arm_single h⟩
  | .hole i, x => ⟨hq i x, arm_single (hq i x)⟩
  | .option s, x =>
    have h := spreads_option (fun y => (s.laysIn cfg hW hq y).1) x
    ⟨h, arm_single h⟩
  | .nullable s, x =>
    have h := (spreads_option (fun y => (s.laysIn cfg hW hq y).1) x).map fun _ _ h =>
      h.tuple (name := text! "Nullable") (word_text (by decide) (by decide))
    ⟨h, arm_single h⟩
  | .dynamic S s, x =>
    have h := spreads_dynamic S (((s.fill ρ).codec cfg).encLen cfg x) (s.laysIn cfg hW hq x).1.clean
    ⟨h, arm_single h⟩
  | .vpadded _ s, x => ⟨(s.laysIn cfg hW hq x).1, arm_single (s.laysIn cfg hW hq x).1⟩
  | .padded _ s, x =>
    have h := (s.laysIn cfg hW hq x).1.map fun _ _ h => h.tuple (name := text! "Padded") (word_text (by decide) (by decide))
    ⟨h, arm_single h⟩
  | .seq s, xs =>
    have h := (spreads_list (fun y => (s.laysIn cfg hW hq y).1) xs).map fun _ _ h =>
      h.tuple (name := text! "Sequence") (word_text (by decide) (by decide))
    ⟨h, arm_single h⟩
  | .fixSeq _ s, xs =>
    have h := (spreads_list (fun y => (s.laysIn cfg hW hq y).1) xs).map fun _ _ h =>
      h.tuple (name := text! "FixSeq") (word_text (by decide) (by decide))
    ⟨h, arm_single h⟩
  | .limSeq _ s, xs =>
    have h := (spreads_list (fun y => (s.laysIn cfg hW hq y).1) xs).map fun _ _ h =>
      h.tuple (name := text! "LimSeq") (word_text (by decide) (by decide))
    ⟨h, arm_single h⟩
  | .autobox s, x => ⟨(s.laysIn cfg hW hq x).1, arm_single (s.laysIn cfg hW hq x).1⟩
  | .data _ vs, x =>
    have h := both_flat (c := '#') (by decide) (vs.oneLineIn cfg hW hq vs 0 x)
    ⟨h, arm_single h⟩
  | .record fs, x =>
    have h := fs.laysIn cfg hW hq x
    ⟨h.map fun _ _ h => h.struct (hW.record fs), fun ps e => by
      change fs.debugIn cfg W p x = some ps at e
      rw [e] at h
      generalize fs.prettyIn cfg W q p x = o at h
      cases h with
      | some h => exact ⟨_, h⟩⟩
theorem Variants.oneLineIn (cfg : Cfg) {W : Printing} (hW : W.Tidy) {ρ : Nat → Schema} {q p : ∀ i, (ρ i).Val → Option Text}
    (hq : ∀ i x, AlikeOpt Spreads (q i x) (p i x)) : ∀ (vs whole : Variants) (i : Nat) (x : (vs.fill ρ).Val) (t : Text),
    vs.debugIn cfg W p whole i x = some t → '\n' ∉ t
  | .nil, _, _, x, _, _ => nomatch x
  | .cons tag s vs, whole, i, .inl y, t, h => by
    rw [Variants.debugIn_inl cfg W p tag s vs whole i y] at h
    have hs := (s.laysIn cfg hW hq y).2
    cases ha : s.armTextsIn cfg W p y with
    | none => rw [ha] at h; cases h
    | some ps =>
      rw [ha] at h
      cases h
      obtain ⟨ts, hts⟩ := hs ps ha
      exact (hts.struct (hW.arm whole i)).clean
  | .cons tag s vs, whole, i, .inr y, t, h =>
    vs.oneLineIn cfg hW hq whole (i + 1) y t (by rw [← Variants.debugIn_inr cfg W p tag s vs whole i y]; exact h)
theorem Fields.laysIn (cfg : Cfg) {W : Printing} (hW : W.Tidy) {ρ : Nat → Schema} {q p : ∀ i, (ρ i).Val → Option Text}
    (hq : ∀ i x, AlikeOpt Spreads (q i x) (p i x)) : ∀ (fs : Fields) (x : (fs.fill ρ).Val),
    AlikeOpt (Each Spreads) (fs.prettyIn cfg W q p x) (fs.debugIn cfg W p x)
  | .nil, _ => .some .nil
  | .cons s fs, x => by
    have h1 := (s.laysIn cfg hW hq x.1).1
    have h2 := fs.laysIn cfg hW hq x.2
    simp only [Fields.prettyIn, Fields.debugIn]
    generalize s.prettyIn cfg W q p x.1 = o at h1
    generalize s.debugIn cfg W p x.1 = o' at h1
    cases h1 with
    | none => exact .none
    | some h1 => exact h2.map fun _ _ h => .cons h1 h
end

theorem Decls.laysAt (d : Decls) (cfg : Cfg) {W : Printing} (hW : W.Tidy) : ∀ (n i : Nat) (x : (d.unfold n i).Val),
    AlikeOpt Spreads (d.prettyAt cfg W n i x) (d.debugAt cfg W n i x)
  | 0, _, x => nomatch x
  | n + 1, i, x => ((d.body i).laysIn cfg hW (fun j y => d.laysAt cfg hW n j y) x).1

end Verif
