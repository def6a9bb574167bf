import Verif.Spec.Recursive
import Verif.RecCodec
import Verif.Lemmas.Schema
import Verif.Lemmas.Retext
import Verif.Lemmas.Sound
/-
Laws of recursive types.
-/
namespace Verif

/-! ### static properties of filled schemas -/

section
variable {ρ ρ' : Nat → Schema}
mutual
theorem Schema.sig_fill (h : ∀ i, (ρ i).tail = (ρ' i).tail ∧ (ρ i).width = (ρ' i).width ∧ (ρ i).nonempty = (ρ' i).nonempty) :
    ∀ s : Schema, (s.fill ρ).tail = (s.fill ρ').tail ∧ (s.fill ρ).width = (s.fill ρ').width ∧
      (s.fill ρ).nonempty = (s.fill ρ').nonempty
  | .unit | .bool | .int _ | .f64 | .rangedInt _ _ _ | .rangedFloat _ _ | .zarithN | .zarithZ | .bytes | .vecU8
  | .string | .fixedBytes _ | .fixedString _ | .cstyle _ _ => ⟨rfl, rfl, rfl⟩
  | .hole i => h i
  | .option s | .nullable s | .dynamic _ s | .vpadded _ s | .padded _ s | .seq s | .fixSeq _ s | .limSeq _ s | .autobox s => by
    obtain ⟨h1, h2, h3⟩ := s.sig_fill h
    simp only [Schema.fill, Schema.tail, Schema.width, Schema.nonempty, h1, h2, h3, and_self]
  | .data _ vs => ⟨vs.sig_fill h, rfl, rfl⟩
  | .record fs => fs.sig_fill h
theorem Variants.sig_fill (h : ∀ i, (ρ i).tail = (ρ' i).tail ∧ (ρ i).width = (ρ' i).width ∧ (ρ i).nonempty = (ρ' i).nonempty) :
    ∀ vs : Variants, (vs.fill ρ).tail = (vs.fill ρ').tail
  | .nil => rfl
  | .cons _ s vs => by simp only [Variants.fill, Variants.tail, (s.sig_fill h).1, vs.sig_fill h]
theorem Fields.sig_fill (h : ∀ i, (ρ i).tail = (ρ' i).tail ∧ (ρ i).width = (ρ' i).width ∧ (ρ i).nonempty = (ρ' i).nonempty) :
    ∀ fs : Fields, (fs.fill ρ).tail = (fs.fill ρ').tail ∧ (fs.fill ρ).width = (fs.fill ρ').width ∧
      (fs.fill ρ).nonempty = (fs.fill ρ').nonempty
  | .nil => ⟨rfl, rfl, rfl⟩
  | .cons s fs => by
    obtain ⟨h1, h2, h3⟩ := s.sig_fill h
    obtain ⟨h4, h5, h6⟩ := fs.sig_fill h
    simp only [Fields.fill, Fields.tail, Fields.width, Fields.nonempty, h1, h2, h3, h4, h5, h6, and_self]
end

mutual
theorem Schema.nonempty_fill (h : ∀ i, (ρ i).nonempty = true → (ρ' i).nonempty = true) :
    ∀ s : Schema, (s.fill ρ).nonempty = true → (s.fill ρ').nonempty = true
  | .unit, hs | .bool, hs | .int _, hs | .f64, hs | .rangedInt _ _ _, hs | .rangedFloat _ _, hs | .zarithN, hs
  | .zarithZ, hs | .bytes, hs | .vecU8, hs | .string, hs | .fixedBytes _, hs | .fixedString _, hs | .cstyle _ _, hs
  | .option _, hs | .nullable _, hs | .dynamic _ _, hs | .seq _, hs | .limSeq _ _, hs | .data _ _, hs => hs
  | .hole i, hs => h i hs
  | .vpadded _ s, hs => s.nonempty_fill h hs
  | .padded n s, hs => by
    simp only [Schema.fill, Schema.nonempty, Bool.or_eq_true] at hs ⊢
    exact hs.imp id (s.nonempty_fill h)
  | .fixSeq n s, hs => by
    simp only [Schema.fill, Schema.nonempty, Bool.and_eq_true] at hs ⊢
    exact ⟨hs.1, s.nonempty_fill h hs.2⟩
  | .autobox s, hs => s.nonempty_fill h hs
  | .record fs, hs => fs.nonempty_fill h hs
theorem Fields.nonempty_fill (h : ∀ i, (ρ i).nonempty = true → (ρ' i).nonempty = true) :
    ∀ fs : Fields, (fs.fill ρ).nonempty = true → (fs.fill ρ').nonempty = true
  | .nil, hs => hs
  | .cons s fs, hs => by
    simp only [Fields.fill, Fields.nonempty, Bool.or_eq_true] at hs ⊢
    exact hs.imp (s.nonempty_fill h) (fs.nonempty_fill h)
end

theorem Variants.tags_fill : ∀ vs : Variants, (vs.fill ρ).tags = vs.tags
  | .nil => rfl
  | .cons tag _ vs => congrArg (tag :: ·) (Variants.tags_fill vs)

mutual
theorem Schema.tagsOk_fill (h : ∀ i, (ρ i).tagsOk) : ∀ s : Schema, s.tagsOk → (s.fill ρ).tagsOk
  | .unit, hs | .bool, hs | .int _, hs | .f64, hs | .rangedInt _ _ _, hs | .rangedFloat _ _, hs | .zarithN, hs
  | .zarithZ, hs | .bytes, hs | .vecU8, hs | .string, hs | .fixedBytes _, hs | .fixedString _, hs | .cstyle _ _, hs => hs
  | .hole i, _ => h i
  | .option s, hs | .nullable s, hs | .dynamic _ s, hs | .vpadded _ s, hs | .padded _ s, hs | .seq s, hs
  | .fixSeq _ s, hs | .limSeq _ s, hs | .autobox s, hs => s.tagsOk_fill h hs
  | .data w vs, hs => ⟨by rw [Variants.tags_fill]; exact hs.1, vs.tagsOk_fill h hs.2⟩
  | .record fs, hs => fs.tagsOk_fill h hs
theorem Variants.tagsOk_fill (h : ∀ i, (ρ i).tagsOk) : ∀ vs : Variants, vs.tagsOk → (vs.fill ρ).tagsOk
  | .nil, hs => hs
  | .cons _ s vs, hs => ⟨by rw [Variants.tags_fill]; exact hs.1, s.tagsOk_fill h hs.2.1, vs.tagsOk_fill h hs.2.2⟩
theorem Fields.tagsOk_fill (h : ∀ i, (ρ i).tagsOk) : ∀ fs : Fields, fs.tagsOk → (fs.fill ρ).tagsOk
  | .nil, hs => hs
  | .cons s fs, hs => ⟨s.tagsOk_fill h hs.1, fs.tagsOk_fill h hs.2⟩
end

mutual
theorem Schema.isLocal_fill (h : ∀ i, (ρ i).isLocal = true) : ∀ s : Schema, s.isLocal = true → (s.fill ρ).isLocal = true
  | .unit, hs | .bool, hs | .int _, hs | .f64, hs | .rangedInt _ _ _, hs | .rangedFloat _ _, hs | .zarithN, hs
  | .zarithZ, hs | .bytes, hs | .vecU8, hs | .string, hs | .fixedBytes _, hs | .fixedString _, hs | .cstyle _ _, hs
  | .nullable _, hs | .dynamic _ _, hs | .vpadded _ _, hs | .seq _, hs | .limSeq _ _, hs => hs
  | .hole i, _ => h i
  | .option s, hs | .padded _ s, hs | .fixSeq _ s, hs | .autobox s, hs => s.isLocal_fill h hs
  | .data _ vs, hs => vs.isLocal_fill h hs
  | .record fs, hs => fs.isLocal_fill h hs
theorem Variants.isLocal_fill (h : ∀ i, (ρ i).isLocal = true) : ∀ vs : Variants, vs.isLocal = true → (vs.fill ρ).isLocal = true
  | .nil, hs => hs
  | .cons _ s vs, hs => by
    simp only [Variants.fill, Variants.isLocal, Bool.and_eq_true] at hs ⊢
    exact ⟨s.isLocal_fill h hs.1, vs.isLocal_fill h hs.2⟩
theorem Fields.isLocal_fill (h : ∀ i, (ρ i).isLocal = true) : ∀ fs : Fields, fs.isLocal = true → (fs.fill ρ).isLocal = true
  | .nil, hs => hs
  | .cons s fs, hs => by
    simp only [Fields.fill, Fields.isLocal, Bool.and_eq_true] at hs ⊢
    exact ⟨s.isLocal_fill h hs.1, fs.isLocal_fill h hs.2⟩
end

mutual
theorem Schema.textFree_fill (h : ∀ i, (ρ i).textFree = true) : ∀ s : Schema, s.textFree = true → (s.fill ρ).textFree = true
  | .unit, hs | .bool, hs | .int _, hs | .f64, hs | .rangedInt _ _ _, hs | .rangedFloat _ _, hs | .zarithN, hs
  | .zarithZ, hs | .bytes, hs | .vecU8, hs | .string, hs | .fixedBytes _, hs | .fixedString _, hs | .cstyle _ _, hs => hs
  | .hole i, _ => h i
  | .option s, hs | .nullable s, hs | .dynamic _ s, hs | .vpadded _ s, hs | .padded _ s, hs | .seq s, hs
  | .fixSeq _ s, hs | .limSeq _ s, hs | .autobox s, hs => s.textFree_fill h hs
  | .data _ vs, hs => vs.textFree_fill h hs
  | .record fs, hs => fs.textFree_fill h hs
theorem Variants.textFree_fill (h : ∀ i, (ρ i).textFree = true) : ∀ vs : Variants, vs.textFree = true → (vs.fill ρ).textFree = true
  | .nil, hs => hs
  | .cons _ s vs, hs => by
    simp only [Variants.fill, Variants.textFree, Bool.and_eq_true] at hs ⊢
    exact ⟨s.textFree_fill h hs.1, vs.textFree_fill h hs.2⟩
theorem Fields.textFree_fill (h : ∀ i, (ρ i).textFree = true) : ∀ fs : Fields, fs.textFree = true → (fs.fill ρ).textFree = true
  | .nil, hs => hs
  | .cons s fs, hs => by
    simp only [Fields.fill, Fields.textFree, Bool.and_eq_true] at hs ⊢
    exact ⟨s.textFree_fill h hs.1, fs.textFree_fill h hs.2⟩
end

mutual
theorem Schema.canonical_fill (cfg : Cfg) (h : ∀ i, (ρ i).canonical cfg = true) : ∀ s : Schema, s.canonical cfg = true →
    (s.fill ρ).canonical cfg = true
  | .unit, hs | .bool, hs | .int _, hs | .f64, hs | .rangedInt _ _ _, hs | .rangedFloat _ _, hs | .zarithN, hs
  | .zarithZ, hs | .bytes, hs | .vecU8, hs | .string, hs | .fixedBytes _, hs | .fixedString _, hs | .cstyle _ _, hs => hs
  | .hole i, _ => h i
  | .option s, hs | .nullable s, hs | .dynamic _ s, hs | .vpadded _ s, hs | .seq s, hs
  | .fixSeq _ s, hs | .limSeq _ s, hs | .autobox s, hs => s.canonical_fill cfg h hs
  | .padded n s, hs => by
    simp only [Schema.fill, Schema.canonical, Bool.and_eq_true] at hs ⊢
    exact ⟨hs.1, s.canonical_fill cfg h hs.2⟩
  | .data _ vs, hs => vs.canonical_fill cfg h hs
  | .record fs, hs => fs.canonical_fill cfg h hs
theorem Variants.canonical_fill (cfg : Cfg) (h : ∀ i, (ρ i).canonical cfg = true) : ∀ vs : Variants, vs.canonical cfg = true →
    (vs.fill ρ).canonical cfg = true
  | .nil, hs => hs
  | .cons _ s vs, hs => by
    simp only [Variants.fill, Variants.canonical, Bool.and_eq_true] at hs ⊢
    exact ⟨s.canonical_fill cfg h hs.1, vs.canonical_fill cfg h hs.2⟩
theorem Fields.canonical_fill (cfg : Cfg) (h : ∀ i, (ρ i).canonical cfg = true) : ∀ fs : Fields, fs.canonical cfg = true →
    (fs.fill ρ).canonical cfg = true
  | .nil, hs => hs
  | .cons s fs, hs => by
    simp only [Fields.fill, Fields.canonical, Bool.and_eq_true] at hs ⊢
    exact ⟨s.canonical_fill cfg h hs.1, fs.canonical_fill cfg h hs.2⟩
end

mutual
theorem Schema.tame_fill (p : Profile) (h : ∀ i, (ρ i).tame p = true) : ∀ s : Schema, s.tame p = true →
    (s.fill ρ).tame p = true
  | .unit, hs | .bool, hs | .int _, hs | .f64, hs | .rangedInt _ _ _, hs | .rangedFloat _ _, hs | .zarithN, hs
  | .zarithZ, hs | .bytes, hs | .vecU8, hs | .string, hs | .fixedBytes _, hs | .fixedString _, hs | .cstyle _ _, hs => hs
  | .hole i, _ => h i
  | .option s, hs | .nullable s, hs | .dynamic _ s, hs | .seq s, hs
  | .fixSeq _ s, hs | .limSeq _ s, hs | .autobox s, hs => s.tame_fill p h hs
  | .vpadded n s, hs => by
    simp only [Schema.fill, Schema.tame, Bool.and_eq_true] at hs ⊢
    exact ⟨hs.1, s.tame_fill p h hs.2⟩
  | .padded n s, hs => by
    simp only [Schema.fill, Schema.tame, Bool.and_eq_true] at hs ⊢
    exact ⟨hs.1, s.tame_fill p h hs.2⟩
  | .data _ vs, hs => vs.tame_fill p h hs
  | .record fs, hs => fs.tame_fill p h hs
theorem Variants.tame_fill (p : Profile) (h : ∀ i, (ρ i).tame p = true) : ∀ vs : Variants, vs.tame p = true →
    (vs.fill ρ).tame p = true
  | .nil, hs => hs
  | .cons _ s vs, hs => by
    simp only [Variants.fill, Variants.tame, Bool.and_eq_true] at hs ⊢
    exact ⟨s.tame_fill p h hs.1, vs.tame_fill p h hs.2⟩
theorem Fields.tame_fill (p : Profile) (h : ∀ i, (ρ i).tame p = true) : ∀ fs : Fields, fs.tame p = true →
    (fs.fill ρ).tame p = true
  | .nil, hs => hs
  | .cons s fs, hs => by
    simp only [Fields.fill, Fields.tame, Bool.and_eq_true] at hs ⊢
    exact ⟨s.tame_fill p h hs.1, fs.tame_fill p h hs.2⟩
end

mutual
theorem Schema.sized_fill (h : ∀ i, (ρ i).sized = true) : ∀ s : Schema, s.sized = true →
    (s.fill ρ).sized = true
  | .unit, hs | .bool, hs | .int _, hs | .f64, hs | .rangedInt _ _ _, hs | .rangedFloat _ _, hs | .zarithN, hs
  | .zarithZ, hs | .bytes, hs | .vecU8, hs | .string, hs | .fixedBytes _, hs | .fixedString _, hs | .cstyle _ _, hs => hs
  | .hole i, _ => h i
  | .option s, hs | .nullable s, hs | .dynamic _ s, hs | .seq s, hs
  | .fixSeq _ s, hs | .limSeq _ s, hs | .autobox s, hs => s.sized_fill h hs
  | .vpadded n s, hs => by
    simp only [Schema.fill, Schema.sized, Bool.and_eq_true] at hs ⊢
    exact ⟨hs.1, s.sized_fill h hs.2⟩
  | .padded n s, hs => by
    simp only [Schema.fill, Schema.sized, Bool.and_eq_true] at hs ⊢
    exact ⟨hs.1, s.sized_fill h hs.2⟩
  | .data _ vs, hs => vs.sized_fill h hs
  | .record fs, hs => fs.sized_fill h hs
theorem Variants.sized_fill (h : ∀ i, (ρ i).sized = true) : ∀ vs : Variants, vs.sized = true →
    (vs.fill ρ).sized = true
  | .nil, hs => hs
  | .cons _ s vs, hs => by
    simp only [Variants.fill, Variants.sized, Bool.and_eq_true] at hs ⊢
    exact ⟨s.sized_fill h hs.1, vs.sized_fill h hs.2⟩
theorem Fields.sized_fill (h : ∀ i, (ρ i).sized = true) : ∀ fs : Fields, fs.sized = true →
    (fs.fill ρ).sized = true
  | .nil, hs => hs
  | .cons s fs, hs => by
    simp only [Fields.fill, Fields.sized, Bool.and_eq_true] at hs ⊢
    exact ⟨s.sized_fill h hs.1, fs.sized_fill h hs.2⟩
end

mutual
theorem Schema.windowed_fill (h : ∀ i, (ρ i).windowed = false) : ∀ s : Schema, s.windowed = false →
    (s.fill ρ).windowed = false
  | .unit, hs | .bool, hs | .int _, hs | .f64, hs | .rangedInt _ _ _, hs | .rangedFloat _ _, hs | .zarithN, hs
  | .zarithZ, hs | .bytes, hs | .vecU8, hs | .string, hs | .fixedBytes _, hs | .fixedString _, hs | .cstyle _ _, hs
  | .dynamic _ _, hs => hs
  | .hole i, _ => h i
  | .option s, hs | .nullable s, hs | .seq s, hs | .vpadded _ s, hs | .padded _ s, hs
  | .fixSeq _ s, hs | .limSeq _ s, hs | .autobox s, hs => s.windowed_fill h hs
  | .data _ vs, hs => vs.windowed_fill h hs
  | .record fs, hs => fs.windowed_fill h hs
theorem Variants.windowed_fill (h : ∀ i, (ρ i).windowed = false) : ∀ vs : Variants, vs.windowed = false →
    (vs.fill ρ).windowed = false
  | .nil, hs => hs
  | .cons _ s vs, hs => by
    simp only [Variants.fill, Variants.windowed, Bool.or_eq_false_iff] at hs ⊢
    exact ⟨s.windowed_fill h hs.1, vs.windowed_fill h hs.2⟩
theorem Fields.windowed_fill (h : ∀ i, (ρ i).windowed = false) : ∀ fs : Fields, fs.windowed = false →
    (fs.fill ρ).windowed = false
  | .nil, hs => hs
  | .cons s fs, hs => by
    simp only [Fields.fill, Fields.windowed, Bool.or_eq_false_iff] at hs ⊢
    exact ⟨s.windowed_fill h hs.1, fs.windowed_fill h hs.2⟩
end

mutual
theorem Schema.plain_fill : ∀ s : Schema, s.plain = true → (s.fill ρ).textFree = true
  | .unit, _ | .bool, _ | .int _, _ | .f64, _ | .rangedInt _ _ _, _ | .rangedFloat _ _, _ | .zarithN, _
  | .zarithZ, _ | .bytes, _ | .vecU8, _ | .fixedBytes _, _ | .fixedString _, _ | .cstyle _ _, _ => rfl
  | .string, hs => by cases hs
  | .hole i, hs => by cases hs
  | .option s, hs | .nullable s, hs | .dynamic _ s, hs | .vpadded _ s, hs | .padded _ s, hs | .seq s, hs
  | .fixSeq _ s, hs | .limSeq _ s, hs | .autobox s, hs => s.plain_fill hs
  | .data _ vs, hs => vs.plain_fill hs
  | .record fs, hs => fs.plain_fill hs
theorem Variants.plain_fill : ∀ vs : Variants, vs.plain = true → (vs.fill ρ).textFree = true
  | .nil, _ => rfl
  | .cons _ s vs, hs => by
    simp only [Variants.fill, Variants.textFree, Variants.plain, Bool.and_eq_true] at hs ⊢
    exact ⟨s.plain_fill hs.1, vs.plain_fill hs.2⟩
theorem Fields.plain_fill : ∀ fs : Fields, fs.plain = true → (fs.fill ρ).textFree = true
  | .nil, _ => rfl
  | .cons s fs, hs => by
    simp only [Fields.fill, Fields.textFree, Fields.plain, Bool.and_eq_true] at hs ⊢
    exact ⟨s.plain_fill hs.1, fs.plain_fill hs.2⟩
end

mutual
theorem Schema.roomy_fill (L : Nat) (h : ∀ i, (ρ i).textLimit L = true) : ∀ s : Schema, s.roomy L = true →
    (s.fill ρ).textLimit L = true
  | .unit, _ | .bool, _ | .int _, _ | .f64, _ | .rangedInt _ _ _, _ | .rangedFloat _ _, _ | .zarithN, _
  | .zarithZ, _ | .bytes, _ | .vecU8, _ | .string, _ | .fixedBytes _, _ | .fixedString _, _ | .cstyle _ _, _ => rfl
  | .hole i, _ => h i
  | .dynamic S s, hs => by
    simp only [Schema.fill, Schema.textLimit, Schema.roomy, Bool.or_eq_true, Bool.and_eq_true] at hs ⊢
    exact hs.imp (s.plain_fill) fun h' => ⟨h'.1, s.roomy_fill L h h'.2⟩
  | .option s, hs | .nullable s, hs | .vpadded _ s, hs | .padded _ s, hs | .seq s, hs
  | .fixSeq _ s, hs | .limSeq _ s, hs | .autobox s, hs => s.roomy_fill L h hs
  | .data _ vs, hs => vs.roomy_fill L h hs
  | .record fs, hs => fs.roomy_fill L h hs
theorem Variants.roomy_fill (L : Nat) (h : ∀ i, (ρ i).textLimit L = true) : ∀ vs : Variants, vs.roomy L = true →
    (vs.fill ρ).textLimit L = true
  | .nil, _ => rfl
  | .cons _ s vs, hs => by
    simp only [Variants.fill, Variants.textLimit, Variants.roomy, Bool.and_eq_true] at hs ⊢
    exact ⟨s.roomy_fill L h hs.1, vs.roomy_fill L h hs.2⟩
theorem Fields.roomy_fill (L : Nat) (h : ∀ i, (ρ i).textLimit L = true) : ∀ fs : Fields, fs.roomy L = true →
    (fs.fill ρ).textLimit L = true
  | .nil, _ => rfl
  | .cons s fs, hs => by
    simp only [Fields.fill, Fields.textLimit, Fields.roomy, Bool.and_eq_true] at hs ⊢
    exact ⟨s.roomy_fill L h hs.1, fs.roomy_fill L h hs.2⟩
end
end

/-! ### static properties of unfoldings -/

namespace Decls

variable (d : Decls)

theorem tagsOk (h : ∀ i, (d.body i).tagsOk) : ∀ n i, (d.unfold n i).tagsOk
  | 0, _ => trivial
  | n + 1, i => (d.body i).tagsOk_fill (tagsOk h n) (h i)

theorem isLocal (h : ∀ i, (d.body i).isLocal = true) : ∀ n i, (d.unfold n i).isLocal = true
  | 0, _ => rfl
  | n + 1, i => (d.body i).isLocal_fill (isLocal h n) (h i)

theorem textFree (h : ∀ i, (d.body i).textFree = true) : ∀ n i, (d.unfold n i).textFree = true
  | 0, _ => rfl
  | n + 1, i => (d.body i).textFree_fill (textFree h n) (h i)

theorem canonical (cfg : Cfg) (h : ∀ i, (d.body i).canonical cfg = true) : ∀ n i, (d.unfold n i).canonical cfg = true
  | 0, _ => rfl
  | n + 1, i => (d.body i).canonical_fill cfg (canonical cfg h n) (h i)

theorem tame (p : Profile) (h : ∀ i, (d.body i).tame p = true) : ∀ n i, (d.unfold n i).tame p = true
  | 0, _ => rfl
  | n + 1, i => (d.body i).tame_fill p (tame p h n) (h i)

theorem sized (h : ∀ i, (d.body i).sized = true) : ∀ n i, (d.unfold n i).sized = true
  | 0, _ => rfl
  | n + 1, i => (d.body i).sized_fill (sized h n) (h i)

theorem textLimit (L : Nat) (h : ∀ i, (d.body i).roomy L = true) : ∀ n i, (d.unfold n i).textLimit L = true
  | 0, _ => rfl
  | n + 1, i => (d.body i).roomy_fill L (textLimit L h n) (h i)

theorem windowed (h : ¬ d.Windowed) : ∀ n i, (d.unfold n i).windowed = false
  | 0, _ => rfl
  | n + 1, i => (d.body i).windowed_fill (windowed h n) (by
      cases hw : (d.body i).windowed with
      | false => rfl
      | true => exact absurd ⟨i, hw⟩ h)

theorem width : ∀ n i, (d.unfold n i).width = none
  | 0, _ => rfl
  | n + 1, i => by
    have h := (d.lift_sim ⟨.debug, false, false, false⟩ n i).known
    rw [Schema.known_eq, Schema.known_eq, width n i] at h
    exact h

theorem sig (h : d.Stable) : ∀ n i, (d.unfold (n + 1) i).tail = (d.body i).tail ∧
    (d.unfold (n + 1) i).width = (d.body i).width ∧ (d.unfold (n + 1) i).nonempty = (d.body i).nonempty
  | 0, i => by
    rw [unfold_one]
    exact ⟨rfl, rfl, rfl⟩
  | n + 1, i => by
    have hs := (d.body i).sig_fill (ρ := d.unfold (n + 1)) (ρ' := d.unfold 1) fun j => by
      rw [unfold_one]
      exact sig h n j
    refine ⟨hs.1.trans (h i).1, ?_, hs.2.2.trans (h i).2⟩
    rw [← unfold_one, width, width]

/-- Every unfolding that has values at all allows the same tail. -/
theorem tail (h : d.Stable) {i : Nat} {tl : Tail} (htl : (d.body i).tail = some tl) : ∀ {n : Nat},
    (d.unfold n i).Val → (d.unfold n i).tail = some tl
  | 0, x => nomatch x
  | n + 1, _ => (d.sig h n i).1.trans htl

theorem nonempty (h : d.Stable) {i : Nat} (hi : (d.body i).nonempty = true) : ∀ n, (d.unfold n i).nonempty = true
  | 0 => rfl
  | n + 1 => (d.sig h n i).2.2.trans hi

/-! ### values -/

theorem val_lift {i : Nat} (n : Nat) (x : (d.unfold n i).Val) : d.val (n + 1) (d.lift n i x) = d.val n x :=
  (Quot.sound (Step.step n x)).symm

theorem exists_val {i : Nat} (a : d.Val i) : ∃ n x, a = d.val n x := by
  obtain ⟨⟨n, x⟩, rfl⟩ := Quot.exists_rep a
  exact ⟨n, x, rfl⟩

end Decls

section
variable {ρ ρ' : Nat → Schema} {f : ∀ i, (ρ i).Val → (ρ' i).Val}
mutual
theorem Schema.mapFill_inj (h : ∀ i x y, f i x = f i y → x = y) : ∀ (s : Schema) (x y : (s.fill ρ).Val),
    s.mapFill f x = s.mapFill f y → x = y
  | .unit, _, _, e | .bool, _, _, e | .int _, _, _, e | .f64, _, _, e | .rangedInt _ _ _, _, _, e | .rangedFloat _ _, _, _, e
  | .zarithN, _, _, e | .zarithZ, _, _, e | .bytes, _, _, e | .vecU8, _, _, e | .string, _, _, e | .fixedBytes _, _, _, e
  | .fixedString _, _, _, e | .cstyle _ _, _, _, e => e
  | .hole i, x, y, e => h i x y e
  | .option s, x, y, e | .nullable s, x, y, e => by
    cases x <;> cases y
    · rfl
    · cases e
    · cases e
    · exact congrArg some (s.mapFill_inj h _ _ (Option.some.inj e))
  | .dynamic _ s, x, y, e | .vpadded _ s, x, y, e | .padded _ s, x, y, e | .autobox s, x, y, e => s.mapFill_inj h x y e
  | .seq s, x, y, e | .fixSeq _ s, x, y, e | .limSeq _ s, x, y, e =>
    List.map_inj_right (f := s.mapFill f) (fun a b => s.mapFill_inj h a b) |>.mp e
  | .data _ vs, x, y, e => vs.mapFill_inj h x y e
  | .record fs, x, y, e => fs.mapFill_inj h x y e
theorem Variants.mapFill_inj (h : ∀ i x y, f i x = f i y → x = y) : ∀ (vs : Variants) (x y : (vs.fill ρ).Val),
    vs.mapFill f x = vs.mapFill f y → x = y
  | .nil, x, _, _ => nomatch x
  | .cons _ s vs, x, y, e => by
    cases x <;> cases y
    · exact congrArg Sum.inl (s.mapFill_inj h _ _ (Sum.inl.inj e))
    · cases e
    · cases e
    · exact congrArg Sum.inr (vs.mapFill_inj h _ _ (Sum.inr.inj e))
theorem Fields.mapFill_inj (h : ∀ i x y, f i x = f i y → x = y) : ∀ (fs : Fields) (x y : (fs.fill ρ).Val),
    fs.mapFill f x = fs.mapFill f y → x = y
  | .nil, _, _, e => e
  | .cons s fs, x, y, e => by
    have e := Prod.mk.inj e
    exact Prod.ext (s.mapFill_inj h _ _ e.1) (fs.mapFill_inj h _ _ e.2)
end
end

namespace Decls

variable (d : Decls)

theorem lift_inj : ∀ n i x y, d.lift n i x = d.lift n i y → x = y
  | 0, _, x, _, _ => nomatch x
  | n + 1, i, x, y, e => (d.body i).mapFill_inj (lift_inj n) x y e

/-- The same value one unfolding further. -/
def next {i : Nat} (p : Σ n, (d.unfold n i).Val) : Σ n, (d.unfold n i).Val := ⟨p.1 + 1, d.lift p.1 i p.2⟩

theorem next_inj {i : Nat} {p q : Σ n, (d.unfold n i).Val} (h : d.next p = d.next q) : p = q := by
  obtain ⟨n, x⟩ := p
  obtain ⟨m, y⟩ := q
  have h1 : n = m := Nat.succ.inj (congrArg Sigma.fst h)
  subst h1
  exact congrArg (Sigma.mk n) (d.lift_inj n i x y (eq_of_heq (Sigma.mk.inj h).2))

def nextN {i : Nat} : Nat → (Σ n, (d.unfold n i).Val) → Σ n, (d.unfold n i).Val
  | 0, p => p
  | k + 1, p => d.next (nextN k p)

theorem nextN_fst {i : Nat} : ∀ k (p : Σ n, (d.unfold n i).Val), (d.nextN k p).1 = p.1 + k
  | 0, _ => rfl
  | k + 1, p => congrArg (· + 1) (nextN_fst k p)

theorem nextN_next {i : Nat} : ∀ k (p : Σ n, (d.unfold n i).Val), d.nextN k (d.next p) = d.next (d.nextN k p)
  | 0, _ => rfl
  | k + 1, p => congrArg d.next (nextN_next k p)

theorem nextN_inj {i : Nat} : ∀ k {p q : Σ n, (d.unfold n i).Val}, d.nextN k p = d.nextN k q → p = q
  | 0, _, _, h => h
  | k + 1, _, _, h => nextN_inj k (d.next_inj h)

/-- Values of unfoldings that give the same value are the same in some deeper unfolding. -/
theorem val_eq {i : Nat} {n m : Nat} {x : (d.unfold n i).Val} {y : (d.unfold m i).Val} (h : d.val n x = d.val m y) :
    ∃ a b, d.nextN a ⟨n, x⟩ = d.nextN b ⟨m, y⟩ := by
  let P : d.Val i → Prop := Quot.lift (fun q => ∃ a b, d.nextN a ⟨n, x⟩ = d.nextN b q) (by
    intro q q' hs
    cases hs with
    | step k z =>
      refine propext ⟨?_, ?_⟩
      · rintro ⟨a, b, e⟩
        refine ⟨a + 1, b, ?_⟩
        have : d.nextN b (d.next ⟨k, z⟩) = d.next (d.nextN b ⟨k, z⟩) := d.nextN_next b _
        exact (congrArg d.next e).trans this.symm
      · rintro ⟨a, b, e⟩
        exact ⟨a, b + 1, e.trans (d.nextN_next b (⟨k, z⟩ : Σ n, (d.unfold n i).Val))⟩)
  have h1 : P (d.val n x) := ⟨0, 0, rfl⟩
  rw [h] at h1
  exact h1

theorem val_inj {i n : Nat} {x y : (d.unfold n i).Val} (h : d.val n x = d.val n y) : x = y := by
  obtain ⟨a, b, e⟩ := d.val_eq h
  have h1 := congrArg Sigma.fst e
  rw [nextN_fst, nextN_fst] at h1
  have h2 : a = b := Nat.add_left_cancel h1
  subst h2
  exact eq_of_heq (Sigma.mk.inj (d.nextN_inj a e)).2

/-! ### parsing -/

theorem sim_val (cfg : Cfg) (i : Nat) : ∀ (k n : Nat) {σ : Type} (P : ParserOps σ) (s : σ),
    ((d.unfold n i).codec cfg).parse P s = .diverge ∨
      (d.val (n + k) <$> ((d.unfold (n + k) i).codec cfg).parse P) s = (d.val n <$> ((d.unfold n i).codec cfg).parse P) s
  | 0, _, _, _, _ => .inr rfl
  | k + 1, n, _, P, s => by
    rcases sim_val cfg i k n P s with h | h
    · exact .inl h
    · by_cases hd : ((d.unfold n i).codec cfg).parse P s = .diverge
      · exact .inl hd
      · refine .inr (Eq.trans ?_ h)
        rcases (d.lift_sim cfg (n + k) i).parse P s with h' | h'
        · exfalso
          rw [M.map_run, M.map_run, h'] at h
          apply hd
          revert h
          cases ((d.unfold n i).codec cfg).parse P s with
          | diverge => exact fun _ => rfl
          | _ => exact fun h => nomatch h
        · show (d.val (n + k + 1) <$> ((d.unfold (n + k + 1) i).codec cfg).parse P) s = _
          rw [M.map_run, M.map_run, h', M.map_run]
          cases ((d.unfold (n + k) i).codec cfg).parse P s with
          | ok a s' => exact congrArg (fun a => Out.ok a s') (d.val_lift (n + k) a)
          | _ => rfl

/-- The recursive parser does what an unfolding does that does not run out of code. -/
theorem parse_eq {cfg : Cfg} {i n : Nat} {σ : Type} {P : ParserOps σ} {s : σ}
    (h : ((d.unfold n i).codec cfg).parse P s ≠ .diverge) :
    (d.codec cfg i).parse P s = (d.val n <$> ((d.unfold n i).codec cfg).parse P) s := by
  have hex : ∃ n, ((d.unfold n i).codec cfg).parse P s ≠ .diverge := ⟨n, h⟩
  have e : (d.codec cfg i).parse P s = (d.val hex.choose <$> ((d.unfold hex.choose i).codec cfg).parse P) s := dif_pos hex
  rw [e]
  rcases Nat.le_total hex.choose n with hl | hl
  · have h' := d.sim_val cfg i (n - hex.choose) hex.choose P s
    rw [Nat.add_sub_cancel' hl] at h'
    exact (h'.resolve_left hex.choose_spec).symm
  · have h' := d.sim_val cfg i (hex.choose - n) n P s
    rw [Nat.add_sub_cancel' hl] at h'
    exact h'.resolve_left h

theorem parse_ok {cfg : Cfg} {i n : Nat} {σ : Type} {P : ParserOps σ} {s s' : σ} {x : (d.unfold n i).Val}
    (h : ((d.unfold n i).codec cfg).parse P s = .ok x s') : (d.codec cfg i).parse P s = .ok (d.val n x) s' := by
  rw [d.parse_eq (n := n) (by rw [h]; nofun), M.map_run, h]
  rfl

/-- Where the recursive parser returns, so does some unfolding. -/
theorem parse_inv {cfg : Cfg} {i : Nat} {σ : Type} {P : ParserOps σ} {s s' : σ} {a : d.Val i}
    (h : (d.codec cfg i).parse P s = .ok a s') :
    ∃ n x, a = d.val n x ∧ ((d.unfold n i).codec cfg).parse P s = .ok x s' := by
  by_cases hex : ∃ n, ((d.unfold n i).codec cfg).parse P s ≠ .diverge
  · obtain ⟨n, hn⟩ := hex
    rw [d.parse_eq hn, M.map_run] at h
    refine ⟨n, ?_⟩
    revert h
    cases ((d.unfold n i).codec cfg).parse P s with
    | ok x s'' => intro h; obtain ⟨h1, h2⟩ := Out.ok.inj h; subst h2; exact ⟨x, h1.symm, rfl⟩
    | _ => exact fun h => nomatch h
  · have e : (d.codec cfg i).parse P s = .diverge := dif_neg hex
    rw [e] at h
    cases h

end Decls

/-! ### totality -/

/-- Inputs of less than `L` bytes are decoded or rejected. -/
def TotalBelow {α : Type} (L : Nat) (d : D α) : Prop := ∀ v, v.length < L → Returns (d v)

theorem Total.below {α : Type} {d : D α} (h : Total d) (L : Nat) : TotalBelow L d := fun v _ => h v

theorem ReadsPrefix.le {α : Type} {d : D α} (h : ReadsPrefix d) {v r : Bytes} {a : α} (hd : d v = .ok a r) :
    r.length ≤ v.length := by
  obtain ⟨p, rfl⟩ := h v a r hd
  simp

namespace TotalBelow

variable {α β : Type} {L L' : Nat}

theorem mono {d : D α} (h : TotalBelow L d) (hl : L' ≤ L) : TotalBelow L' d := fun v hv => h v (by omega)

theorem bind_of {d : D α} {f : α → D β} (hd : TotalBelow L d)
    (hf : ∀ v a r, v.length < L → d v = .ok a r → Returns (f a r)) : TotalBelow L (d >>= f) := by
  intro v hv
  rcases hd v hv with ⟨a, r, h⟩ | ⟨e, h⟩
  · simp only [D.bind_run, h, DecRes.bind_ok]
    exact hf v a r hv h
  · exact .inr ⟨e, by simp [h]⟩

/-- What follows may see as much as the first part. -/
theorem bind {d : D α} {f : α → D β} (hd : TotalBelow L d) (hr : ReadsPrefix d) (hf : ∀ a, TotalBelow L (f a)) :
    TotalBelow L (d >>= f) :=
  bind_of hd fun _ a r hv h => hf a r (by have := hr.le h; omega)

/-- What follows sees less than the first part. -/
theorem bind_progress {d : D α} {f : α → D β} (hd : TotalBelow (L + 1) d) (hp : Progress d) (hf : ∀ a, TotalBelow L (f a)) :
    TotalBelow (L + 1) (d >>= f) :=
  bind_of hd fun v a r hv h => hf a r (by have := hp v a r h; omega)

theorem map {d : D α} (f : α → β) (hd : TotalBelow L d) : TotalBelow L (f <$> d) := by
  intro v hv
  rcases hd v hv with ⟨a, r, h⟩ | ⟨e, h⟩
  · exact .inl ⟨f a, r, by simp [h]⟩
  · exact .inr ⟨e, by simp [h]⟩

theorem ifEmpty {d e : D α} (hd : TotalBelow L d) (he : TotalBelow L e) : TotalBelow L (D.ifEmpty d e) := by
  intro v hv
  simp only [D.ifEmpty]
  split
  · exact hd _ hv
  · exact he _ hv

theorem ite {c : Prop} [Decidable c] {d e : D α} (hd : TotalBelow L d) (he : TotalBelow L e) :
    TotalBelow L (if c then d else e) := by
  split
  · exact hd
  · exact he

theorem window {n : Nat} (hn : n ≤ isizeMax + 1) {d : D α} (hd : TotalBelow L d) : TotalBelow L (D.window n d) := by
  intro v hv
  simp only [D.window]
  split
  · rcases hd (v.take n) (by rw [List.length_take]; omega) with ⟨a, r, h⟩ | ⟨e, h⟩
    · rw [h, DecRes.bind_ok]
      split
      · exact .inl ⟨_, _, rfl⟩
      · exact .inr ⟨_, rfl⟩
    · exact .inr ⟨e, by rw [h]; rfl⟩
  · exact .inr ⟨_, by simp only [D.short, if_pos hn]; rfl⟩

theorem many {d : D α} (hd : TotalBelow L d) (hp : Progress d) : TotalBelow L (fun v => D.many d v) := by
  intro v
  induction hl : v.length using Nat.strongRecOn generalizing v with
  | _ n ih =>
    intro hv
    simp only
    unfold D.many
    split
    · exact .inl ⟨_, _, rfl⟩
    · rcases hd v (by omega) with ⟨a, r, h⟩ | ⟨e, h⟩
      · have hlt := hp _ _ _ h
        simp only [h, if_pos hlt]
        rcases ih _ (hl ▸ hlt) r rfl (by omega) with ⟨as, r', h'⟩ | ⟨e, h'⟩
        · exact .inl ⟨_, _, by simp only at h'; rw [h']; rfl⟩
        · exact .inr ⟨_, by simp only at h'; rw [h']; rfl⟩
      · exact .inr ⟨e, by simp only [h]⟩

theorem manyMax (e : ParseError) {d : D α} (hd : TotalBelow L d) (hr : ReadsPrefix d) : ∀ k, TotalBelow L (D.manyMax e d k)
  | 0 => ifEmpty (Total.below (.pure _) L) (bind hd hr fun _ => Total.below (.throw _) L)
  | k + 1 => ifEmpty (Total.below (.pure _) L)
      (bind hd hr fun _ => bind (manyMax e hd hr k) (ReadsPrefix.manyMax e hr k) fun _ => Total.below (.pure _) L)

theorem upTo {d : D α} (hd : TotalBelow L d) (hr : ReadsPrefix d) : ∀ k, TotalBelow L (D.upTo d k)
  | 0 => Total.below (.pure _) L
  | k + 1 => ifEmpty (Total.below (.pure _) L)
      (bind hd hr fun _ => bind (upTo hd hr k) (ReadsPrefix.upTo hr k) fun _ => Total.below (.pure _) L)

end TotalBelow

/-- The number of bytes that may be read before recursion. -/
def depthBound (read : Bool) (L : Nat) : Nat := if read then L else L + 1

theorem depthBound_le (read : Bool) (L : Nat) : depthBound read L ≤ L + 1 := by
  cases read <;> simp [depthBound]

section
variable {ρ ρ' : Nat → Schema} {L : Nat}
mutual
theorem Schema.totalBelow (cfg : Cfg) (hn : ∀ i, (ρ i).nonempty = true → (ρ' i).nonempty = true)
    (ht : ∀ i, TotalBelow L ((ρ' i).dec cfg)) : ∀ (s : Schema) (read : Bool), s.guarded ρ read = true →
    TotalBelow (depthBound read L) ((s.fill ρ').dec cfg)
  | .unit, _, _ => Total.below .unit _
  | .bool, _, _ => Total.below .bool _
  | .int t, _, _ => Total.below (.int t) _
  | .f64, _, _ => Total.below .f64 _
  | .rangedInt t min max, _, _ => Total.below (.rangedInt t min max) _
  | .rangedFloat min max, _, _ => Total.below (.rangedFloat min max) _
  | .zarithN, _, _ => Total.below .zarithN _
  | .zarithZ, _, _ => Total.below .zarithZ _
  | .bytes, _, _ => Total.below .bytes _
  | .vecU8, _, _ => Total.below .bytes _
  | .string, _, _ => Total.below .string _
  | .fixedBytes n, _, h => Total.below (.byteArr (of_decide_eq_true h)) _
  | .fixedString n, _, h => Total.below (.byteArr (of_decide_eq_true h)) _
  | .cstyle w tags, _, _ => Total.below (.cstyle w tags) _
  | .option s, read, h => by
    have ih : TotalBelow L ((s.fill ρ').dec cfg) := s.totalBelow cfg hn ht true h
    exact .mono (.bind_progress (Total.below (.tag _ _) _) (.tag _ _) fun _ => .ite (.map _ ih) (Total.below (.pure _) _))
      (depthBound_le read L)
  | .nullable s, read, h => .ifEmpty (Total.below (.pure _) _) (.map _ (s.totalBelow cfg hn ht read h))
  | .dynamic S s, read, h => by
    have ih : TotalBelow L ((s.fill ρ').dec cfg) := s.totalBelow cfg hn ht true h
    refine .mono (.bind_of (L := L + 1) (Total.below (.lenPref S) _) fun v n r hv hd => ?_) (depthBound_le read L)
    refine TotalBelow.window (Nat.le_trans (Dec.lenPref_ok hd).1 S.maxLen_le) ih r ?_
    have := Progress.lenPref S v n r hd
    omega
  | .vpadded n s, _, h => by cases h
  | .padded n s, read, h => by
    simp only [Schema.guarded, Bool.and_eq_true] at h
    exact .bind (s.totalBelow cfg hn ht read h.2) ((s.fill ρ').readsPrefix cfg) fun _ => Total.below
      (.bind (.take (of_decide_eq_true h.1)) fun _ => .ite (.throw _) (.pure _)) _
  | .seq s, read, h => by
    simp only [Schema.guarded, Bool.and_eq_true] at h
    exact .many (s.totalBelow cfg hn ht read h.1) ((s.fill ρ').progress cfg (s.nonempty_fill hn h.2))
  | .fixSeq n s, read, h =>
    .bind (.upTo (s.totalBelow cfg hn ht read h) ((s.fill ρ').readsPrefix cfg) n)
      (ReadsPrefix.upTo ((s.fill ρ').readsPrefix cfg) n) fun _ => Total.below (.ite (.pure _) (.throw _)) _
  | .limSeq n s, read, h => .manyMax _ (s.totalBelow cfg hn ht read h) ((s.fill ρ').readsPrefix cfg) n
  | .autobox s, read, h => s.totalBelow cfg hn ht read h
  | .hole i, read, h => by
    have h : read = true := h
    subst h
    exact ht i
  | .data w vs, read, h => by
    have ih := vs.totalBelow cfg hn ht true h
    refine .mono (.bind_of (L := L + 1) (Total.below (.tag w _) _) fun v t r hv hd => ?_) (depthBound_le read L)
    refine ih t (Dec.tag_mem hd).1 r ?_
    have := Progress.tag w _ v t r hd
    show r.length < L
    omega
  | .record fs, read, h => fs.totalBelow cfg hn ht read h
theorem Variants.totalBelow (cfg : Cfg) (hn : ∀ i, (ρ i).nonempty = true → (ρ' i).nonempty = true)
    (ht : ∀ i, TotalBelow L ((ρ' i).dec cfg)) : ∀ (vs : Variants) (read : Bool), vs.guarded ρ read = true →
    ∀ t ∈ (vs.fill ρ').tags, TotalBelow (depthBound read L) ((vs.fill ρ').dec cfg t)
  | .nil, _, _, _, h => nomatch h
  | .cons tag s vs, read, h, t, hm => by
    simp only [Variants.guarded, Bool.and_eq_true] at h
    show TotalBelow _ (Dec.vcons tag _ _ t)
    unfold Dec.vcons
    split
    · exact .map _ (s.totalBelow cfg hn ht read h.1)
    · rename_i hne
      have hm : t ∈ tag :: (vs.fill ρ').tags := hm
      exact .map _ (vs.totalBelow cfg hn ht read h.2 t (by simpa [hne] using hm))
theorem Fields.totalBelow (cfg : Cfg) (hn : ∀ i, (ρ i).nonempty = true → (ρ' i).nonempty = true)
    (ht : ∀ i, TotalBelow L ((ρ' i).dec cfg)) : ∀ (fs : Fields) (read : Bool), fs.guarded ρ read = true →
    TotalBelow (depthBound read L) ((fs.fill ρ').dec cfg)
  | .nil, _, _ => Total.below .fnil _
  | .cons s fs, read, h => by
    simp only [Fields.guarded, Bool.and_eq_true] at h
    have ih1 := s.totalBelow cfg hn ht read h.1
    have ih2 := fs.totalBelow cfg hn ht _ h.2
    have hrest : ∀ a : (s.fill ρ').Val, ∀ L', TotalBelow L' ((fs.fill ρ').dec cfg) →
        TotalBelow L' (do let b ← (fs.fill ρ').dec cfg; pure (a, b)) := fun a L' h' =>
      .bind h' ((fs.fill ρ').readsPrefix cfg) fun _ => Total.below (.pure _) _
    cases read with
    | true =>
      rw [Bool.true_or] at ih2
      exact .bind ih1 ((s.fill ρ').readsPrefix cfg) fun a => hrest a _ ih2
    | false =>
      rw [Bool.false_or] at ih2
      cases hs : (s.fill ρ).nonempty with
      | false =>
        rw [hs] at ih2
        exact .bind ih1 ((s.fill ρ').readsPrefix cfg) fun a => hrest a _ ih2
      | true =>
        rw [hs] at ih2
        exact .bind_progress ih1 ((s.fill ρ').progress cfg (s.nonempty_fill hn hs)) fun a => hrest a _ ih2
end
end

/-- Inputs shorter than the number of unfoldings are decoded or rejected. -/
theorem Decls.totalBelow (d : Decls) (cfg : Cfg) (hs : d.Stable) (hg : d.Guarded) : ∀ n i,
    TotalBelow n ((d.unfold n i).dec cfg)
  | 0, _ => fun _ h => absurd h (Nat.not_lt_zero _)
  | n + 1, i => (d.body i).totalBelow cfg (ρ' := d.unfold n) (fun _ hj => d.nonempty hs hj n)
      (d.totalBelow cfg hs hg n) false (hg i)

end Verif
