import Verif.Debug
import Verif.Spec.Debug
import Verif.Lemmas.Schema
/-
Printing values.
-/
namespace Verif

namespace DebugOf

theorem map_single (f : List Text → Text) (o : Option Text) : (o.map fun t => [t]).map f = o.map fun t => f [t] := by
  cases o <;> rfl

theorem option_none {α : Type} {p : α → Option Text} {x : Option α} :
    option p x = none ↔ ∃ y, x = some y ∧ p y = none := by
  cases x <;> simp [option]

theorem each_none {α : Type} {p : α → Option Text} : ∀ {xs : List α}, each p xs = none ↔ ∃ y ∈ xs, p y = none
  | [] => by simp [each]
  | x :: xs => by
    have ih := each_none (p := p) (xs := xs)
    cases h : p x <;> simp [each, h, ih]

theorem list_none {α : Type} {p : α → Option Text} {xs : List α} : list p xs = none ↔ ∃ y ∈ xs, p y = none := by
  simp [list, each_none]

theorem dynamic_none {S : LenPref} {len : Option Nat} {t : Option Text} :
    dynamic S len t = none ↔ len = none ∨ t = none := by
  cases len <;> simp [dynamic]

theorem list_congr {α : Type} {p q : α → Option Text} : ∀ {xs : List α}, (∀ x ∈ xs, p x = q x) → list p xs = list q xs := by
  intro xs h
  have : each p xs = each q xs := by
    induction xs with
    | nil => rfl
    | cons x xs ih =>
      simp only [each, h x (List.mem_cons_self ..), ih fun y hy => h y (List.mem_cons_of_mem _ hy)]
  rw [list, this]; rfl

end DebugOf

/-- No encoding: the length cannot be determined. -/
def Unmeasured (cfg : Cfg) (s : Schema) (x : s.Val) : Prop := (s.codec cfg).encLen cfg x = none

/-- The texts of the fields of the struct of an arm. -/
noncomputable def Schema.armTexts (cfg : Cfg) (W : Printing) : (s : Schema) → s.Val → Option (List Text)
  | .record fs => fs.debug cfg W
  | s => fun y => (s.debug cfg W y).map ([·])

theorem Schema.armTexts_none (cfg : Cfg) (W : Printing) (s : Schema) (y : s.Val) :
    s.armTexts cfg W y = none ↔ s.debug cfg W y = none := by
  cases s
  case record fs =>
    show fs.debug cfg W y = none ↔ Option.map _ (fs.debug cfg W y) = none
    exact Option.map_eq_none_iff.symm
  all_goals
    show Option.map (fun t => [t]) (Schema.debug cfg W _ y) = none ↔ _
    exact Option.map_eq_none_iff

theorem Variants.debug_inl (cfg : Cfg) (W : Printing) (tag : Nat) (s : Schema) (vs whole : Variants) (i : Nat) (y : s.Val) :
    (Variants.cons tag s vs).debug cfg W whole i (.inl y : s.Val ⊕ vs.Val) =
      (s.armTexts cfg W y).map (DebugOf.struct (W.arm whole i)) := by
  cases s
  case record fs => rfl
  all_goals
    show Option.map (fun t => DebugOf.struct (W.arm whole i) [t]) (Schema.debug cfg W _ y) =
      Option.map _ (Option.map (fun t => [t]) (Schema.debug cfg W _ y))
    exact (DebugOf.map_single _ _).symm

theorem Variants.debug_inr (cfg : Cfg) (W : Printing) (tag : Nat) (s : Schema) (vs whole : Variants) (i : Nat) (y : vs.Val) :
    (Variants.cons tag s vs).debug cfg W whole i (.inr y : s.Val ⊕ vs.Val) = vs.debug cfg W whole (i + 1) y := by
  cases s <;> rfl

mutual
theorem Schema.debug_none (cfg : Cfg) (W : Printing) : ∀ (s : Schema) (x : s.Val),
    s.debug cfg W x = none ↔ s.someDynamic (Unmeasured cfg) x
  | .unit, _ => ⟨fun h => (nomatch h), False.elim⟩
  | .bool, _ => ⟨fun h => (nomatch h), False.elim⟩
  | .int _, _ => ⟨fun h => (nomatch h), False.elim⟩
  | .f64, _ => ⟨fun h => (nomatch h), False.elim⟩
  | .rangedInt _ _ _, _ => ⟨fun h => (nomatch h), False.elim⟩
  | .rangedFloat _ _, _ => ⟨fun h => (nomatch h), False.elim⟩
  | .zarithN, _ => ⟨fun h => (nomatch h), False.elim⟩
  | .zarithZ, _ => ⟨fun h => (nomatch h), False.elim⟩
  | .bytes, _ => ⟨fun h => (nomatch h), False.elim⟩
  | .vecU8, _ => ⟨fun h => (nomatch h), False.elim⟩
  | .string, _ => ⟨fun h => (nomatch h), False.elim⟩
  | .fixedBytes _, _ => ⟨fun h => (nomatch h), False.elim⟩
  | .fixedString _, _ => ⟨fun h => (nomatch h), False.elim⟩
  | .cstyle _ _, _ => ⟨fun h => (nomatch h), False.elim⟩
  | .hole _, x => nomatch x
  | .option s, x => DebugOf.option_none.trans
      ⟨fun ⟨y, h, e⟩ => ⟨y, h, (s.debug_none cfg W y).mp e⟩, fun ⟨y, h, e⟩ => ⟨y, h, (s.debug_none cfg W y).mpr e⟩⟩
  | .nullable s, x => Option.map_eq_none_iff.trans (DebugOf.option_none.trans
      ⟨fun ⟨y, h, e⟩ => ⟨y, h, (s.debug_none cfg W y).mp e⟩, fun ⟨y, h, e⟩ => ⟨y, h, (s.debug_none cfg W y).mpr e⟩⟩)
  | .dynamic _ s, x => DebugOf.dynamic_none.trans (or_congr Iff.rfl (s.debug_none cfg W x))
  | .vpadded _ s, x => s.debug_none cfg W x
  | .padded _ s, x => Option.map_eq_none_iff.trans (s.debug_none cfg W x)
  | .seq s, xs => Option.map_eq_none_iff.trans (DebugOf.list_none.trans
      ⟨fun ⟨y, h, e⟩ => ⟨y, h, (s.debug_none cfg W y).mp e⟩, fun ⟨y, h, e⟩ => ⟨y, h, (s.debug_none cfg W y).mpr e⟩⟩)
  | .fixSeq _ s, xs => Option.map_eq_none_iff.trans (DebugOf.list_none.trans
      ⟨fun ⟨y, h, e⟩ => ⟨y, h, (s.debug_none cfg W y).mp e⟩, fun ⟨y, h, e⟩ => ⟨y, h, (s.debug_none cfg W y).mpr e⟩⟩)
  | .limSeq _ s, xs => Option.map_eq_none_iff.trans (DebugOf.list_none.trans
      ⟨fun ⟨y, h, e⟩ => ⟨y, h, (s.debug_none cfg W y).mp e⟩, fun ⟨y, h, e⟩ => ⟨y, h, (s.debug_none cfg W y).mpr e⟩⟩)
  | .autobox s, x => s.debug_none cfg W x
  | .data _ vs, x => Option.map_eq_none_iff.trans (vs.debug_none cfg W vs 0 x)
  | .record fs, x => Option.map_eq_none_iff.trans (fs.debug_none cfg W x)
theorem Variants.debug_none (cfg : Cfg) (W : Printing) : ∀ (vs whole : Variants) (i : Nat) (x : vs.Val),
    vs.debug cfg W whole i x = none ↔ vs.someDynamic (Unmeasured cfg) x
  | .nil, _, _, x => nomatch x
  | .cons tag s vs, whole, i, .inl y => (congrArg (· = none) (Variants.debug_inl cfg W tag s vs whole i y)).to_iff.trans <|
    Option.map_eq_none_iff.trans <| (s.armTexts_none cfg W y).trans ((s.debug_none cfg W y).trans
      ⟨fun h => .inl ⟨y, rfl, h⟩, fun h => by
        rcases h with ⟨z, h, e⟩ | ⟨z, h, _⟩
        · cases h; exact e
        · cases h⟩)
  | .cons tag s vs, whole, i, .inr y => (congrArg (· = none) (Variants.debug_inr cfg W tag s vs whole i y)).to_iff.trans <|
    (vs.debug_none cfg W whole (i + 1) y).trans
      ⟨fun h => .inr ⟨y, rfl, h⟩, fun h => by
        rcases h with ⟨z, h, e⟩ | ⟨z, h, e⟩
        · cases h
        · cases h; exact e⟩
theorem Fields.debug_none (cfg : Cfg) (W : Printing) : ∀ (fs : Fields) (x : fs.Val),
    fs.debug cfg W x = none ↔ fs.someDynamic (Unmeasured cfg) x
  | .nil, _ => ⟨fun h => (nomatch h), False.elim⟩
  | .cons s fs, x => by
    have h1 := s.debug_none cfg W x.1
    have h2 := fs.debug_none cfg W x.2
    simp only [Fields.debug, Fields.someDynamic, ← h1, ← h2]
    cases s.debug cfg W x.1 <;> simp
end

theorem Enc.cat_some {a b : Option Bytes} {c : Bytes} (h : Enc.cat a b = some c) : (∃ x, a = some x) ∧ ∃ y, b = some y := by
  cases a <;> cases b <;> simp_all [Enc.cat]

theorem Enc.list_some {α : Type} {e : Enc α} : ∀ {xs : List α} {c : Bytes}, Enc.list e xs = some c →
    ∀ x ∈ xs, ∃ b, e x = some b
  | [], _, _ => by simp
  | x :: xs, c, h => by
    obtain ⟨h1, y, h2⟩ := Enc.cat_some h
    intro z hz
    rcases List.mem_cons.mp hz with rfl | hz
    · exact h1
    · exact Enc.list_some h2 z hz

mutual
/-- What is inside a value that can be encoded can be encoded. -/
theorem Schema.out_inside (cfg : Cfg) : ∀ (s : Schema) (x : s.Val), (∃ b, s.out cfg x = some b) →
    ¬s.someDynamic (fun t y => t.out cfg y = none) x
  | .unit, _, _ => id
  | .bool, _, _ => id
  | .int _, _, _ => id
  | .f64, _, _ => id
  | .rangedInt _ _ _, _, _ => id
  | .rangedFloat _ _, _, _ => id
  | .zarithN, _, _ => id
  | .zarithZ, _, _ => id
  | .bytes, _, _ => id
  | .vecU8, _, _ => id
  | .string, _, _ => id
  | .fixedBytes _, _, _ => id
  | .fixedString _, _, _ => id
  | .cstyle _ _, _, _ => id
  | .hole _, x, _ => nomatch x
  | .option s, x, ⟨b, h⟩ => fun ⟨y, e, hy⟩ => by
    subst e
    exact s.out_inside cfg y (Enc.cat_some h).2 hy
  | .nullable s, x, ⟨b, h⟩ => fun ⟨y, e, hy⟩ => by
    subst e
    exact s.out_inside cfg y ⟨b, h⟩ hy
  | .dynamic S s, x, ⟨b, h⟩ => by
    have : ∃ c, s.out cfg x = some c := by
      simp only [Schema.out, Enc.dynamic] at h
      split at h
      · cases h
      · split at h
        · exact (Enc.cat_some h).2
        · cases h
    rintro (hy | hy)
    · obtain ⟨c, hc⟩ := this
      rw [hc] at hy; cases hy
    · exact s.out_inside cfg x this hy
  | .vpadded _ s, x, h => s.out_inside cfg x h
  | .padded _ s, x, ⟨_, h⟩ => s.out_inside cfg x (Enc.cat_some h).1
  | .seq s, xs, ⟨_, h⟩ => fun ⟨y, hm, hy⟩ => s.out_inside cfg y (Enc.list_some h y hm) hy
  | .fixSeq _ s, xs, ⟨_, h⟩ => fun ⟨y, hm, hy⟩ => s.out_inside cfg y (Enc.list_some h y hm) hy
  | .limSeq _ s, xs, ⟨_, h⟩ => fun ⟨y, hm, hy⟩ => s.out_inside cfg y (Enc.list_some h y hm) hy
  | .autobox s, x, h => s.out_inside cfg x h
  | .data w vs, x, h => vs.out_inside cfg w x h
  | .record fs, x, h => fs.out_inside cfg x h
theorem Variants.out_inside (cfg : Cfg) : ∀ (vs : Variants) (w : TagWidth) (x : vs.Val), (∃ b, vs.out cfg w x = some b) →
    ¬vs.someDynamic (fun t y => t.out cfg y = none) x
  | .nil, _, x, _ => nomatch x
  | .cons _ s vs, w, .inl y, ⟨_, h⟩ => by
    rintro (⟨z, e, hz⟩ | ⟨z, e, _⟩)
    · cases e; exact s.out_inside cfg y (Enc.cat_some h).2 hz
    · cases e
  | .cons _ s vs, w, .inr y, h => by
    rintro (⟨z, e, _⟩ | ⟨z, e, hz⟩)
    · cases e
    · cases e; exact vs.out_inside cfg w y h hz
theorem Fields.out_inside (cfg : Cfg) : ∀ (fs : Fields) (x : fs.Val), (∃ b, fs.out cfg x = some b) →
    ¬fs.someDynamic (fun t y => t.out cfg y = none) x
  | .nil, _, _ => id
  | .cons s fs, x, ⟨_, h⟩ => by
    rintro (hz | hz)
    · exact s.out_inside cfg x.1 (Enc.cat_some h).1 hz
    · exact fs.out_inside cfg x.2 (Enc.cat_some h).2 hz
end

mutual
theorem Schema.someDynamic_mono {P Q : (s : Schema) → s.Val → Prop} (h : ∀ s x, P s x → Q s x) : ∀ (s : Schema) (x : s.Val),
    s.someDynamic P x → s.someDynamic Q x
  | .unit, _ => id
  | .bool, _ => id
  | .int _, _ => id
  | .f64, _ => id
  | .rangedInt _ _ _, _ => id
  | .rangedFloat _ _, _ => id
  | .zarithN, _ => id
  | .zarithZ, _ => id
  | .bytes, _ => id
  | .vecU8, _ => id
  | .string, _ => id
  | .fixedBytes _, _ => id
  | .fixedString _, _ => id
  | .cstyle _ _, _ => id
  | .hole _, x => nomatch x
  | .option s, _ => fun ⟨y, e, hy⟩ => ⟨y, e, s.someDynamic_mono h y hy⟩
  | .nullable s, _ => fun ⟨y, e, hy⟩ => ⟨y, e, s.someDynamic_mono h y hy⟩
  | .dynamic _ s, x => Or.imp (h s x) (s.someDynamic_mono h x)
  | .vpadded _ s, x => s.someDynamic_mono h x
  | .padded _ s, x => s.someDynamic_mono h x
  | .seq s, _ => fun ⟨y, e, hy⟩ => ⟨y, e, s.someDynamic_mono h y hy⟩
  | .fixSeq _ s, _ => fun ⟨y, e, hy⟩ => ⟨y, e, s.someDynamic_mono h y hy⟩
  | .limSeq _ s, _ => fun ⟨y, e, hy⟩ => ⟨y, e, s.someDynamic_mono h y hy⟩
  | .autobox s, x => s.someDynamic_mono h x
  | .data _ vs, x => vs.someDynamic_mono h x
  | .record fs, x => fs.someDynamic_mono h x
theorem Variants.someDynamic_mono {P Q : (s : Schema) → s.Val → Prop} (h : ∀ s x, P s x → Q s x) :
    ∀ (vs : Variants) (x : vs.Val), vs.someDynamic P x → vs.someDynamic Q x
  | .nil, x => nomatch x
  | .cons _ s vs, _ => Or.imp (fun ⟨y, e, hy⟩ => ⟨y, e, s.someDynamic_mono h y hy⟩)
      (fun ⟨y, e, hy⟩ => ⟨y, e, vs.someDynamic_mono h y hy⟩)
theorem Fields.someDynamic_mono {P Q : (s : Schema) → s.Val → Prop} (h : ∀ s x, P s x → Q s x) :
    ∀ (fs : Fields) (x : fs.Val), fs.someDynamic P x → fs.someDynamic Q x
  | .nil, _ => id
  | .cons s fs, x => Or.imp (s.someDynamic_mono h x.1) (fs.someDynamic_mono h x.2)
end

mutual
theorem Schema.someDynamic_false : ∀ (s : Schema) (x : s.Val), ¬s.someDynamic (fun _ _ => False) x
  | .unit, _ => id
  | .bool, _ => id
  | .int _, _ => id
  | .f64, _ => id
  | .rangedInt _ _ _, _ => id
  | .rangedFloat _ _, _ => id
  | .zarithN, _ => id
  | .zarithZ, _ => id
  | .bytes, _ => id
  | .vecU8, _ => id
  | .string, _ => id
  | .fixedBytes _, _ => id
  | .fixedString _, _ => id
  | .cstyle _ _, _ => id
  | .hole _, x => nomatch x
  | .option s, _ => fun ⟨y, _, hy⟩ => s.someDynamic_false y hy
  | .nullable s, _ => fun ⟨y, _, hy⟩ => s.someDynamic_false y hy
  | .dynamic _ s, x => fun h => h.elim id (s.someDynamic_false x)
  | .vpadded _ s, x => s.someDynamic_false x
  | .padded _ s, x => s.someDynamic_false x
  | .seq s, _ => fun ⟨y, _, hy⟩ => s.someDynamic_false y hy
  | .fixSeq _ s, _ => fun ⟨y, _, hy⟩ => s.someDynamic_false y hy
  | .limSeq _ s, _ => fun ⟨y, _, hy⟩ => s.someDynamic_false y hy
  | .autobox s, x => s.someDynamic_false x
  | .data _ vs, x => vs.someDynamic_false x
  | .record fs, x => fs.someDynamic_false x
theorem Variants.someDynamic_false : ∀ (vs : Variants) (x : vs.Val), ¬vs.someDynamic (fun _ _ => False) x
  | .nil, x => nomatch x
  | .cons _ s vs, _ => fun h => h.elim (fun ⟨y, _, hy⟩ => s.someDynamic_false y hy) (fun ⟨y, _, hy⟩ => vs.someDynamic_false y hy)
theorem Fields.someDynamic_false : ∀ (fs : Fields) (x : fs.Val), ¬fs.someDynamic (fun _ _ => False) x
  | .nil, _ => id
  | .cons s fs, x => fun h => h.elim (s.someDynamic_false x.1) (fs.someDynamic_false x.2)
end

theorem Schema.encLen_estOk (cfg : Cfg) (s : Schema) (x : s.Val) (c : Bytes) (hv : s.Valid x) (he : s.EstOk x)
    (hc : s.wire x = some c) : (s.codec cfg).encLen cfg x = some c.length := by
  rw [Codec.encLen_eq (s.writes_out cfg), Enc.lenOf, s.out_eq_of_estOk cfg x hv he, s.estimate_eq cfg x c hv he hc, hc]
  split <;> rfl

mutual
/-- The text does not depend on the build where length estimates are right. -/
theorem Schema.debug_builds (cfg cfg' : Cfg) (W : Printing) : ∀ (s : Schema) (x : s.Val), s.Valid x → s.PrefixOk x →
    (∃ b, s.wire x = some b) → s.debug cfg W x = s.debug cfg' W x
  | .unit, _, _, _, _ => rfl
  | .bool, _, _, _, _ => rfl
  | .int _, _, _, _, _ => rfl
  | .f64, _, _, _, _ => rfl
  | .rangedInt _ _ _, _, _, _, _ => rfl
  | .rangedFloat _ _, _, _, _, _ => rfl
  | .zarithN, _, _, _, _ => rfl
  | .zarithZ, _, _, _, _ => rfl
  | .bytes, _, _, _, _ => rfl
  | .vecU8, _, _, _, _ => rfl
  | .string, _, _, _, _ => rfl
  | .fixedBytes _, _, _, _, _ => rfl
  | .fixedString _, _, _, _, _ => rfl
  | .cstyle _ _, _, _, _, _ => rfl
  | .hole _, x, _, _, _ => nomatch x
  | .option s, x, hv, he, ⟨b, h⟩ => by
    match x, hv, he, h with
    | none, _, _, _ => rfl
    | some y, hv, he, h =>
      exact congrArg (Option.map _) (s.debug_builds cfg cfg' W y (hv y rfl) (he y rfl) (Enc.cat_some h).2)
  | .nullable s, x, hv, he, ⟨b, h⟩ => by
    match x, hv, he, h with
    | none, _, _, _ => rfl
    | some y, hv, he, h =>
      exact congrArg (fun t => (Option.map _ t).map _) (s.debug_builds cfg cfg' W y (hv y rfl) (he y rfl) ⟨b, h⟩)
  | .dynamic S s, x, hv, he, ⟨b, h⟩ => by
    have hw : ∃ c, s.wire x = some c := by
      simp only [Schema.wire, Enc.dynamic] at h
      split at h
      · cases h
      · split at h
        · exact (Enc.cat_some h).2
        · cases h
    have ih := s.debug_builds cfg cfg' W x hv he.prefixOk hw
    obtain ⟨c, hc⟩ := hw
    have hl : ∀ cfg, (s.codec cfg).encLen cfg x = some c.length := fun cfg => s.encLen_estOk cfg x c hv he hc
    simp only [Schema.debug, hl, ih]
  | .vpadded _ s, x, hv, he, h => s.debug_builds cfg cfg' W x hv he h
  | .padded n s, x, hv, he, ⟨b, h⟩ =>
    congrArg (Option.map _) (s.debug_builds cfg cfg' W x hv he (Enc.cat_some h).1)
  | .seq s, x, hv, he, ⟨b, h⟩ => congrArg (Option.map _) (DebugOf.list_congr fun y hy =>
      s.debug_builds cfg cfg' W y (hv y hy) (he y hy) (Enc.list_some h y hy))
  | .fixSeq _ s, x, hv, he, ⟨b, h⟩ => congrArg (Option.map _) (DebugOf.list_congr fun y hy =>
      s.debug_builds cfg cfg' W y (hv.2 y hy) (he y hy) (Enc.list_some h y hy))
  | .limSeq _ s, x, hv, he, ⟨b, h⟩ => congrArg (Option.map _) (DebugOf.list_congr fun y hy =>
      s.debug_builds cfg cfg' W y (hv.2 y hy) (he y hy) (Enc.list_some h y hy))
  | .autobox s, x, hv, he, h => s.debug_builds cfg cfg' W x hv he h
  | .data w vs, x, hv, he, h => congrArg (Option.map _) (vs.debug_builds cfg cfg' W vs 0 w x hv he h)
  | .record fs, x, hv, he, h => congrArg (Option.map _) (fs.debug_builds cfg cfg' W x hv he h)
theorem Variants.debug_builds (cfg cfg' : Cfg) (W : Printing) : ∀ (vs whole : Variants) (i : Nat) (w : TagWidth) (x : vs.Val),
    vs.Valid x → vs.PrefixOk x → (∃ b, vs.wire w x = some b) → vs.debug cfg W whole i x = vs.debug cfg' W whole i x
  | .nil, _, _, _, x, _, _, _ => nomatch x
  | .cons tag s vs, whole, i, _, .inl x, hv, he, ⟨_, h⟩ => by
    refine (Variants.debug_inl cfg W tag s vs whole i x).trans (.trans ?_ (Variants.debug_inl cfg' W tag s vs whole i x).symm)
    refine congrArg (Option.map _) ?_
    cases s
    case record fs => exact fs.debug_builds cfg cfg' W x hv he (Enc.cat_some h).2
    all_goals exact congrArg (Option.map fun t => [t]) (Schema.debug_builds cfg cfg' W _ x hv he (Enc.cat_some h).2)
  | .cons tag s vs, whole, i, w, .inr x, hv, he, h => by
    refine (Variants.debug_inr cfg W tag s vs whole i x).trans (.trans ?_ (Variants.debug_inr cfg' W tag s vs whole i x).symm)
    exact vs.debug_builds cfg cfg' W whole (i + 1) w x hv he h
theorem Fields.debug_builds (cfg cfg' : Cfg) (W : Printing) : ∀ (fs : Fields) (x : fs.Val), fs.Valid x → fs.PrefixOk x →
    (∃ b, fs.wire x = some b) → fs.debug cfg W x = fs.debug cfg' W x
  | .nil, _, _, _, _ => rfl
  | .cons s fs, x, hv, he, ⟨_, h⟩ => by
    have e1 := s.debug_builds cfg cfg' W x.1 hv.1 he.1 (Enc.cat_some h).1
    have e2 := fs.debug_builds cfg cfg' W x.2 hv.2 he.2 (Enc.cat_some h).2
    simp only [Fields.debug, e1, e2]
end

end Verif
