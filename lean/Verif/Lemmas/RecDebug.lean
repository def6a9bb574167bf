import Verif.RecDebug
import Verif.Lemmas.Printing
import Verif.Lemmas.RecCompare
/-
Printing values of recursive types.
-/
namespace Verif

section
variable {cfg cfg' : Cfg} {W : Printing} {ρ : Nat → Schema} {p p' : ∀ i, (ρ i).Val → Option Text}

theorem Schema.armTextsIn_none (cfg : Cfg) (W : Printing) (p : ∀ i, (ρ i).Val → Option Text) (s : Schema) (y : (s.fill ρ).Val) :
    s.armTextsIn cfg W p y = none ↔ s.debugIn cfg W p y = none := by
  cases s
  case record fs =>
    show fs.debugIn cfg W p y = none ↔ Option.map _ (fs.debugIn cfg W p y) = none
    exact Option.map_eq_none_iff.symm
  all_goals
    show Option.map (fun t => [t]) (Schema.debugIn cfg W p _ y) = none ↔ _
    exact Option.map_eq_none_iff

mutual
theorem Schema.debugIn_none (h : ∀ i x, p i x = none ↔ (ρ i).someDynamic (Unmeasured cfg) x) :
    ∀ (s : Schema) (x : (s.fill ρ).Val), s.debugIn cfg W p x = none ↔ (s.fill ρ).someDynamic (Unmeasured cfg) x
  | .unit, _ => ⟨fun h => (nomatch h), False.elim⟩
  | .bool, _ => ⟨fun h => (nomatch h), False.elim⟩
  | .int _, _ => ⟨fun h => (nomatch h), False.elim⟩
  | .f64, _ => ⟨fun h => (nomatch h), False.elim⟩
  | .rangedInt _ _ _, _ => ⟨fun h => (nomatch h), False.elim⟩
  | .rangedFloat _ _, _ => ⟨fun h => (nomatch h), False.elim⟩
  | .zarithN, _ => ⟨fun h => (nomatch h), False.elim⟩
  | .zarithZ, _ => ⟨fun h => (nomatch h), False.elim⟩
  | .bytes, _ => ⟨fun h => (nomatch h), False.elim⟩
  | .vecU8, _ => ⟨fun h => (nomatch h), False.elim⟩
  | .string, _ => ⟨fun h => (nomatch h), False.elim⟩
  | .fixedBytes _, _ => ⟨fun h => (nomatch h), False.elim⟩
  | .fixedString _, _ => ⟨fun h => (nomatch h), False.elim⟩
  | .cstyle _ _, _ => ⟨fun h => (nomatch h), False.elim⟩
  | .hole i, x => h i x
  | .option s, x => DebugOf.option_none.trans
      ⟨fun ⟨y, hy, e⟩ => ⟨y, hy, (s.debugIn_none h y).mp e⟩, fun ⟨y, hy, e⟩ => ⟨y, hy, (s.debugIn_none h y).mpr e⟩⟩
  | .nullable s, x => Option.map_eq_none_iff.trans (DebugOf.option_none.trans
      ⟨fun ⟨y, hy, e⟩ => ⟨y, hy, (s.debugIn_none h y).mp e⟩, fun ⟨y, hy, e⟩ => ⟨y, hy, (s.debugIn_none h y).mpr e⟩⟩)
  | .dynamic _ s, x => DebugOf.dynamic_none.trans (or_congr Iff.rfl (s.debugIn_none h x))
  | .vpadded _ s, x => s.debugIn_none h x
  | .padded _ s, x => Option.map_eq_none_iff.trans (s.debugIn_none h x)
  | .seq s, xs => Option.map_eq_none_iff.trans (DebugOf.list_none.trans
      ⟨fun ⟨y, hy, e⟩ => ⟨y, hy, (s.debugIn_none h y).mp e⟩, fun ⟨y, hy, e⟩ => ⟨y, hy, (s.debugIn_none h y).mpr e⟩⟩)
  | .fixSeq _ s, xs => Option.map_eq_none_iff.trans (DebugOf.list_none.trans
      ⟨fun ⟨y, hy, e⟩ => ⟨y, hy, (s.debugIn_none h y).mp e⟩, fun ⟨y, hy, e⟩ => ⟨y, hy, (s.debugIn_none h y).mpr e⟩⟩)
  | .limSeq _ s, xs => Option.map_eq_none_iff.trans (DebugOf.list_none.trans
      ⟨fun ⟨y, hy, e⟩ => ⟨y, hy, (s.debugIn_none h y).mp e⟩, fun ⟨y, hy, e⟩ => ⟨y, hy, (s.debugIn_none h y).mpr e⟩⟩)
  | .autobox s, x => s.debugIn_none h x
  | .data _ vs, x => Option.map_eq_none_iff.trans (vs.debugIn_none h vs 0 x)
  | .record fs, x => Option.map_eq_none_iff.trans (fs.debugIn_none h x)
theorem Variants.debugIn_none (h : ∀ i x, p i x = none ↔ (ρ i).someDynamic (Unmeasured cfg) x) :
    ∀ (vs whole : Variants) (i : Nat) (x : (vs.fill ρ).Val),
      vs.debugIn cfg W p whole i x = none ↔ (vs.fill ρ).someDynamic (Unmeasured cfg) x
  | .nil, _, _, x => nomatch x
  | .cons tag s vs, whole, i, .inl y => (congrArg (· = none) (Variants.debugIn_inl cfg W p tag s vs whole i y)).to_iff.trans <|
    Option.map_eq_none_iff.trans <| (s.armTextsIn_none cfg W p y).trans ((s.debugIn_none h y).trans
      ⟨fun e => .inl ⟨y, rfl, e⟩, fun e => by
        rcases e with ⟨z, e, e'⟩ | ⟨z, e, _⟩
        · cases e; exact e'
        · cases e⟩)
  | .cons tag s vs, whole, i, .inr y => (congrArg (· = none) (Variants.debugIn_inr cfg W p tag s vs whole i y)).to_iff.trans <|
    (vs.debugIn_none h whole (i + 1) y).trans
      ⟨fun e => .inr ⟨y, rfl, e⟩, fun e => by
        rcases e with ⟨z, e, _⟩ | ⟨z, e, e'⟩
        · cases e
        · cases e; exact e'⟩
theorem Fields.debugIn_none (h : ∀ i x, p i x = none ↔ (ρ i).someDynamic (Unmeasured cfg) x) :
    ∀ (fs : Fields) (x : (fs.fill ρ).Val), fs.debugIn cfg W p x = none ↔ (fs.fill ρ).someDynamic (Unmeasured cfg) x
  | .nil, _ => ⟨fun h => (nomatch h), False.elim⟩
  | .cons s fs, (x, y) => by
    have h1 := s.debugIn_none h x
    have h2 := fs.debugIn_none h y
    show (match s.debugIn cfg W p x with
      | none => none
      | some t => (fs.debugIn cfg W p y).map (t :: ·)) = none ↔
      (s.fill ρ).someDynamic (Unmeasured cfg) x ∨ (fs.fill ρ).someDynamic (Unmeasured cfg) y
    rw [← h1, ← h2]
    cases s.debugIn cfg W p x <;> simp
end

mutual
/-- The text does not depend on the build where length estimates are right. -/
theorem Schema.debugIn_builds (h0 : ∀ i x, (ρ i).Valid x → (ρ i).PrefixOk x → (∃ b, (ρ i).wire x = some b) → p i x = p' i x) :
    ∀ (s : Schema) (x : (s.fill ρ).Val), (s.fill ρ).Valid x → (s.fill ρ).PrefixOk x → (∃ b, (s.fill ρ).wire x = some b) →
      s.debugIn cfg W p x = s.debugIn cfg' W p' x
  | .unit, _, _, _, _ => rfl
  | .bool, _, _, _, _ => rfl
  | .int _, _, _, _, _ => rfl
  | .f64, _, _, _, _ => rfl
  | .rangedInt _ _ _, _, _, _, _ => rfl
  | .rangedFloat _ _, _, _, _, _ => rfl
  | .zarithN, _, _, _, _ => rfl
  | .zarithZ, _, _, _, _ => rfl
  | .bytes, _, _, _, _ => rfl
  | .vecU8, _, _, _, _ => rfl
  | .string, _, _, _, _ => rfl
  | .fixedBytes _, _, _, _, _ => rfl
  | .fixedString _, _, _, _, _ => rfl
  | .cstyle _ _, _, _, _, _ => rfl
  | .hole i, x, hv, he, h => h0 i x hv he h
  | .option s, x, hv, he, ⟨b, h⟩ => by
    match x, hv, he, h with
    | none, _, _, _ => rfl
    | some y, hv, he, h =>
      exact congrArg (Option.map _) (s.debugIn_builds h0 y (hv y rfl) (he y rfl) (Enc.cat_some h).2)
  | .nullable s, x, hv, he, ⟨b, h⟩ => by
    match x, hv, he, h with
    | none, _, _, _ => rfl
    | some y, hv, he, h =>
      exact congrArg (fun t => (Option.map _ t).map _) (s.debugIn_builds h0 y (hv y rfl) (he y rfl) ⟨b, h⟩)
  | .dynamic S s, x, hv, he, ⟨b, h⟩ => by
    have hw : ∃ c, (s.fill ρ).wire x = some c := by
      simp only [Schema.fill, Schema.wire, Enc.dynamic] at h
      split at h
      · cases h
      · split at h
        · exact (Enc.cat_some h).2
        · cases h
    have ih := s.debugIn_builds h0 x hv (Schema.EstOk.prefixOk he) hw
    obtain ⟨c, hc⟩ := hw
    have hl : ∀ cfg, ((s.fill ρ).codec cfg).encLen cfg x = some c.length := fun cfg => (s.fill ρ).encLen_estOk cfg x c hv he hc
    show DebugOf.dynamic S _ _ = DebugOf.dynamic S _ _
    exact congr (congrArg (DebugOf.dynamic S) ((hl cfg).trans (hl cfg').symm)) ih
  | .vpadded _ s, x, hv, he, h => s.debugIn_builds h0 x hv he h
  | .padded n s, x, hv, he, ⟨b, h⟩ =>
    congrArg (Option.map _) (s.debugIn_builds h0 x hv he (Enc.cat_some h).1)
  | .seq s, x, hv, he, ⟨b, h⟩ => congrArg (Option.map _) (DebugOf.list_congr fun y hy =>
      s.debugIn_builds h0 y (hv y hy) (he y hy) (Enc.list_some h y hy))
  | .fixSeq _ s, x, hv, he, ⟨b, h⟩ => congrArg (Option.map _) (DebugOf.list_congr fun y hy =>
      s.debugIn_builds h0 y (hv.2 y hy) (he y hy) (Enc.list_some h y hy))
  | .limSeq _ s, x, hv, he, ⟨b, h⟩ => congrArg (Option.map _) (DebugOf.list_congr fun y hy =>
      s.debugIn_builds h0 y (hv.2 y hy) (he y hy) (Enc.list_some h y hy))
  | .autobox s, x, hv, he, h => s.debugIn_builds h0 x hv he h
  | .data w vs, x, hv, he, h => congrArg (Option.map _) (vs.debugIn_builds h0 vs 0 w x hv he h)
  | .record fs, x, hv, he, h => congrArg (Option.map _) (fs.debugIn_builds h0 x hv he h)
theorem Variants.debugIn_builds (h0 : ∀ i x, (ρ i).Valid x → (ρ i).PrefixOk x → (∃ b, (ρ i).wire x = some b) → p i x = p' i x) :
    ∀ (vs whole : Variants) (i : Nat) (w : TagWidth) (x : (vs.fill ρ).Val), (vs.fill ρ).Valid x → (vs.fill ρ).PrefixOk x →
      (∃ b, (vs.fill ρ).wire w x = some b) → vs.debugIn cfg W p whole i x = vs.debugIn cfg' W p' whole i x
  | .nil, _, _, _, x, _, _, _ => nomatch x
  | .cons tag s vs, whole, i, _, .inl x, hv, he, ⟨_, h⟩ => by
    refine (Variants.debugIn_inl cfg W p tag s vs whole i x).trans (.trans ?_ (Variants.debugIn_inl cfg' W p' tag s vs whole i x).symm)
    refine congrArg (Option.map _) ?_
    cases s
    case record fs => exact fs.debugIn_builds h0 x hv he (Enc.cat_some h).2
    all_goals exact congrArg (Option.map fun t => [t]) (Schema.debugIn_builds h0 _ x hv he (Enc.cat_some h).2)
  | .cons tag s vs, whole, i, w, .inr x, hv, he, h => by
    refine (Variants.debugIn_inr cfg W p tag s vs whole i x).trans (.trans ?_ (Variants.debugIn_inr cfg' W p' tag s vs whole i x).symm)
    exact vs.debugIn_builds h0 whole (i + 1) w x hv he h
theorem Fields.debugIn_builds (h0 : ∀ i x, (ρ i).Valid x → (ρ i).PrefixOk x → (∃ b, (ρ i).wire x = some b) → p i x = p' i x) :
    ∀ (fs : Fields) (x : (fs.fill ρ).Val), (fs.fill ρ).Valid x → (fs.fill ρ).PrefixOk x → (∃ b, (fs.fill ρ).wire x = some b) →
      fs.debugIn cfg W p x = fs.debugIn cfg' W p' x
  | .nil, _, _, _, _ => rfl
  | .cons s fs, (x, y), hv, he, ⟨_, h⟩ => by
    have e1 := s.debugIn_builds h0 x hv.1 he.1 (Enc.cat_some h).1
    have e2 := fs.debugIn_builds h0 y hv.2 he.2 (Enc.cat_some h).2
    show (match s.debugIn cfg W p x with
      | none => none
      | some t => (fs.debugIn cfg W p y).map (t :: ·)) = _
    rw [e1, e2]
    rfl
end

mutual
theorem Schema.readableIn (hW : W.Proper) (h0 : ∀ i, Readable (p i)) :
    ∀ s : Schema, s.floatFree = true → Readable (s.debugIn cfg W p)
  | .unit, _ => {
      starts := fun x t ht => by cases ht; exact ⟨_, _, rfl, by decide⟩
      reads := fun x y tx ty u v hx hy hu hv e => by cases hx; cases hy; exact ⟨rfl, List.append_cancel_left e⟩ }
  | .bool, _ => Readable.word (α := Bool) (f := DebugOf.bool) (fun b => by cases b <;> exact ⟨by decide, by decide⟩)
      (fun x y h => by cases x <;> cases y <;> first | rfl | cases h)
  | .int t, _ => Readable.word (α := t.Val) (f := fun x => signed (t.toInt x)) (fun x => isName_signed _)
      (fun x y h => t.toInt_inj (signed_inj h))
  | .rangedInt t _ _, _ => Readable.tuple (α := t.Val) (f := fun x => some (signed (t.toInt x)))
      (.word (fun x => isName_signed _) (fun x y h => t.toInt_inj (signed_inj h))) 'R' (by decide) text! "angedInt"
  | .zarithN, _ => Readable.tuple (α := Nat) (f := fun x => some (decimal x))
      (.word isName_decimal (fun x y h => decimal_inj h)) 'ℕ' (by decide) []
  | .zarithZ, _ => Readable.tuple (α := Int) (f := fun x => some (signed x))
      (.word isName_signed (fun x y h => signed_inj h)) 'ℤ' (by decide) []
  | .bytes, _ => bytes_readable.tuple 'B' (by decide) text! "ytes"
  | .vecU8, _ => bytes_readable
  | .string, _ => {
      starts := fun x t ht => by
        obtain ⟨r, hr⟩ := hW.quote x
        cases ht
        exact ⟨_, _, hr, by decide⟩
      reads := fun x y tx ty u v hx hy hu hv e => by
        cases hx; cases hy
        exact hW.str _ _ _ _ e }
  | .fixedBytes n, _ => Readable.comap (α := ByteArr n) (bytes_readable.tuple 'F' (by decide) text! "ixedBytes") Subtype.val
      (fun _ _ h => Subtype.ext h)
  | .fixedString n, _ => Readable.comap (α := ByteArr n)
      (bytes_readable.around 'F' (by decide) text! "ixedString { contents: " text! " }" rfl (by simp)) Subtype.val
      (fun _ _ h => Subtype.ext h)
  | .option s, hf => Readable.option (s.readableIn hW h0 hf)
  | .nullable s, hf => (Readable.option (s.readableIn hW h0 hf)).tuple 'N' (by decide) text! "ullable"
  | .dynamic S s, hf => Readable.dynamic S (s.readableIn hW h0 hf)
  | .vpadded _ s, hf => s.readableIn hW h0 hf
  | .padded _ s, hf => (s.readableIn hW h0 hf).tuple 'P' (by decide) text! "added"
  | .seq s, hf => (Readable.list (s.readableIn hW h0 hf)).tuple 'S' (by decide) text! "equence"
  | .fixSeq _ s, hf => (Readable.list (s.readableIn hW h0 hf)).tuple 'F' (by decide) text! "ixSeq"
  | .limSeq _ s, hf => (Readable.list (s.readableIn hW h0 hf)).tuple 'L' (by decide) text! "imSeq"
  | .autobox s, hf => s.readableIn hW h0 hf
  | .hole i, _ => h0 i
  | .cstyle _ tags, _ => Readable.word (α := CEnum tags) (f := fun x => W.variant tags x.1) (fun x => hW.variant tags x.1)
      (fun x y h => Subtype.ext (hW.variant_ne tags x.1 y.1 x.2 y.2 h))
  | .data _ vs, hf => (vs.readableIn hW h0 vs 0 hf).data
  | .record fs, hf => (fs.readableIn hW h0 hf).record _ (hW.record fs)
theorem Variants.readableIn (hW : W.Proper) (h0 : ∀ i, Readable (p i)) : ∀ (vs whole : Variants) (i : Nat), vs.floatFree = true →
    VReadable (fun j => (W.arm whole j).name) i (vs.debugIn cfg W p whole i)
  | .nil, _, _, _ => { begins := fun x => (nomatch x), reads := fun x => (nomatch x) }
  | .cons tag s vs, whole, i, hf0 => by
    have hf := Bool.and_eq_true_iff.mp hf0
    have ih := vs.readableIn hW h0 whole (i + 1) hf.2
    have hs : ∃ n, FReadable n (s.armTextsIn cfg W p) := by
      have h1 := hf.1
      clear hf hf0
      cases s
      case record fs => exact ⟨_, fs.readableIn hW h0 h1⟩
      all_goals exact ⟨1, FReadable.single (Schema.readableIn hW h0 _ h1)⟩
    obtain ⟨n, hs⟩ := hs
    exact VReadable.cons (whole := W.arm whole) (hW.arm whole) (hW.arm_ne whole) hs ih _
      (Variants.debugIn_inl cfg W p tag s vs whole i) (Variants.debugIn_inr cfg W p tag s vs whole i)
theorem Fields.readableIn (hW : W.Proper) (h0 : ∀ i, Readable (p i)) : ∀ fs : Fields, fs.floatFree = true →
    FReadable fs.count (fs.debugIn cfg W p)
  | .nil, _ => FReadable.nil
  | .cons s fs, hf =>
    have hf := Bool.and_eq_true_iff.mp hf
    FReadable.cons (s.readableIn hW h0 hf.1) (fs.readableIn hW h0 hf.2)
end
end

namespace Decls
variable (d : Decls) (cfg : Cfg) (W : Printing)

theorem debug_val {i : Nat} (n : Nat) (x : (d.unfold n i).Val) : d.debug cfg W (d.val n x) = d.debugAt cfg W n i x := rfl

theorem debugAt_none : ∀ n i x, d.debugAt cfg W n i x = none ↔ (d.unfold n i).someDynamic (Unmeasured cfg) x
  | 0, _, x => nomatch x
  | n + 1, i, x => (d.body i).debugIn_none (fun j y => debugAt_none n j y) x

theorem debugAt_builds (cfg' : Cfg) : ∀ n i x, (d.unfold n i).Valid x → (d.unfold n i).PrefixOk x →
    (∃ b, (d.unfold n i).wire x = some b) → d.debugAt cfg W n i x = d.debugAt cfg' W n i x
  | 0, _, x, _, _, _ => nomatch x
  | n + 1, i, x, hv, he, h => (d.body i).debugIn_builds (fun j y => debugAt_builds cfg' n j y) x hv he h

theorem debugAt_readable (hW : W.Proper) (hf : ∀ j, (d.body j).floatFree = true) : ∀ n i, Readable (d.debugAt cfg W n i)
  | 0, _ => { starts := fun x => (nomatch x), reads := fun x => (nomatch x) }
  | n + 1, i => (d.body i).readableIn hW (debugAt_readable hW hf n) (hf i)

end Decls

end Verif
