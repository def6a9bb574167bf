import Verif.Lemmas.Guards
import Verif.Props.RangeCheck
import Verif.Decode
import Verif.RecChecked
import Verif.Lemmas.PartsFill
import Verif.Lemmas.Unfold
/-
C63 for composite types: what the feature `invalid_range_checking` does to codecs that have ranged integers inside.
-/
namespace Verif.Props

open Codec

/-- A ranged integer is of a range that the documentation allows. -/
def SoundPart : (s : Schema) → s.Val → Prop
  | .rangedInt _ min max => fun _ => SoundRange min max
  | _ => fun _ => True

theorem checkedRangedInt_guarded (t : IntTy) (min max : Int) :
    Codec.Guarded (SoundPart (.rangedInt t min max)) (Codec.checkedRangedInt t min max) (Codec.rangedInt t min max) := by
  by_cases hs : SoundRange min max
  · rw [(C63_sound .debug t min max hs).2.2.2.2.2.2]
    exact .same _ fun _ => hs
  · have hu := (C63_unsound .debug t min max hs).1
    refine ⟨fun P => ⟨fun st => ?_, fun st a st' h => ?_⟩, fun x hx => absurd hx hs, fun x _ τ T w => (hu x).2.2.2.2.1 τ T w, rfl, rfl⟩
    · simp only [Codec.checkedRangedInt, Codec.rangedInt, M.bind_run]
      cases (Codec.int t).parse P st with
      | ok x st1 => simp only [Out.bind_ok, (hu x).1]; exact .inl rfl
      | _ => exact .inr rfl
    · refine ⟨fun hv => absurd hv hs, fun h => ?_⟩
      simp only [Codec.checkedRangedInt, M.bind_run] at h
      cases hp : (Codec.int t).parse P st with
      | ok x st1 => simp only [hp, Out.bind_ok, (hu x).1] at h; cases h
      | _ => rw [hp] at h; cases h

theorem guarded (cfg : Cfg) (s : Schema) : Codec.Guarded (s.eachPart SoundPart) (s.checkedCodec cfg) (s.codec cfg) :=
  s.filters cfg checkedRangedInt_guarded fun s x h => by
    cases s <;> first | trivial | exact absurd rfl (h _ _ _)

/-- C63, decoding any type, with any parser in any state: with the feature the outcome is the same, or a panic. -/
theorem C63_parse (cfg : Cfg) (s : Schema) {σ : Type} (P : ParserOps σ) (st : σ) :
    (s.checkedCodec cfg).parse P st = .panic ∨ (s.checkedCodec cfg).parse P st = (s.codec cfg).parse P st :=
  ((guarded cfg s).parse P).1 st

/-- C63: decoding a value panics exactly if an integer of an unsound range is inside. -/
theorem C63_values (cfg : Cfg) (s : Schema) {σ : Type} (P : ParserOps σ) (st st' : σ) (x : s.Val)
    (h : (s.codec cfg).parse P st = .ok x st') :
    (s.eachPart SoundPart x → (s.checkedCodec cfg).parse P st = .ok x st') ∧
    (¬ s.eachPart SoundPart x → (s.checkedCodec cfg).parse P st = .panic) := by
  have h1 := ((guarded cfg s).parse P).2 st x st' h
  refine ⟨h1.mp, fun hn => ?_⟩
  rcases C63_parse cfg s P st with h2 | h2
  · exact h2
  · exact absurd (h1.mpr (h2.trans h)) hn

/-- C63, encoding to any target: the same without such an integer inside, and a panic with one. -/
theorem C63_write (cfg : Cfg) (s : Schema) (x : s.Val) :
    (s.eachPart SoundPart x → (∀ {τ : Type} (T : TargetOps τ), (s.checkedCodec cfg).write T x = (s.codec cfg).write T x) ∧
      (s.checkedCodec cfg).toBytes x = (s.codec cfg).toBytes x) ∧
    (¬ s.eachPart SoundPart x → (∀ {τ : Type} (T : TargetOps τ) (t : τ), (s.checkedCodec cfg).write T x t = none) ∧
      (s.checkedCodec cfg).toBytes x = none) ∧
    (s.checkedCodec cfg).estimate x = (s.codec cfg).estimate x := by
  have h := guarded cfg s
  refine ⟨fun hx => ⟨fun T => h.good x hx T, ?_⟩, fun hx => ⟨fun T t => h.bad x hx T t, ?_⟩, h.estimate x⟩
  · unfold Codec.toBytes Codec.writeToVec; rw [h.good x hx]
  · unfold Codec.toBytes Codec.writeToVec; rw [h.bad x hx]

mutual
/-- All ranges that are mentioned in the type are allowed. -/
def SoundType : Schema → Prop
  | .rangedInt _ min max => SoundRange min max
  | .option s | .nullable s | .dynamic _ s | .vpadded _ s | .padded _ s | .seq s | .fixSeq _ s | .limSeq _ s | .autobox s => SoundType s
  | .data _ vs => SoundVariants vs
  | .record fs => SoundFields fs
  | .unit | .bool | .int _ | .f64 | .rangedFloat _ _ | .zarithN | .zarithZ | .bytes | .vecU8 | .string | .fixedBytes _
  | .fixedString _ | .hole _ | .cstyle _ _ => True
def SoundVariants : Variants → Prop
  | .nil => True
  | .cons _ s vs => SoundType s ∧ SoundVariants vs
def SoundFields : Fields → Prop
  | .nil => True
  | .cons s fs => SoundType s ∧ SoundFields fs
end

mutual
theorem checked_eq (cfg : Cfg) : ∀ s : Schema, SoundType s → s.checkedCodec cfg = s.codec cfg
  | .rangedInt t min max, h => (C63_sound .debug t min max h).2.2.2.2.2.2
  | .unit, _ | .bool, _ | .int _, _ | .f64, _ | .rangedFloat _ _, _ | .zarithN, _ | .zarithZ, _ | .bytes, _ | .vecU8, _ | .string, _
  | .fixedBytes _, _ | .fixedString _, _ | .hole _, _ | .cstyle _ _, _ => rfl
  | .option s, h => congrArg Codec.option (checked_eq cfg s h)
  | .nullable s, h => congrArg Codec.nullable (checked_eq cfg s h)
  | .dynamic S s, h => congrArg (Codec.dynamic cfg S) (checked_eq cfg s h)
  | .vpadded n s, h => congrArg (Codec.vpadded cfg n) (checked_eq cfg s h)
  | .padded n s, h => congrArg (Codec.padded cfg n) (checked_eq cfg s h)
  | .seq s, h => congrArg Codec.seq (checked_eq cfg s h)
  | .fixSeq n s, h => congrArg (Codec.fixSeq n) (checked_eq cfg s h)
  | .limSeq n s, h => congrArg (Codec.limSeq n) (checked_eq cfg s h)
  | .autobox s, h => congrArg Codec.autobox (checked_eq cfg s h)
  | .data w vs, h => congrArg (Codec.data w) (checkedVariants_eq cfg vs h)
  | .record fs, h => congrArg Codec.record (checkedFields_eq cfg fs h)
theorem checkedVariants_eq (cfg : Cfg) : ∀ vs : Variants, SoundVariants vs → vs.checkedCodec cfg = vs.codec cfg
  | .nil, _ => rfl
  | .cons tag s vs, h => congr (congrArg (VCodec.cons tag) (checked_eq cfg s h.1)) (checkedVariants_eq cfg vs h.2)
theorem checkedFields_eq (cfg : Cfg) : ∀ fs : Fields, SoundFields fs → fs.checkedCodec cfg = fs.codec cfg
  | .nil, _ => rfl
  | .cons s fs, h => congr (congrArg FCodec.cons (checked_eq cfg s h.1)) (checkedFields_eq cfg fs h.2)
end

/-- C63: if all ranges in the type are allowed, the feature changes nothing at all. -/
theorem C63_sound_types (cfg : Cfg) (s : Schema) (h : SoundType s) : s.checkedCodec cfg = s.codec cfg := checked_eq cfg s h

/-- The hypotheses are met, and not by all values: the unsound range is inside only if there is a second part. -/
example : let s : Schema := .record (.cons (.rangedInt .u8 3 9) (.cons (.option (.rangedInt .i32 0 (2 ^ 31 - 1))) .nil))
    SoundType (.record (.cons (.rangedInt .u8 3 9) .nil)) ∧ ¬ SoundType s ∧
    s.eachPart SoundPart ((5 : BitVec 8), none, ()) ∧ ¬ s.eachPart SoundPart ((5 : BitVec 8), some (7 : BitVec 32), ()) := by
  refine ⟨⟨by unfold SoundType SoundRange; omega, trivial⟩, fun h => ?_, ⟨trivial, ?_, ⟨trivial, nofun⟩, trivial⟩, fun h => ?_⟩
  · have : SoundRange 0 (2 ^ 31 - 1) := h.2.1
    unfold SoundRange at this; omega
  · show SoundRange 3 9
    unfold SoundRange; omega
  · have : SoundRange 0 (2 ^ 31 - 1) := h.2.2.1.2 _ rfl
    unfold SoundRange at this; omega

/-! ### recursive types -/

/-- The condition does not look into the recursive parts. -/
theorem soundPart_fill (ρ ρ' : Nat → Schema) (f : ∀ i, (ρ i).Val → (ρ' i).Val) (s : Schema) (hs : ∀ i, s ≠ .hole i)
    (x : (s.fill ρ).Val) : SoundPart (s.fill ρ') (s.mapFill f x) ↔ SoundPart (s.fill ρ) x := by
  cases s <;> first | exact Iff.rfl | exact absurd rfl (hs _)

theorem soundPart_val (d : Decls) {i n m : Nat} {x : (d.unfold n i).Val} {y : (d.unfold m i).Val} (h : d.val n x = d.val m y) :
    (d.unfold n i).eachPart SoundPart x ↔ (d.unfold m i).eachPart SoundPart y := by
  have hl := d.eachPart_lift soundPart_fill
  let F : d.Val i → Prop := Quot.lift (fun p => (d.unfold p.1 i).eachPart SoundPart p.2) fun _ _ h => by
    cases h with
    | step n x => exact propext (hl n i x).symm
  exact iff_of_eq (congrArg F h)

/-- C63 for recursive types, decoding with any parser in any state: with the feature the outcome is the same, or a panic. -/
theorem C63_recursive_parse (cfg : Cfg) (d : Decls) (i : Nat) {σ : Type} (P : ParserOps σ) (st : σ) :
    (d.checkedCodec cfg i).parse P st = .panic ∨ (d.checkedCodec cfg i).parse P st = (d.codec cfg i).parse P st := by
  by_cases hex : ∃ n, ((d.unfold n i).checkedCodec cfg).parse P st ≠ .diverge
  · have e : (d.checkedCodec cfg i).parse P st =
        (d.val hex.choose <$> ((d.unfold hex.choose i).checkedCodec cfg).parse P) st := dif_pos hex
    rw [e]
    rcases C63_parse cfg (d.unfold hex.choose i) P st with h | h
    · left; rw [M.map_run, h]; rfl
    · have hs := hex.choose_spec
      rw [h] at hs
      right
      rw [d.parse_eq hs, M.map_run, M.map_run, h]
  · have e : (d.checkedCodec cfg i).parse P st = .diverge := dif_neg hex
    right
    rw [e]
    have e' : (d.codec cfg i).parse P st = .diverge := dif_neg ?_
    · exact e'.symm
    rintro ⟨n, hn⟩
    rcases C63_parse cfg (d.unfold n i) P st with h | h
    · exact hex ⟨n, by rw [h]; nofun⟩
    · exact hex ⟨n, by rw [h]; exact hn⟩

theorem checked_sim_val (cfg : Cfg) (d : Decls) (i : Nat) : ∀ (k n : Nat) {σ : Type} (P : ParserOps σ) (s : σ),
    ((d.unfold n i).checkedCodec cfg).parse P s = .diverge ∨
      (d.val (n + k) <$> ((d.unfold (n + k) i).checkedCodec cfg).parse P) s =
        (d.val n <$> ((d.unfold n i).checkedCodec cfg).parse P) s
  | 0, _, _, _, _ => .inr rfl
  | k + 1, n, _, P, s => by
    rcases checked_sim_val cfg d i k n P s with h | h
    · exact .inl h
    · by_cases hd : ((d.unfold n i).checkedCodec cfg).parse P s = .diverge
      · exact .inl hd
      · refine .inr (Eq.trans ?_ h)
        rcases (d.lift_checkedSim cfg (n + k) i).parse P s with h' | h'
        · exfalso
          rw [M.map_run, M.map_run, h'] at h
          apply hd
          revert h
          cases ((d.unfold n i).checkedCodec cfg).parse P s with
          | diverge => exact fun _ => rfl
          | _ => exact fun h => nomatch h
        · show (d.val (n + k + 1) <$> ((d.unfold (n + k + 1) i).checkedCodec cfg).parse P) s = _
          rw [M.map_run, M.map_run, h', M.map_run]
          cases ((d.unfold (n + k) i).checkedCodec cfg).parse P s with
          | ok a s' => exact congrArg (fun a => Out.ok a s') (d.val_lift (n + k) a)
          | _ => rfl

/-- The recursive parser with the feature does what an unfolding does that does not run out of code. -/
theorem checked_parse_eq (cfg : Cfg) (d : Decls) {i n : Nat} {σ : Type} {P : ParserOps σ} {s : σ}
    (h : ((d.unfold n i).checkedCodec cfg).parse P s ≠ .diverge) :
    (d.checkedCodec cfg i).parse P s = (d.val n <$> ((d.unfold n i).checkedCodec cfg).parse P) s := by
  have hex : ∃ n, ((d.unfold n i).checkedCodec cfg).parse P s ≠ .diverge := ⟨n, h⟩
  have e : (d.checkedCodec cfg i).parse P s = (d.val hex.choose <$> ((d.unfold hex.choose i).checkedCodec cfg).parse P) s := dif_pos hex
  rw [e]
  rcases Nat.le_total hex.choose n with hl | hl
  · have h' := checked_sim_val cfg d i (n - hex.choose) hex.choose P s
    rw [Nat.add_sub_cancel' hl] at h'
    exact (h'.resolve_left hex.choose_spec).symm
  · have h' := checked_sim_val cfg d i (hex.choose - n) n P s
    rw [Nat.add_sub_cancel' hl] at h'
    exact h'.resolve_left h

/-- C63 for recursive types: decoding a value panics exactly if an integer of an unsound range is inside, at any depth. -/
theorem C63_recursive_values (cfg : Cfg) (d : Decls) (i : Nat) {σ : Type} (P : ParserOps σ) (st st' : σ) (n : Nat)
    (x : (d.unfold n i).Val) (h : (d.codec cfg i).parse P st = .ok (d.val n x) st') :
    ((d.unfold n i).eachPart SoundPart x → (d.checkedCodec cfg i).parse P st = .ok (d.val n x) st') ∧
    (¬ (d.unfold n i).eachPart SoundPart x → (d.checkedCodec cfg i).parse P st = .panic) := by
  obtain ⟨m, y, e, hp⟩ := d.parse_inv h
  have h1 := C63_values cfg (d.unfold m i) P st st' y hp
  rw [soundPart_val d e]
  refine ⟨fun hx => ?_, fun hx => ?_⟩
  · rw [checked_parse_eq cfg d (n := m) (by rw [h1.1 hx]; nofun), M.map_run, h1.1 hx, e]
    rfl
  · rw [checked_parse_eq cfg d (n := m) (by rw [h1.2 hx]; nofun), M.map_run, h1.2 hx]
    rfl

/-- C63 for recursive types, encoding to any target: the same without such an integer inside, and a panic with one. -/
theorem C63_recursive_write (cfg : Cfg) (d : Decls) (i n : Nat) (x : (d.unfold n i).Val) :
    ((d.unfold n i).eachPart SoundPart x →
      (∀ {τ : Type} (T : TargetOps τ), (d.checkedCodec cfg i).write T (d.val n x) = (d.codec cfg i).write T (d.val n x)) ∧
      (d.checkedCodec cfg i).toBytes (d.val n x) = (d.codec cfg i).toBytes (d.val n x)) ∧
    (¬ (d.unfold n i).eachPart SoundPart x →
      (∀ {τ : Type} (T : TargetOps τ) (t : τ), (d.checkedCodec cfg i).write T (d.val n x) t = none) ∧
      (d.checkedCodec cfg i).toBytes (d.val n x) = none) ∧
    (d.checkedCodec cfg i).estimate (d.val n x) = (d.codec cfg i).estimate (d.val n x) := by
  have h := guarded cfg (d.unfold n i)
  refine ⟨fun hx => ⟨fun T => h.good x hx T, ?_⟩, fun hx => ⟨fun T t => h.bad x hx T t, ?_⟩, ?_⟩
  · exact ((C63_write cfg (d.unfold n i) x).1 hx).2
  · exact ((C63_write cfg (d.unfold n i) x).2.1 hx).2
  · show ((d.unfold n i).checkedCodec cfg).unknown x = ((d.unfold n i).codec cfg).unknown x
    rw [h.unknown]

mutual
theorem soundType_fill {ρ : Nat → Schema} (h : ∀ i, SoundType (ρ i)) : ∀ s : Schema, SoundType s → SoundType (s.fill ρ)
  | .rangedInt _ _ _, hs => hs
  | .unit, _ | .bool, _ | .int _, _ | .f64, _ | .rangedFloat _ _, _ | .zarithN, _ | .zarithZ, _ | .bytes, _ | .vecU8, _ | .string, _
  | .fixedBytes _, _ | .fixedString _, _ | .cstyle _ _, _ => trivial
  | .hole i, _ => h i
  | .option s, hs | .nullable s, hs | .dynamic _ s, hs | .vpadded _ s, hs | .padded _ s, hs | .seq s, hs | .fixSeq _ s, hs
  | .limSeq _ s, hs | .autobox s, hs => soundType_fill (s := s) h hs
  | .data _ vs, hs => soundVariants_fill h vs hs
  | .record fs, hs => soundFields_fill h fs hs
theorem soundVariants_fill {ρ : Nat → Schema} (h : ∀ i, SoundType (ρ i)) : ∀ vs : Variants, SoundVariants vs → SoundVariants (vs.fill ρ)
  | .nil, _ => trivial
  | .cons _ s vs, hs => ⟨soundType_fill h s hs.1, soundVariants_fill h vs hs.2⟩
theorem soundFields_fill {ρ : Nat → Schema} (h : ∀ i, SoundType (ρ i)) : ∀ fs : Fields, SoundFields fs → SoundFields (fs.fill ρ)
  | .nil, _ => trivial
  | .cons s fs, hs => ⟨soundType_fill h s hs.1, soundFields_fill h fs hs.2⟩
end

theorem soundType_unfold (d : Decls) (h : ∀ j, SoundType (d.body j)) : ∀ n i, SoundType (d.unfold n i)
  | 0, _ => trivial
  | n + 1, i => soundType_fill (soundType_unfold d h n) (d.body i) (h i)

/-- C63 for recursive types: if all ranges in the definitions are allowed, the feature changes nothing at all. -/
theorem C63_recursive_sound_types (cfg : Cfg) (d : Decls) (h : ∀ j, SoundType (d.body j)) (i : Nat) :
    d.checkedCodec cfg i = d.codec cfg i := by
  have he : ∀ n, (d.unfold n i).checkedCodec cfg = (d.unfold n i).codec cfg := fun n => checked_eq cfg _ (soundType_unfold d h n i)
  have hw : ∀ {τ : Type} (T : TargetOps τ), (d.checkedCodec cfg i).write T = (d.codec cfg i).write T := fun T => funext fun a => by
    obtain ⟨n, x, rfl⟩ := d.exists_val a
    show ((d.unfold n i).checkedCodec cfg).write T x = ((d.unfold n i).codec cfg).write T x
    rw [he]
  have hu : (d.checkedCodec cfg i).unknown = (d.codec cfg i).unknown := funext fun a => by
    obtain ⟨n, x, rfl⟩ := d.exists_val a
    show ((d.unfold n i).checkedCodec cfg).unknown x = ((d.unfold n i).codec cfg).unknown x
    rw [he]
  have hp : ∀ {σ : Type} (P : ParserOps σ), (d.checkedCodec cfg i).parse P = (d.codec cfg i).parse P := fun P => funext fun st => by
    by_cases hex : ∃ n, ((d.unfold n i).codec cfg).parse P st ≠ .diverge
    · obtain ⟨n, hn⟩ := hex
      rw [d.parse_eq hn, checked_parse_eq cfg d (n := n) (by rw [he]; exact hn), he]
    · have e1 : (d.codec cfg i).parse P st = .diverge := dif_neg hex
      have e2 : (d.checkedCodec cfg i).parse P st = .diverge := dif_neg fun ⟨n, hn⟩ => hex ⟨n, by rw [← he]; exact hn⟩
      rw [e1, e2]
  have hk : (d.checkedCodec cfg i).known = (d.codec cfg i).known := rfl
  revert hw hu hp hk
  cases d.checkedCodec cfg i
  cases d.codec cfg i
  intro hw hu hp hk
  congr 1
  · funext τ T; exact hw T
  · funext σ P; exact hp P

/-- Cells that may hold a number of an unsound range, and may be followed by another cell. -/
def maybeCells : Decls where
  body _ := .record (.cons (.nullable (.rangedInt .i32 0 (2 ^ 31 - 1))) (.cons (.option (.hole 0)) .nil))
  unsized _ _ := rfl

/-- The hypotheses are met, and not by all values: the unsound range is inside only if the second cell holds a number. -/
example : ¬ SoundType (maybeCells.body 0) ∧
    (maybeCells.unfold 2 0).eachPart SoundPart (none, some (none, none, ()), ()) ∧
    ¬ (maybeCells.unfold 2 0).eachPart SoundPart (none, some (some (7 : BitVec 32), none, ()), ()) := by
  refine ⟨fun h => ?_, ⟨trivial, ⟨trivial, nofun⟩, ⟨trivial, fun y e => ?_⟩, trivial⟩, fun h => ?_⟩
  · have : SoundRange 0 (2 ^ 31 - 1) := h.1
    unfold SoundRange at this; omega
  · obtain rfl := Option.some.inj e
    exact ⟨trivial, ⟨trivial, nofun⟩, ⟨trivial, nofun⟩, trivial⟩
  · have : SoundRange 0 (2 ^ 31 - 1) := (h.2.2.1.2 _ rfl).2.1.2 _ rfl
    unfold SoundRange at this; omega

end Verif.Props
