import Verif.RecDefault
import Verif.Props.Default
import Verif.Props.Recursive
/-
C86 for recursive types: default values.
-/
namespace Verif.Props
open Codec

section
variable {ρ ρ' : Nat → Schema} {f : ∀ i, (ρ i).Val → (ρ' i).Val}

mutual
theorem default_fill (h : ∀ i x, (ρ i).default = some x → (ρ' i).default = some (f i x)) : ∀ (s : Schema) (x : (s.fill ρ).Val),
    (s.fill ρ).default = some x → (s.fill ρ').default = some (s.mapFill f x)
  | .unit, _, e | .bool, _, e | .int _, _, e | .f64, _, e | .rangedInt _ _ _, _, e | .rangedFloat _ _, _, e | .zarithN, _, e
  | .zarithZ, _, e | .bytes, _, e | .vecU8, _, e | .string, _, e | .fixedBytes _, _, e => e
  | .fixedString _, _, e | .cstyle _ _, _, e | .dynamic _ _, _, e | .data _ _, _, e => nomatch e
  | .option _, _, e | .nullable _, _, e | .seq _, _, e | .fixSeq _ _, _, e | .limSeq _ _, _, e => by cases e; rfl
  | .vpadded _ s, x, e | .padded _ s, x, e | .autobox s, x, e => default_fill h s x e
  | .hole i, x, e => h i x e
  | .record fs, x, e => defaults_fill h fs x e
theorem defaults_fill (h : ∀ i x, (ρ i).default = some x → (ρ' i).default = some (f i x)) : ∀ (fs : Fields) (x : (fs.fill ρ).Val),
    (fs.fill ρ).default = some x → (fs.fill ρ').default = some (fs.mapFill f x)
  | .nil, _, _ => rfl
  | .cons s fs, (x, y), e => by
    have e' : (Fields.cons (s.fill ρ) (fs.fill ρ)).default = some (x, y) := e
    unfold Fields.default at e'
    show (Fields.cons (s.fill ρ') (fs.fill ρ')).default = some (s.mapFill f x, fs.mapFill f y)
    split at e'
    · rename_i h1 h2
      cases e'
      unfold Fields.default
      rw [default_fill h s x h1, defaults_fill h fs y h2]
      rfl
    · cases e'
end
end

variable (d : Decls) {i : Nat}

theorem default_lift : ∀ n i x, (d.unfold n i).default = some x → (d.unfold (n + 1) i).default = some (d.lift n i x)
  | 0, _, _, h => nomatch h
  | n + 1, i, x, h => default_fill (default_lift n) (d.body i) x h

theorem default_add {n : Nat} {x : (d.unfold n i).Val} (h : (d.unfold n i).default = some x) : ∀ k,
    ∃ y, (d.unfold (n + k) i).default = some y ∧ d.val (n + k) y = d.val n x
  | 0 => ⟨x, h, rfl⟩
  | k + 1 => by
    obtain ⟨y, h1, h2⟩ := default_add h k
    exact ⟨_, default_lift d (n + k) i y h1, (d.val_lift (n + k) y).trans h2⟩

/-- C86: the default value of a recursive type is that of any unfolding that has one, whichever it is. -/
theorem C86_recursive_value (a : d.Val i) :
    d.default i = some a ↔ ∃ n x, (d.unfold n i).default = some x ∧ a = d.val n x := by
  have key : ∀ n x, (d.unfold n i).default = some x → d.default i = some (d.val n x) := by
    intro n x hx
    have h : ∃ n x, (d.unfold n i).default = some x := ⟨n, x, hx⟩
    refine (dif_pos h).trans (congrArg some ?_)
    obtain ⟨y, h1, h2⟩ := default_add d h.choose_spec.choose_spec n
    obtain ⟨z, h3, h4⟩ := default_add d hx h.choose
    rw [← h2, ← h4]
    have e : ∀ m m', m = m' → ∀ (y : (d.unfold m i).Val) (z : (d.unfold m' i).Val), (d.unfold m i).default = some y →
        (d.unfold m' i).default = some z → d.val m y = d.val m' z := by
      rintro m _ rfl y z hy hz
      rw [hy] at hz
      cases hz; rfl
    exact e _ _ (Nat.add_comm ..) y z h1 h3
  refine ⟨fun h => ?_, fun ⟨n, x, hx, e⟩ => by rw [e]; exact key n x hx⟩
  by_cases hx : ∃ n x, (d.unfold n i).default = some x
  · obtain ⟨n, x, hx⟩ := hx
    rw [key n x hx] at h
    cases h
    exact ⟨n, x, hx, rfl⟩
  · have e : d.default i = none := dif_neg hx
    rw [e] at h; cases h

/-- C86: the default value of a recursive type is encoded, and decoded back to the default value, by all parsers.  (With the
restrictions of `C86_round_trip_partial`.) -/
theorem C86_recursive_round_trip_partial (cfg : Cfg) (hcfg : cfg.encLenOverride = false) (n : Nat)
    (hd : (d.unfold n i).hasDefault = true) (ho : DefaultOk (d.unfold n i)) (hst : d.Stable) (ht : ∀ j, (d.body j).tagsOk)
    {tl : Tail} (htl : (d.body i).tail = some tl) :
    ∃ a b, d.default i = some a ∧ (d.codec cfg i).toBytes a = some b ∧
      ∀ rest, tl.Allows rest → (d.codec cfg i).Decodes cfg (b ++ rest) a rest := by
  obtain ⟨x, b, h1, h2, h3⟩ := default_exists (d.unfold n i) hd ho
  have h4 : (d.codec cfg i).toBytes (d.val n x) = some b := by rw [rec_toBytes, toBytes_wire (.inl hcfg), h3]
  exact ⟨d.val n x, b, (C86_recursive_value d _).mpr ⟨n, x, h1, rfl⟩, h4,
    fun rest hr => C52_round_trip_partial cfg d hst ht htl _ (.inl ⟨hcfg, n, x, rfl, h2⟩) b h4 rest hr⟩

/-- C86: if zero is in all ranges, the default value of a recursive type is encoded as zero bytes only. -/
theorem C86_recursive_zero (cfg : Cfg) (hcfg : cfg.encLenOverride = false) (hz : ∀ n, ZeroIn (d.unfold n i)) (a : d.Val i)
    (ha : d.default i = some a) (b : Bytes) (hb : (d.codec cfg i).toBytes a = some b) : ∀ c ∈ b, c = 0 := by
  obtain ⟨n, x, hx, rfl⟩ := (C86_recursive_value d a).mp ha
  exact C86_zero cfg hcfg (d.unfold n i) (hz n) x hx b hb

/-- C86: a type that asks for its own default value has none: computing it never ends. -/
theorem C86_recursive_endless : looping.default 0 = none := by
  refine dif_neg fun ⟨n, x, hx⟩ => ?_
  induction n with
  | zero => cases hx
  | succ n ih => exact ih x hx

/-- `U8Seq(0, None)` -/
example : u8Seq.default 0 = some (u8Seq.val 1 ((0 : BitVec 8), (none, ()))) :=
  (C86_recursive_value u8Seq _).mpr ⟨1, _, rfl, rfl⟩

/-- The hypotheses are met. -/
example : (u8Seq.unfold 1 0).hasDefault = true ∧ DefaultOk (u8Seq.unfold 1 0) ∧ ∀ n, ZeroIn (u8Seq.unfold n 0) := by
  refine ⟨rfl, ?_, fun n => ?_⟩
  · simp [u8Seq, Decls.unfold, Schema.fill, Fields.fill, DefaultOk, DefaultsOk]
  · cases n <;> simp [u8Seq, Decls.unfold, Schema.fill, Fields.fill, ZeroIn, ZerosIn]

end Verif.Props
