import Verif.Spec.Schema
import Verif.Refine.Codec
import Verif.Lemmas.Reencode
import Verif.Lemmas.Estimate
/-
Laws of schema types, by induction over schemas.
-/
namespace Verif

/-! ### the codec reads the wire format -/

theorem Variants.codec_tags (cfg : Cfg) : ∀ vs : Variants, (vs.codec cfg).tags = vs.tags
  | .nil => rfl
  | .cons tag _ vs => congrArg (tag :: ·) (Variants.codec_tags cfg vs)

mutual
theorem Schema.parses (cfg : Cfg) : ∀ s : Schema, (s.codec cfg).Parses (s.windowed = true) (s.dec cfg)
  | .unit => Codec.unit_parses
  | .bool => Codec.bool_parses
  | .int t => Codec.int_parses t
  | .f64 => Codec.f64_parses
  | .rangedInt t min max => Codec.rangedInt_parses t min max
  | .rangedFloat min max => Codec.rangedFloat_parses min max
  | .zarithN => Codec.zarithN_parses
  | .zarithZ => Codec.zarithZ_parses
  | .bytes => Codec.bytes_parses
  | .vecU8 => Codec.vecU8_parses
  | .string => Codec.string_parses
  | .fixedBytes n => Codec.fixedBytes_parses n
  | .fixedString n => Codec.fixedString_parses n
  | .option s => Codec.option_parses (s.parses cfg)
  | .nullable s => Codec.nullable_parses (s.parses cfg)
  | .dynamic S s => Codec.Parses.mono (fun _ => rfl) (Codec.dynamic_parses cfg S (s.parses cfg))
  | .vpadded n s => Codec.vpadded_parses cfg n (s.parses cfg)
  | .padded n s => Codec.padded_parses cfg n (s.parses cfg)
  | .seq s => Codec.seq_parses (s.parses cfg)
  | .fixSeq n s => Codec.fixSeq_parses n (s.parses cfg)
  | .limSeq n s => Codec.limSeq_parses n (s.parses cfg)
  | .autobox s => Codec.autobox_parses (s.parses cfg)
  | .hole _ => Codec.hole_parses
  | .cstyle w tags => Codec.cstyle_parses w tags
  | .data w vs => fun L => by
    have h := Codec.data_parses w (vs.parses cfg) L
    rw [Variants.codec_tags cfg vs] at h
    exact h
  | .record fs => Codec.record_parses (fs.parses cfg)
theorem Variants.parses (cfg : Cfg) : ∀ vs : Variants, (vs.codec cfg).Parses (vs.windowed = true) (vs.dec cfg)
  | .nil => Codec.vnil_parses
  | .cons tag s vs => Codec.vcons_parses tag
      (Codec.Parses.mono (fun h => by simp [Variants.windowed, h]) (s.parses cfg))
      (VCodec.Parses.mono (fun h => by simp [Variants.windowed, h]) (vs.parses cfg))
theorem Fields.parses (cfg : Cfg) : ∀ fs : Fields, (fs.codec cfg).Parses (fs.windowed = true) (fs.dec cfg)
  | .nil => Codec.fnil_parses
  | .cons s fs => Codec.fcons_parses
      (Codec.Parses.mono (fun h => by simp [Fields.windowed, h]) (s.parses cfg))
      (FCodec.Parses.mono (fun h => by simp [Fields.windowed, h]) (fs.parses cfg))
end

/-! ### the codec writes the wire format -/

mutual
/-- What the codec writes, with announced lengths as in the given configuration. -/
noncomputable def Schema.out (cfg : Cfg) : (s : Schema) → Enc s.Val
  | .unit => Enc.unit
  | .bool => Enc.bool
  | .int t => Enc.int t
  | .f64 => Enc.f64
  | .rangedInt t min max => Enc.rangedInt t min max
  | .rangedFloat _ _ => Enc.f64
  | .zarithN => Enc.zarithN
  | .zarithZ => Enc.zarithZ
  | .bytes => Enc.bytes
  | .vecU8 => Enc.bytes
  | .string => Enc.string
  | .fixedBytes n => Enc.byteArr n
  | .fixedString n => Enc.byteArr n
  | .option s => Enc.option (s.out cfg)
  | .nullable s => Enc.nullable (s.out cfg)
  | .dynamic S s => Enc.dynamic S (Enc.lenOf cfg (s.codec cfg).estimate (s.out cfg)) (s.out cfg)
  | .vpadded _ s => s.out cfg
  | .padded n s => Enc.padded n (s.out cfg)
  | .seq s => Enc.list (s.out cfg)
  | .fixSeq _ s => Enc.list (s.out cfg)
  | .limSeq _ s => Enc.list (s.out cfg)
  | .autobox s => s.out cfg
  | .hole _ => Enc.hole
  | .cstyle w tags => Enc.cstyle w tags
  | .data w vs => vs.out cfg w
  | .record fs => fs.out cfg
noncomputable def Variants.out (cfg : Cfg) : (vs : Variants) → TagWidth → Enc vs.Val
  | .nil => Enc.vnil
  | .cons tag s vs => Enc.vcons tag (s.out cfg) (vs.out cfg)
noncomputable def Fields.out (cfg : Cfg) : (fs : Fields) → Enc fs.Val
  | .nil => Enc.fnil
  | .cons s fs => Enc.fcons (s.out cfg) (fs.out cfg)
end

mutual
theorem Schema.writes_out (cfg : Cfg) : ∀ s : Schema, (s.codec cfg).Writes (s.out cfg)
  | .unit => Codec.unit_writes
  | .bool => Codec.bool_writes
  | .int t => Codec.int_writes t
  | .f64 => Codec.f64_writes
  | .rangedInt t min max => Codec.rangedInt_writes t min max
  | .rangedFloat min max => Codec.rangedFloat_writes min max
  | .zarithN => Codec.zarithN_writes
  | .zarithZ => Codec.zarithZ_writes
  | .bytes => Codec.bytes_writes
  | .vecU8 => Codec.vecU8_writes
  | .string => Codec.string_writes
  | .fixedBytes n => Codec.fixedBytes_writes n
  | .fixedString n => Codec.fixedString_writes n
  | .option s => Codec.option_writes (s.writes_out cfg)
  | .nullable s => Codec.nullable_writes (s.writes_out cfg)
  | .dynamic S s => Codec.dynamic_writes cfg S (s.writes_out cfg)
  | .vpadded n s => Codec.vpadded_writes cfg n (s.writes_out cfg)
  | .padded n s => Codec.padded_writes cfg n (s.writes_out cfg)
  | .seq s => Codec.seq_writes (s.writes_out cfg)
  | .fixSeq n s => Codec.fixSeq_writes n (s.writes_out cfg)
  | .limSeq n s => Codec.limSeq_writes n (s.writes_out cfg)
  | .autobox s => Codec.autobox_writes (s.writes_out cfg)
  | .hole _ => Codec.hole_writes
  | .cstyle w tags => Codec.cstyle_writes w tags
  | .data w vs => Codec.data_writes w (vs.writes_out cfg)
  | .record fs => Codec.record_writes (fs.writes_out cfg)
theorem Variants.writes_out (cfg : Cfg) : ∀ vs : Variants, (vs.codec cfg).Writes (vs.out cfg)
  | .nil => Codec.vnil_writes
  | .cons tag s vs => Codec.vcons_writes tag (s.writes_out cfg) (vs.writes_out cfg)
theorem Fields.writes_out (cfg : Cfg) : ∀ fs : Fields, (fs.codec cfg).Writes (fs.out cfg)
  | .nil => Codec.fnil_writes
  | .cons s fs => Codec.fcons_writes (s.writes_out cfg) (fs.writes_out cfg)
end

section
variable {cfg : Cfg} (h : cfg.encLenOverride = false)
include h
set_option linter.unusedSectionVars false
mutual
theorem Schema.out_eq : ∀ s : Schema, s.out cfg = s.wire
  | .unit | .bool | .int _ | .f64 | .rangedInt _ _ _ | .rangedFloat _ _ | .zarithN | .zarithZ | .bytes | .vecU8
  | .string | .fixedBytes _ | .fixedString _ | .cstyle _ _ => rfl
  | .option s => congrArg Enc.option s.out_eq
  | .nullable s => congrArg Enc.nullable s.out_eq
  | .dynamic S s => by
    have : Enc.lenOf cfg (s.codec cfg).estimate (s.out cfg) = fun x => (s.wire x).map List.length := by
      funext x
      simp [Enc.lenOf, h, s.out_eq]
    show Enc.dynamic S (Enc.lenOf cfg (s.codec cfg).estimate (s.out cfg)) (s.out cfg) =
      Enc.dynamic S (fun x => (s.wire x).map List.length) s.wire
    rw [this, s.out_eq]
  | .vpadded _ s => s.out_eq
  | .padded n s => congrArg (Enc.padded n) s.out_eq
  | .seq s => congrArg Enc.list s.out_eq
  | .fixSeq _ s => congrArg Enc.list s.out_eq
  | .limSeq _ s => congrArg Enc.list s.out_eq
  | .autobox s => s.out_eq
  | .hole _ => rfl
  | .data w vs => congrFun vs.out_eq w
  | .record fs => fs.out_eq
theorem Variants.out_eq : ∀ vs : Variants, vs.out cfg = vs.wire
  | .nil => rfl
  | .cons tag s vs => by
    show Enc.vcons tag (s.out cfg) (vs.out cfg) = Enc.vcons tag s.wire vs.wire
    rw [s.out_eq, vs.out_eq]
theorem Fields.out_eq : ∀ fs : Fields, fs.out cfg = fs.wire
  | .nil => rfl
  | .cons s fs => by
    show Enc.fcons (s.out cfg) (fs.out cfg) = Enc.fcons s.wire fs.wire
    rw [s.out_eq, fs.out_eq]
end

theorem Schema.writes (s : Schema) : (s.codec cfg).Writes s.wire := Schema.out_eq h s ▸ s.writes_out cfg

end

/-! ### lengths -/

theorem Enc.option_length {α : Type} {e : Enc α} {x : Option α} {b : Bytes} (h : Enc.option e x = some b) :
    (x = none ∧ b.length = 1) ∨ ∃ y b', x = some y ∧ e y = some b' ∧ b.length = 1 + b'.length := by
  cases x with
  | none => cases h; exact .inl ⟨rfl, rfl⟩
  | some y =>
    obtain ⟨b1, b2, h1, h2, rfl⟩ := cat_eq_some.mp h
    cases h1
    exact .inr ⟨y, b2, rfl, h2, by simp; omega⟩

theorem Enc.dynamic_eq_some {α : Type} {S : LenPref} {len : α → Option Nat} {e : Enc α} {x : α} {b : Bytes} :
    Enc.dynamic S len e x = some b ↔
      ∃ l b', len x = some l ∧ l ≤ S.maxLen ∧ e x = some b' ∧ b = toBe S.len l ++ b' := by
  simp only [Enc.dynamic]
  cases hl : len x with
  | none => simp
  | some l =>
    by_cases hm : l ≤ S.maxLen
    · simp only [hm, if_true, cat_some_left, Option.map_eq_some_iff, Option.some.injEq]
      constructor
      · rintro ⟨b', h1, rfl⟩; exact ⟨l, b', rfl, hm, h1, rfl⟩
      · rintro ⟨_, b', rfl, -, h1, rfl⟩; exact ⟨b', h1, rfl⟩
    · simp only [hm, if_false]
      constructor
      · intro h; cases h
      · rintro ⟨_, _, h1, h2, _⟩; cases h1; exact absurd h2 hm

theorem Enc.list_length_const {α : Type} {e : Enc α} {V : α → Prop} {m : Nat}
    (h : ∀ x b, V x → e x = some b → b.length = m) : ∀ {xs : List α} {b : Bytes}, (∀ x ∈ xs, V x) →
    Enc.list e xs = some b → b.length = xs.length * m
  | [], b, _, hb => by cases hb; simp
  | x :: xs, b, hv, hb => by
    obtain ⟨b1, b2, h1, h2, rfl⟩ := cat_eq_some.mp hb
    have := list_length_const h (fun y hy => hv y (by simp [hy])) h2
    rw [List.length_append, h x b1 (hv x (by simp)) h1, this, List.length_cons, Nat.add_mul]
    omega

theorem Enc.list_length_sum {α : Type} {e : Enc α} {V : α → Prop} {f : α → Nat}
    (h : ∀ x b, V x → e x = some b → f x = b.length) : ∀ {xs : List α} {b : Bytes}, (∀ x ∈ xs, V x) →
    Enc.list e xs = some b → (xs.map f).sum = b.length
  | [], b, _, hb => by cases hb; simp
  | x :: xs, b, hv, hb => by
    obtain ⟨b1, b2, h1, h2, rfl⟩ := cat_eq_some.mp hb
    have := list_length_sum h (fun y hy => hv y (by simp [hy])) h2
    simp [h x b1 (hv x (by simp)) h1, this]

mutual
theorem Schema.width_eq : ∀ (s : Schema) {n : Nat}, s.width = some n → ∀ x b, s.Valid x → s.wire x = some b → b.length = n
  | .unit, _, h, _, _, _, hb => by cases h; cases hb; rfl
  | .bool, _, h, _, _, _, hb => by cases h; cases hb; rfl
  | .int _, _, h, _, _, _, hb => by cases h; cases hb; exact toBe_length _ _
  | .f64, _, h, _, _, _, hb => by cases h; cases hb; exact toBe_length _ _
  | .rangedInt t min max, _, h, x, b, _, hb => by
    cases h
    simp only [Schema.wire, Enc.rangedInt] at hb
    split at hb
    · cases hb; exact toBe_length _ _
    · cases hb
  | .rangedFloat _ _, _, h, _, _, _, hb => by cases h; cases hb; exact toBe_length _ _
  | .zarithN, _, h, _, _, _, _ => by cases h
  | .zarithZ, _, h, _, _, _, _ => by cases h
  | .bytes, _, h, _, _, _, _ => by cases h
  | .vecU8, _, h, _, _, _, _ => by cases h
  | .string, _, h, _, _, _, _ => by cases h
  | .fixedBytes n, _, h, x, _, _, hb => by cases h; cases hb; exact x.2
  | .fixedString n, _, h, x, _, _, hb => by cases h; cases hb; exact x.2
  | .option s, n, h, x, b, hv, hb => by
    simp only [Schema.width] at h
    split at h
    · rename_i h0
      cases h
      rcases Enc.option_length hb with ⟨-, h1⟩ | ⟨y, b', rfl, h1, h2⟩
      · exact h1
      · have := s.width_eq h0 y b' (hv y rfl) h1
        omega
    · cases h
  | .nullable s, n, h, x, b, hv, hb => by
    simp only [Schema.width] at h
    split at h
    · rename_i h0
      cases h
      match x, hb, hv with
      | none, hb, _ => cases hb; rfl
      | some y, hb, hv => exact s.width_eq h0 y b (hv y rfl) hb
    · cases h
  | .dynamic S s, n, h, x, b, hv, hb => by
    simp only [Schema.width, Option.map_eq_some_iff] at h
    obtain ⟨m, hm, rfl⟩ := h
    obtain ⟨l, b', h1, h2, h3, rfl⟩ := Enc.dynamic_eq_some.mp hb
    have := s.width_eq hm x b' hv h3
    simp [this]
  | .vpadded _ s, n, h, x, b, hv, hb => s.width_eq h x b hv hb
  | .padded k s, n, h, x, b, hv, hb => by
    simp only [Schema.width, Option.map_eq_some_iff] at h
    obtain ⟨m, hm, rfl⟩ := h
    obtain ⟨b1, b2, h1, h2, rfl⟩ := cat_eq_some.mp hb
    cases h2
    have := s.width_eq hm x b1 hv h1
    simp [this]
  | .seq s, _, h, _, _, _, _ => by cases h
  | .fixSeq k s, n, h, x, b, hv, hb => by
    simp only [Schema.width, Option.map_eq_some_iff] at h
    obtain ⟨m, hm, rfl⟩ := h
    have := Enc.list_length_const (s.width_eq hm) hv.2 hb
    rw [this]
    congr 1
    exact hv.1
  | .limSeq _ s, _, h, _, _, _, _ => by cases h
  | .autobox s, n, h, x, b, hv, hb => s.width_eq h x b hv hb
  | .hole _, _, h, _, _, _, _ => by cases h
  | .cstyle w _, _, h, _, _, _, hb => by cases h; cases hb; exact toBe_length _ _
  | .data _ _, _, h, _, _, _, _ => by cases h
  | .record fs, n, h, x, b, hv, hb => fs.width_eq h x b hv hb
theorem Fields.width_eq : ∀ (fs : Fields) {n : Nat}, fs.width = some n → ∀ x b, fs.Valid x → fs.wire x = some b → b.length = n
  | .nil, _, h, _, _, _, hb => by cases h; cases hb; rfl
  | .cons s fs, n, h, x, b, hv, hb => by
    simp only [Fields.width] at h
    split at h
    · rename_i m k h1 h2
      cases h
      obtain ⟨b1, b2, h3, h4, rfl⟩ := cat_eq_some.mp hb
      have e1 := s.width_eq h1 _ _ hv.1 h3
      have e2 := fs.width_eq h2 _ _ hv.2 h4
      simp [e1, e2]
    · cases h
end

mutual
theorem Schema.known_eq (cfg : Cfg) : ∀ s : Schema, (s.codec cfg).known = s.width
  | .unit | .bool | .int _ | .f64 | .rangedInt _ _ _ | .rangedFloat _ _ | .zarithN | .zarithZ | .bytes | .vecU8
  | .string | .fixedBytes _ | .fixedString _ | .cstyle _ _ | .seq _ | .limSeq _ _ | .data _ _ => rfl
  | .option s => by
    simp only [Schema.codec, Codec.option, s.known_eq cfg, Schema.width]
    rcases s.width with _ | _ | n <;> simp
  | .nullable s => by
    simp only [Schema.codec, Codec.nullable, s.known_eq cfg, Schema.width]
    rcases s.width with _ | _ | n <;> simp
  | .dynamic S s => by
    simp only [Schema.codec, Codec.dynamic, s.known_eq cfg, Schema.width]
    rcases s.width with _ | n <;> simp
  | .vpadded _ s => s.known_eq cfg
  | .padded n s => by
    simp only [Schema.codec, Codec.padded, s.known_eq cfg, Schema.width]
    rcases s.width with _ | n <;> simp
  | .fixSeq _ s => by
    simp only [Schema.codec, Codec.fixSeq, s.known_eq cfg, Schema.width]
    rcases s.width with _ | n <;> simp
  | .autobox s => s.known_eq cfg
  | .hole _ => rfl
  | .record fs => fs.known_eq cfg
theorem Fields.known_eq (cfg : Cfg) : ∀ fs : Fields, (fs.codec cfg).known = fs.width
  | .nil => rfl
  | .cons s fs => by
    simp only [Fields.codec, FCodec.cons, s.known_eq cfg, fs.known_eq cfg, Fields.width]
    rcases s.width with _ | n <;> rcases fs.width with _ | m <;> rfl
end

theorem Schema.estimate_of (cfg : Cfg) (s : Schema) {x : s.Val} {b : Bytes}
    (hu : s.Valid x → s.EstOk x → s.wire x = some b → (s.codec cfg).unknown x = b.length)
    (hv : s.Valid x) (he : s.EstOk x) (hb : s.wire x = some b) : (s.codec cfg).estimate x = b.length := by
  unfold Codec.estimate
  rw [s.known_eq cfg]
  cases hw : s.width with
  | none => exact hu hv he hb
  | some n => exact (s.width_eq hw x b hv hb).symm

mutual
theorem Schema.unknown_eq (cfg : Cfg) : ∀ (s : Schema) (x : s.Val) (b : Bytes), s.Valid x → s.EstOk x → s.wire x = some b →
    (s.codec cfg).unknown x = b.length
  | .unit, _, _, _, _, hb => by cases hb; rfl
  | .bool, _, _, _, _, hb => by cases hb; rfl
  | .int _, _, _, _, _, hb => by cases hb; exact (toBe_length _ _).symm
  | .f64, _, _, _, _, hb => by cases hb; exact (toBe_length _ _).symm
  | .rangedInt t min max, x, b, hv, he, hb => ((Schema.rangedInt t min max).width_eq rfl x b hv hb).symm
  | .rangedFloat _ _, _, _, _, _, hb => by cases hb; exact (toBe_length _ _).symm
  | .zarithN, _, _, _, he, hb => by cases hb; exact divCeil_bits he
  | .zarithZ, _, _, _, _, hb => by cases hb; exact estimateZ _
  | .bytes, _, _, _, _, hb => by cases hb; rfl
  | .vecU8, _, _, _, _, hb => by cases hb; exact Nat.mul_one _
  | .string, _, _, _, _, hb => by cases hb; exact Nat.mul_one _
  | .fixedBytes n, x, _, _, _, hb => by cases hb; exact x.2.symm
  | .fixedString n, x, _, _, _, hb => by cases hb; exact x.2.symm
  | .option s, x, b, hv, he, hb => by
    rcases Enc.option_length hb with ⟨rfl, h1⟩ | ⟨y, b', rfl, h1, h2⟩
    · exact h1.symm
    · have := s.estimate_of cfg (s.unknown_eq cfg y b') (hv y rfl) (he y rfl) h1
      show 1 + (s.codec cfg).estimate y = b.length
      omega
  | .nullable s, x, b, hv, he, hb => by
    match x, hb, hv, he with
    | none, hb, _, _ => cases hb; rfl
    | some y, hb, hv, he => exact s.estimate_of cfg (s.unknown_eq cfg y b) (hv y rfl) (he y rfl) hb
  | .dynamic S s, x, b, hv, he, hb => by
    obtain ⟨l, b', h1, h2, h3, rfl⟩ := Enc.dynamic_eq_some.mp hb
    have := s.unknown_eq cfg x b' hv he h3
    simp [Schema.codec, Codec.dynamic, this]
  | .vpadded _ s, x, b, hv, he, hb => s.unknown_eq cfg x b hv he hb
  | .padded k s, x, b, hv, he, hb => by
    obtain ⟨b1, b2, h1, h2, rfl⟩ := cat_eq_some.mp hb
    cases h2
    have := s.unknown_eq cfg x b1 hv he h1
    simp [Schema.codec, Codec.padded, this]
  | .seq s, x, b, hv, he, hb =>
    Enc.list_length_sum (V := fun x => s.Valid x ∧ s.EstOk x)
      (fun y b' h h' => s.estimate_of cfg (s.unknown_eq cfg y b') h.1 h.2 h')
      (fun y hy => ⟨hv y hy, he y hy⟩) hb
  | .fixSeq k s, x, b, hv, he, hb =>
    Enc.list_length_sum (V := fun x => s.Valid x ∧ s.EstOk x)
      (fun y b' h h' => s.unknown_eq cfg y b' h.1 h.2 h')
      (fun y hy => ⟨hv.2 y hy, he y hy⟩) hb
  | .limSeq _ s, x, b, hv, he, hb =>
    Enc.list_length_sum (V := fun x => s.Valid x ∧ s.EstOk x)
      (fun y b' h h' => s.estimate_of cfg (s.unknown_eq cfg y b') h.1 h.2 h')
      (fun y hy => ⟨hv.2 y hy, he y hy⟩) hb
  | .autobox s, x, b, hv, he, hb => s.unknown_eq cfg x b hv he hb
  | .hole _, x, _, _, _, _ => nomatch x
  | .cstyle w _, _, _, _, _, hb => by cases hb; exact (toBe_length _ _).symm
  | .data w vs, x, b, hv, he, hb => vs.unknown_eq cfg w x b hv he hb
  | .record fs, x, b, hv, he, hb => fs.unknown_eq cfg x b hv he hb
theorem Variants.unknown_eq (cfg : Cfg) : ∀ (vs : Variants) (w : TagWidth) (x : vs.Val) (b : Bytes), vs.Valid x → vs.EstOk x →
    vs.wire w x = some b → (vs.codec cfg).unknown w x = b.length
  | .nil, _, x, _, _, _, _ => nomatch x
  | .cons tag s vs, w, .inl x, b, hv, he, hb => by
    obtain ⟨b1, b2, h1, h2, rfl⟩ := cat_eq_some.mp hb
    cases h1
    have := s.estimate_of cfg (s.unknown_eq cfg x b2) hv he h2
    simp [Variants.codec, VCodec.cons, this]
  | .cons tag s vs, w, .inr x, b, hv, he, hb => vs.unknown_eq cfg w x b hv he hb
theorem Fields.unknown_eq (cfg : Cfg) : ∀ (fs : Fields) (x : fs.Val) (b : Bytes), fs.Valid x → fs.EstOk x → fs.wire x = some b →
    (fs.codec cfg).unknown x = b.length
  | .nil, _, _, _, _, hb => by cases hb; rfl
  | .cons s fs, x, b, hv, he, hb => by
    obtain ⟨b1, b2, h1, h2, rfl⟩ := cat_eq_some.mp hb
    have e1 := s.unknown_eq cfg x.1 b1 hv.1 he.1 h1
    have e2 := fs.unknown_eq cfg x.2 b2 hv.2 he.2 h2
    simp [Fields.codec, FCodec.cons, e1, e2]
end

theorem Schema.estimate_eq (cfg : Cfg) (s : Schema) (x : s.Val) (b : Bytes) (hv : s.Valid x) (he : s.EstOk x)
    (hb : s.wire x = some b) : (s.codec cfg).estimate x = b.length :=
  s.estimate_of cfg (s.unknown_eq cfg x b) hv he hb

/-! ### trusting the estimates changes nothing when they are right -/

theorem Enc.list_congr {α : Type} {e e' : Enc α} : ∀ {xs : List α}, (∀ x ∈ xs, e x = e' x) → Enc.list e xs = Enc.list e' xs
  | [], _ => rfl
  | x :: xs, h => by
    rw [Enc.list, Enc.list, h x (by simp), Enc.list_congr fun y hy => h y (by simp [hy])]

mutual
theorem Schema.out_eq_of_estOk (cfg : Cfg) : ∀ (s : Schema) (x : s.Val), s.Valid x → s.EstOk x → s.out cfg x = s.wire x
  | .unit, _, _, _ => rfl
  | .bool, _, _, _ => rfl
  | .int _, _, _, _ => rfl
  | .f64, _, _, _ => rfl
  | .rangedInt _ _ _, _, _, _ => rfl
  | .rangedFloat _ _, _, _, _ => rfl
  | .zarithN, _, _, _ => rfl
  | .zarithZ, _, _, _ => rfl
  | .bytes, _, _, _ => rfl
  | .vecU8, _, _, _ => rfl
  | .string, _, _, _ => rfl
  | .fixedBytes _, _, _, _ => rfl
  | .fixedString _, _, _, _ => rfl
  | .cstyle _ _, _, _, _ => rfl
  | .option s, x, hv, he => by
    match x, hv, he with
    | none, _, _ => rfl
    | some y, hv, he => exact congrArg (Enc.cat _) (s.out_eq_of_estOk cfg y (hv y rfl) (he y rfl))
  | .nullable s, x, hv, he => by
    match x, hv, he with
    | none, _, _ => rfl
    | some y, hv, he => exact s.out_eq_of_estOk cfg y (hv y rfl) (he y rfl)
  | .dynamic S s, x, hv, he => by
    have ih := s.out_eq_of_estOk cfg x hv he
    simp only [Schema.out, Schema.wire, Enc.dynamic, Enc.lenOf, ih]
    cases hw : s.wire x with
    | none => split <;> split <;> first | rfl | (split <;> rfl) | simp_all
    | some b => simp [s.estimate_eq cfg x b hv he hw]
  | .vpadded _ s, x, hv, he => s.out_eq_of_estOk cfg x hv he
  | .padded n s, x, hv, he => congrArg (Enc.cat · _) (s.out_eq_of_estOk cfg x hv he)
  | .seq s, x, hv, he => Enc.list_congr fun y hy => s.out_eq_of_estOk cfg y (hv y hy) (he y hy)
  | .fixSeq _ s, x, hv, he => Enc.list_congr fun y hy => s.out_eq_of_estOk cfg y (hv.2 y hy) (he y hy)
  | .limSeq _ s, x, hv, he => Enc.list_congr fun y hy => s.out_eq_of_estOk cfg y (hv.2 y hy) (he y hy)
  | .autobox s, x, hv, he => s.out_eq_of_estOk cfg x hv he
  | .hole _, x, _, _ => nomatch x
  | .data w vs, x, hv, he => vs.out_eq_of_estOk cfg w x hv he
  | .record fs, x, hv, he => fs.out_eq_of_estOk cfg x hv he
theorem Variants.out_eq_of_estOk (cfg : Cfg) : ∀ (vs : Variants) (w : TagWidth) (x : vs.Val), vs.Valid x → vs.EstOk x →
    vs.out cfg w x = vs.wire w x
  | .nil, _, x, _, _ => nomatch x
  | .cons _ s _, _, .inl x, hv, he => congrArg (Enc.cat _) (s.out_eq_of_estOk cfg x hv he)
  | .cons _ _ vs, w, .inr x, hv, he => vs.out_eq_of_estOk cfg w x hv he
theorem Fields.out_eq_of_estOk (cfg : Cfg) : ∀ (fs : Fields) (x : fs.Val), fs.Valid x → fs.EstOk x → fs.out cfg x = fs.wire x
  | .nil, _, _, _ => rfl
  | .cons s fs, x, hv, he => by
    have e1 := s.out_eq_of_estOk cfg x.1 hv.1 he.1
    have e2 := fs.out_eq_of_estOk cfg x.2 hv.2 he.2
    simp only [Fields.out, Fields.wire, Enc.fcons, e1, e2]
end

mutual
theorem Schema.EstOk.prefixOk : ∀ {s : Schema} {x : s.Val}, s.EstOk x → s.PrefixOk x
  | .unit, _, _ => trivial
  | .bool, _, _ => trivial
  | .int _, _, _ => trivial
  | .f64, _, _ => trivial
  | .rangedInt _ _ _, _, _ => trivial
  | .rangedFloat _ _, _, _ => trivial
  | .zarithN, _, _ => trivial
  | .zarithZ, _, _ => trivial
  | .bytes, _, _ => trivial
  | .vecU8, _, _ => trivial
  | .string, _, _ => trivial
  | .fixedBytes _, _, _ => trivial
  | .fixedString _, _, _ => trivial
  | .option _, _, h => fun y hy => (h y hy).prefixOk
  | .nullable _, _, h => fun y hy => (h y hy).prefixOk
  | .dynamic _ _, _, h => h
  | .vpadded _ s, x, h => Schema.EstOk.prefixOk (s := s) (x := x) h
  | .padded _ s, x, h => Schema.EstOk.prefixOk (s := s) (x := x) h
  | .seq _, _, h => fun y hy => (h y hy).prefixOk
  | .fixSeq _ _, _, h => fun y hy => (h y hy).prefixOk
  | .limSeq _ _, _, h => fun y hy => (h y hy).prefixOk
  | .autobox s, x, h => Schema.EstOk.prefixOk (s := s) (x := x) h
  | .hole _, _, _ => trivial
  | .cstyle _ _, _, _ => trivial
  | .data _ vs, x, h => Variants.EstOk.prefixOk (vs := vs) (x := x) h
  | .record fs, x, h => Fields.EstOk.prefixOk (fs := fs) (x := x) h
theorem Variants.EstOk.prefixOk : ∀ {vs : Variants} {x : vs.Val}, vs.EstOk x → vs.PrefixOk x
  | .nil, x, _ => nomatch x
  | .cons _ s _, .inl x, h => Schema.EstOk.prefixOk (s := s) (x := x) h
  | .cons _ _ vs, .inr x, h => Variants.EstOk.prefixOk (vs := vs) (x := x) h
theorem Fields.EstOk.prefixOk : ∀ {fs : Fields} {x : fs.Val}, fs.EstOk x → fs.PrefixOk x
  | .nil, _, _ => trivial
  | .cons _ _, _, h => ⟨h.1.prefixOk, h.2.prefixOk⟩
end

mutual
theorem Schema.out_eq_of_prefixOk (cfg : Cfg) : ∀ (s : Schema) (x : s.Val), s.Valid x → s.PrefixOk x → s.out cfg x = s.wire x
  | .unit, _, _, _ => rfl
  | .bool, _, _, _ => rfl
  | .int _, _, _, _ => rfl
  | .f64, _, _, _ => rfl
  | .rangedInt _ _ _, _, _, _ => rfl
  | .rangedFloat _ _, _, _, _ => rfl
  | .zarithN, _, _, _ => rfl
  | .zarithZ, _, _, _ => rfl
  | .bytes, _, _, _ => rfl
  | .vecU8, _, _, _ => rfl
  | .string, _, _, _ => rfl
  | .fixedBytes _, _, _, _ => rfl
  | .fixedString _, _, _, _ => rfl
  | .cstyle _ _, _, _, _ => rfl
  | .option s, x, hv, he => by
    match x, hv, he with
    | none, _, _ => rfl
    | some y, hv, he => exact congrArg (Enc.cat _) (s.out_eq_of_prefixOk cfg y (hv y rfl) (he y rfl))
  | .nullable s, x, hv, he => by
    match x, hv, he with
    | none, _, _ => rfl
    | some y, hv, he => exact s.out_eq_of_prefixOk cfg y (hv y rfl) (he y rfl)
  | .dynamic S s, x, hv, he => by
    have ih := s.out_eq_of_estOk cfg x hv he
    simp only [Schema.out, Schema.wire, Enc.dynamic, Enc.lenOf, ih]
    cases hw : s.wire x with
    | none => split <;> split <;> first | rfl | (split <;> rfl) | simp_all
    | some b => simp [s.estimate_eq cfg x b hv he hw]
  | .vpadded _ s, x, hv, he => s.out_eq_of_prefixOk cfg x hv he
  | .padded n s, x, hv, he => congrArg (Enc.cat · _) (s.out_eq_of_prefixOk cfg x hv he)
  | .seq s, x, hv, he => Enc.list_congr fun y hy => s.out_eq_of_prefixOk cfg y (hv y hy) (he y hy)
  | .fixSeq _ s, x, hv, he => Enc.list_congr fun y hy => s.out_eq_of_prefixOk cfg y (hv.2 y hy) (he y hy)
  | .limSeq _ s, x, hv, he => Enc.list_congr fun y hy => s.out_eq_of_prefixOk cfg y (hv.2 y hy) (he y hy)
  | .autobox s, x, hv, he => s.out_eq_of_prefixOk cfg x hv he
  | .hole _, x, _, _ => nomatch x
  | .data w vs, x, hv, he => vs.out_eq_of_prefixOk cfg w x hv he
  | .record fs, x, hv, he => fs.out_eq_of_prefixOk cfg x hv he
theorem Variants.out_eq_of_prefixOk (cfg : Cfg) : ∀ (vs : Variants) (w : TagWidth) (x : vs.Val), vs.Valid x → vs.PrefixOk x →
    vs.out cfg w x = vs.wire w x
  | .nil, _, x, _, _ => nomatch x
  | .cons _ s _, _, .inl x, hv, he => congrArg (Enc.cat _) (s.out_eq_of_prefixOk cfg x hv he)
  | .cons _ _ vs, w, .inr x, hv, he => vs.out_eq_of_prefixOk cfg w x hv he
theorem Fields.out_eq_of_prefixOk (cfg : Cfg) : ∀ (fs : Fields) (x : fs.Val), fs.Valid x → fs.PrefixOk x → fs.out cfg x = fs.wire x
  | .nil, _, _, _ => rfl
  | .cons s fs, x, hv, he => by
    have e1 := s.out_eq_of_prefixOk cfg x.1 hv.1 he.1
    have e2 := fs.out_eq_of_prefixOk cfg x.2 hv.2 he.2
    simp only [Fields.out, Fields.wire, Enc.fcons, e1, e2]
end

/-! ### structure -/

mutual
theorem Schema.readsPrefix (cfg : Cfg) : ∀ s : Schema, ReadsPrefix (s.dec cfg)
  | .unit => .unit
  | .bool => .bool
  | .int t => .int t
  | .f64 => .f64
  | .rangedInt t min max => .rangedInt t min max
  | .rangedFloat min max => .rangedFloat min max
  | .zarithN => .zarithN
  | .zarithZ => .zarithZ
  | .bytes => .bytes
  | .vecU8 => .bytes
  | .string => .string
  | .fixedBytes n => .byteArr n
  | .fixedString n => .byteArr n
  | .option s => .option (s.readsPrefix cfg)
  | .nullable s => .nullable (s.readsPrefix cfg)
  | .dynamic S _ => .dynamic S _
  | .vpadded n _ => .vpadded cfg n _
  | .padded n s => .padded cfg n (s.readsPrefix cfg)
  | .seq _ => .seq _
  | .fixSeq n s => .fixSeq n (s.readsPrefix cfg)
  | .limSeq n s => .limSeq n (s.readsPrefix cfg)
  | .autobox s => s.readsPrefix cfg
  | .hole _ => .hole
  | .cstyle w tags => .cstyle w tags
  | .data w vs => .data w _ (vs.readsPrefix cfg)
  | .record fs => fs.readsPrefix cfg
theorem Variants.readsPrefix (cfg : Cfg) : ∀ (vs : Variants) (t : Nat), ReadsPrefix (vs.dec cfg t)
  | .nil, t => .vnil t
  | .cons tag s vs, t => .vcons tag (s.readsPrefix cfg) (vs.readsPrefix cfg) t
theorem Fields.readsPrefix (cfg : Cfg) : ∀ fs : Fields, ReadsPrefix (fs.dec cfg)
  | .nil => .fnil
  | .cons s fs => .fcons (s.readsPrefix cfg) (fs.readsPrefix cfg)
end

mutual
theorem Schema.local_ (cfg : Cfg) : ∀ s : Schema, s.isLocal = true → Local (s.dec cfg)
  | .unit, _ => .unit
  | .bool, _ => .bool
  | .int t, _ => .int t
  | .f64, _ => .f64
  | .rangedInt t min max, _ => .rangedInt t min max
  | .rangedFloat min max, _ => .rangedFloat min max
  | .zarithN, _ => .zarithN
  | .zarithZ, _ => .zarithZ
  | .bytes, h => by cases h
  | .vecU8, h => by cases h
  | .string, h => by cases h
  | .fixedBytes n, _ => .byteArr n
  | .fixedString n, _ => .byteArr n
  | .option s, h => .option (s.local_ cfg h)
  | .nullable s, h => by cases h
  | .dynamic S s, _ => .dynamic S _
  | .vpadded n s, h => by cases h
  | .padded n s, h => .padded cfg n (s.local_ cfg h)
  | .seq s, h => by cases h
  | .fixSeq n s, h => .fixSeq n (s.local_ cfg h)
  | .limSeq n s, h => by cases h
  | .autobox s, h => s.local_ cfg h
  | .hole _, _ => .hole
  | .cstyle w tags, _ => .cstyle w tags
  | .data w vs, h => .data w _ (vs.local_ cfg h)
  | .record fs, h => fs.local_ cfg h
theorem Variants.local_ (cfg : Cfg) : ∀ (vs : Variants), vs.isLocal = true → ∀ t, Local (vs.dec cfg t)
  | .nil, _, t => .vnil t
  | .cons tag s vs, h, t => by
    simp only [Variants.isLocal, Bool.and_eq_true] at h
    exact .vcons tag (s.local_ cfg h.1) (vs.local_ cfg h.2) t
theorem Fields.local_ (cfg : Cfg) : ∀ fs : Fields, fs.isLocal = true → Local (fs.dec cfg)
  | .nil, _ => .fnil
  | .cons s fs, h => by
    simp only [Fields.isLocal, Bool.and_eq_true] at h
    exact .fcons (s.local_ cfg h.1) (fs.local_ cfg h.2)
end

mutual
theorem Schema.progress (cfg : Cfg) : ∀ s : Schema, s.nonempty = true → Progress (s.dec cfg)
  | .unit, h => by cases h
  | .bool, _ => .bool
  | .int t, _ => .int t
  | .f64, _ => .f64
  | .rangedInt t min max, _ => .rangedInt t min max
  | .rangedFloat min max, _ => .rangedFloat min max
  | .zarithN, _ => .zarithN
  | .zarithZ, _ => .zarithZ
  | .bytes, h => by cases h
  | .vecU8, h => by cases h
  | .string, h => by cases h
  | .fixedBytes n, h => .byteArr (by simpa [Schema.nonempty] using h)
  | .fixedString n, h => .byteArr (by simpa [Schema.nonempty] using h)
  | .option s, _ => .option (s.readsPrefix cfg)
  | .nullable s, h => by cases h
  | .dynamic S s, _ => .dynamic S _
  | .vpadded n s, h => .vpadded cfg n (s.progress cfg h)
  | .padded n s, h => by
    by_cases hn : 0 < n
    · exact .padded' cfg hn (s.readsPrefix cfg)
    · refine .padded cfg n (s.progress cfg ?_)
      simpa [Schema.nonempty, hn] using h
  | .seq s, h => by cases h
  | .fixSeq n s, h => by
    simp only [Schema.nonempty, Bool.and_eq_true, decide_eq_true_eq] at h
    exact .fixSeq h.1 (s.progress cfg h.2) (s.readsPrefix cfg)
  | .limSeq n s, h => by cases h
  | .autobox s, h => s.progress cfg h
  | .hole _, _ => .hole
  | .cstyle w tags, _ => .cstyle w tags
  | .data w vs, _ => .data w _ (vs.readsPrefix cfg)
  | .record fs, h => fs.progress cfg h
theorem Fields.progress (cfg : Cfg) : ∀ fs : Fields, fs.nonempty = true → Progress (fs.dec cfg)
  | .nil, h => by cases h
  | .cons s fs, h => by
    simp only [Fields.nonempty, Bool.or_eq_true] at h
    rcases h with h | h
    · exact .fcons (s.progress cfg h) (fs.readsPrefix cfg)
    · exact .fcons' (s.readsPrefix cfg) (fs.progress cfg h)
end

theorem Variants.nonEmpty (w : TagWidth) : ∀ vs : Variants, NonEmpty (vs.wire w) vs.Valid
  | .nil => .vnil w _
  | .cons tag _ vs => .vcons w tag _ (Variants.nonEmpty w vs)

mutual
theorem Schema.nonEmpty : ∀ s : Schema, s.nonempty = true → NonEmpty s.wire s.Valid
  | .unit, h => by cases h
  | .bool, _ => .bool _
  | .int t, _ => .int t _
  | .f64, _ => .f64 _
  | .rangedInt t min max, _ => .rangedInt t min max _
  | .rangedFloat min max, _ => .f64 _
  | .zarithN, _ => .zarithN _
  | .zarithZ, _ => .zarithZ _
  | .bytes, h => by cases h
  | .vecU8, h => by cases h
  | .string, h => by cases h
  | .fixedBytes n, h => .byteArr (by simpa [Schema.nonempty] using h) _
  | .fixedString n, h => .byteArr (by simpa [Schema.nonempty] using h) _
  | .option s, _ => .option _ _
  | .nullable s, h => by cases h
  | .dynamic S s, _ => .dynamic _ S _ _
  | .vpadded n s, h => s.nonEmpty h
  | .padded n s, h => by
    by_cases hn : 0 < n
    · exact .padded' hn _
    · refine .padded n (s.nonEmpty ?_)
      simpa [Schema.nonempty, hn] using h
  | .seq s, h => by cases h
  | .fixSeq n s, h => by
    simp only [Schema.nonempty, Bool.and_eq_true, decide_eq_true_eq] at h
    exact .fixSeq h.1 (s.nonEmpty h.2)
  | .limSeq n s, h => by cases h
  | .autobox s, h => s.nonEmpty h
  | .hole _, _ => fun x => nomatch x
  | .cstyle w tags, _ => .cstyle w tags _
  | .data w vs, _ => vs.nonEmpty w
  | .record fs, h => fs.nonEmpty h
theorem Fields.nonEmpty : ∀ fs : Fields, fs.nonempty = true → NonEmpty fs.wire fs.Valid
  | .nil, h => by cases h
  | .cons s fs, h => by
    simp only [Fields.nonempty, Bool.or_eq_true] at h
    rcases h with h | h
    · exact .fcons (s.nonEmpty h)
    · exact .fcons' (fs.nonEmpty h)
end

mutual
theorem Schema.total (cfg : Cfg) : ∀ s : Schema, s.safe = true → Total (s.dec cfg)
  | .unit, _ => .unit
  | .bool, _ => .bool
  | .int t, _ => .int t
  | .f64, _ => .f64
  | .rangedInt t min max, _ => .rangedInt t min max
  | .rangedFloat min max, _ => .rangedFloat min max
  | .zarithN, _ => .zarithN
  | .zarithZ, _ => .zarithZ
  | .bytes, _ => .bytes
  | .vecU8, _ => .bytes
  | .string, _ => .string
  | .fixedBytes n, h => .byteArr (of_decide_eq_true h)
  | .fixedString n, h => .byteArr (of_decide_eq_true h)
  | .option s, h => .option (s.total cfg h)
  | .nullable s, h => .nullable (s.total cfg h)
  | .dynamic S s, h => .dynamic S (s.total cfg h)
  | .vpadded n s, h => by cases h
  | .padded n s, h => by
    simp only [Schema.safe, Bool.and_eq_true] at h
    exact .padded cfg (of_decide_eq_true h.1) (s.total cfg h.2)
  | .seq s, h => by
    simp only [Schema.safe, Bool.and_eq_true] at h
    exact .seq (s.total cfg h.1) (s.progress cfg h.2)
  | .fixSeq n s, h => .fixSeq n (s.total cfg h)
  | .limSeq n s, h => .limSeq n (s.total cfg h)
  | .autobox s, h => s.total cfg h
  | .hole _, h => by cases h
  | .cstyle w tags, _ => .cstyle w tags
  | .data w vs, h => .data w (vs.total cfg h)
  | .record fs, h => fs.total cfg h
theorem Variants.total (cfg : Cfg) : ∀ (vs : Variants), vs.safe = true → ∀ t ∈ vs.tags, Total (vs.dec cfg t)
  | .nil, _, t, ht => .vnil t ht
  | .cons tag s vs, h, t, ht => by
    simp only [Variants.safe, Bool.and_eq_true] at h
    exact .vcons tag (s.total cfg h.1) (vs.total cfg h.2) t ht
theorem Fields.total (cfg : Cfg) : ∀ fs : Fields, fs.safe = true → Total (fs.dec cfg)
  | .nil, _ => .fnil
  | .cons s fs, h => by
    simp only [Fields.safe, Bool.and_eq_true] at h
    exact .fcons (s.total cfg h.1) (fs.total cfg h.2)
end

/-! ### round trips -/

theorem Tail.allowsEnd_some {o : Option Tail} (h : Tail.allowsEnd o = true) : ∃ k, o = some k ∧ k.Allows [] := by
  cases o with
  | none => cases h
  | some k =>
    refine ⟨k, rfl, ?_⟩
    cases k with
    | any => trivial
    | exact n =>
      simp only [Tail.allowsEnd, decide_eq_true_eq] at h
      exact h.symm

/-- Both arms allow what their join allows. -/
theorem Tail.join_allows {a b : Option Tail} {k : Tail} (h : Tail.join a b = some k) :
    ∃ k1 k2, a = some k1 ∧ b = some k2 ∧ ∀ t, k.Allows t → k1.Allows t ∧ k2.Allows t := by
  rcases a with _ | _ | m <;> rcases b with _ | _ | n <;> simp only [Tail.join] at h <;> try cases h
  · exact ⟨_, _, rfl, rfl, fun t h => ⟨trivial, h⟩⟩
  · exact ⟨_, _, rfl, rfl, fun t h => ⟨trivial, h⟩⟩
  · exact ⟨_, _, rfl, rfl, fun t h => ⟨h, trivial⟩⟩
  · split at h
    · rename_i hmn
      cases h
      subst hmn
      exact ⟨_, _, rfl, rfl, fun t h => ⟨h, h⟩⟩
    · cases h

mutual
theorem Schema.roundTrips (cfg : Cfg) : ∀ (s : Schema) {k : Tail}, s.tagsOk → s.tail = some k →
    RoundTrips s.wire (s.dec cfg) s.Valid k
  | .unit, _, _, h => by cases h; exact .unit
  | .bool, _, _, h => by cases h; exact .bool
  | .int t, _, _, h => by cases h; exact .int t
  | .f64, _, _, h => by cases h; exact .f64
  | .rangedInt t min max, _, _, h => by cases h; exact .rangedInt t min max
  | .rangedFloat min max, _, _, h => by cases h; exact .rangedFloat min max
  | .zarithN, _, _, h => by cases h; exact .zarithN
  | .zarithZ, _, _, h => by cases h; exact .zarithZ
  | .bytes, _, _, h => by cases h; exact .bytes
  | .vecU8, _, _, h => by cases h; exact .bytes
  | .string, _, _, h => by cases h; exact .string
  | .fixedBytes n, _, _, h => by cases h; exact .byteArr n
  | .fixedString n, _, _, h => by cases h; exact .byteArr n
  | .option s, k, hw, h => .option (s.roundTrips cfg hw h)
  | .nullable s, k, hw, h => by
    simp only [Schema.tail] at h
    split at h
    · rename_i hc
      cases h
      simp only [Bool.and_eq_true] at hc
      obtain ⟨k, h1, h2⟩ := Tail.allowsEnd_some hc.1
      exact .nullable (s.roundTrips cfg hw h1) h2 (s.nonEmpty hc.2)
    · cases h
  | .dynamic S s, k, hw, h => by
    simp only [Schema.tail] at h
    split at h
    · rename_i hc
      cases h
      obtain ⟨k, h1, h2⟩ := Tail.allowsEnd_some hc
      refine .dynamic S (s.roundTrips cfg hw h1) h2 ?_
      intro x b l _ hb hl
      rw [hb] at hl
      cases hl
      rfl
    · cases h
  | .vpadded n s, k, hw, h => by
    simp only [Schema.tail] at h
    split at h
    · rename_i hc
      cases h
      obtain ⟨k, h1, h2⟩ := Tail.allowsEnd_some hc
      exact .vpadded cfg n (s.roundTrips cfg hw h1) h2
    · cases h
  | .padded n s, k, hw, h => by
    simp only [Schema.tail] at h
    split at h
    · rename_i hc
      cases h
      exact .padded cfg n (s.roundTrips cfg hw hc) (fun _ _ => trivial)
    · rename_i m hc
      split at h
      · rename_i hm
        cases h
        refine .padded cfg n (s.roundTrips cfg hw hc) (fun t ht => ?_)
        have ht : t.length = m - n := ht
        show (List.replicate n 0 ++ t).length = m
        simp
        omega
      · cases h
    · cases h
  | .seq s, k, hw, h => by
    simp only [Schema.tail] at h
    split at h
    · rename_i hc
      cases h
      exact .seq (s.roundTrips cfg hw hc.1) (s.nonEmpty hc.2)
    · cases h
  | .fixSeq n s, k, hw, h => by
    simp only [Schema.tail] at h
    split at h
    · rename_i hc
      cases h
      exact .fixSeq n (s.roundTrips cfg hw hc.1) (s.nonEmpty hc.2)
    · cases h
  | .limSeq n s, k, hw, h => by
    simp only [Schema.tail] at h
    split at h
    · rename_i hc
      cases h
      exact .limSeq n (s.roundTrips cfg hw hc.1) (s.nonEmpty hc.2)
    · cases h
  | .autobox s, k, hw, h => s.roundTrips cfg hw h
  | .hole _, _, _, _ => fun x => nomatch x
  | .cstyle w tags, _, hw, h => by cases h; exact .cstyle w tags hw
  | .data w vs, k, hw, h => .data w (vs.roundTrips cfg w hw.2 h (fun _ h => h)) hw.1
  | .record fs, k, hw, h => fs.roundTrips cfg hw h
theorem Variants.roundTrips (cfg : Cfg) (w : TagWidth) : ∀ (vs : Variants) {k k' : Tail}, vs.tagsOk → vs.tail = some k →
    (∀ t, k'.Allows t → k.Allows t) → VRoundTrips vs.tags w vs.wire (vs.dec cfg) vs.Valid k'
  | .nil, _, k', _, _, _ => .nil w k'
  | .cons tag s vs, k, k', hw, h, hk => by
    obtain ⟨k1, k2, h1, h2, h3⟩ := Tail.join_allows h
    exact .cons tag ((s.roundTrips cfg hw.2.1 h1).mono (fun _ h => h) (fun t ht => (h3 t (hk t ht)).1))
      (vs.roundTrips cfg w hw.2.2 h2 (fun t ht => (h3 t (hk t ht)).2)) hw.1
theorem Fields.roundTrips (cfg : Cfg) : ∀ (fs : Fields) {k : Tail}, fs.tagsOk → fs.tail = some k →
    RoundTrips fs.wire (fs.dec cfg) fs.Valid k
  | .nil, _, _, h => by cases h; exact .fnil
  | .cons s fs, k, hw, h => by
    simp only [Fields.tail] at h
    split at h
    · rename_i hc
      exact .fcons (s.roundTrips cfg hw.1 hc) (fs.roundTrips cfg hw.2 h) (fun t ht => ⟨ht, fun _ _ _ _ => trivial⟩)
    · rename_i m hc
      split at h
      · rename_i l hl
        split at h
        · rename_i hc2
          cases h
          refine .fcons (s.roundTrips cfg hw.1 hc) (fs.roundTrips cfg hw.2 hc2.2) (fun t ht => ⟨trivial, ?_⟩)
          intro y b hy hb
          have := fs.width_eq hl y b hy hb
          have ht : t.length = m - l := ht
          show (b ++ t).length = m
          simp
          omega
        · cases h
      · cases h
    · cases h
end

/-! ### re-encoding -/

mutual
theorem Schema.reencodes (cfg : Cfg) : ∀ s : Schema, s.textFree = true → Reencodes s.wire (s.dec cfg) s.Valid
  | .unit, _ => .of_canonical .unit fun _ _ _ _ => trivial
  | .bool, _ => .of_canonical .bool fun _ _ _ _ => trivial
  | .int t, _ => .of_canonical (.int t) fun _ _ _ _ => trivial
  | .f64, _ => .of_canonical .f64 fun _ _ _ _ => trivial
  | .rangedInt t min max, _ => .of_canonical (.rangedInt t min max) fun _ _ _ _ => trivial
  | .rangedFloat min max, _ => .of_canonical (.rangedFloat min max) fun _ _ _ h => (Canonical.rangedFloat_ok.mp h).2
  | .zarithN, _ => .zarithN
  | .zarithZ, _ => .zarithZ
  | .bytes, _ => .of_canonical .bytes fun _ _ _ _ => trivial
  | .vecU8, _ => .of_canonical .bytes fun _ _ _ _ => trivial
  | .string, h => by cases h
  | .fixedBytes n, _ => .of_canonical (.byteArr n) fun _ _ _ _ => trivial
  | .fixedString n, _ => .of_canonical (.byteArr n) fun _ _ _ _ => trivial
  | .option s, h => .option (s.reencodes cfg h)
  | .nullable s, h => .nullable (s.reencodes cfg h)
  | .dynamic S s, h => .dynamic S (s.reencodes cfg h) fun x b _ hb => by rw [hb]; rfl
  | .vpadded n s, h => .vpadded cfg n (s.reencodes cfg h)
  | .padded n s, h => .padded cfg n (s.reencodes cfg h)
  | .seq s, h => .seq (s.reencodes cfg h) (s.readsPrefix cfg)
  | .fixSeq n s, h => .fixSeq n (s.reencodes cfg h)
  | .limSeq n s, h => .limSeq n (s.reencodes cfg h)
  | .autobox s, h => s.reencodes cfg h
  | .hole _, _ => fun _ _ _ h => by cases h
  | .cstyle w tags, _ => .of_canonical (.cstyle w tags) fun _ _ _ _ => trivial
  | .data w vs, h => .data w _ (vs.reencodes cfg w h)
  | .record fs, h => fs.reencodes cfg h
theorem Variants.reencodes (cfg : Cfg) (w : TagWidth) : ∀ vs : Variants, vs.textFree = true →
    VReencodes w vs.wire (vs.dec cfg) vs.Valid
  | .nil, _ => .nil w
  | .cons tag s vs, h => by
    simp only [Variants.textFree, Bool.and_eq_true] at h
    exact .cons tag (s.reencodes cfg h.1) (vs.reencodes cfg w h.2)
theorem Fields.reencodes (cfg : Cfg) : ∀ fs : Fields, fs.textFree = true → Reencodes fs.wire (fs.dec cfg) fs.Valid
  | .nil, _ => .fnil
  | .cons s fs, h => by
    simp only [Fields.textFree, Bool.and_eq_true] at h
    exact .fcons (s.reencodes cfg h.1) (fs.reencodes cfg h.2)
end

mutual
theorem Schema.canonical_ (cfg : Cfg) : ∀ s : Schema, s.canonical cfg = true → Canonical s.wire (s.dec cfg)
  | .unit, _ => .unit
  | .bool, _ => .bool
  | .int t, _ => .int t
  | .f64, _ => .f64
  | .rangedInt t min max, _ => .rangedInt t min max
  | .rangedFloat min max, _ => .rangedFloat min max
  | .zarithN, h => by cases h
  | .zarithZ, h => by cases h
  | .bytes, _ => .bytes
  | .vecU8, _ => .bytes
  | .string, h => by cases h
  | .fixedBytes n, _ => .byteArr n
  | .fixedString n, _ => .byteArr n
  | .option s, h => .option (s.canonical_ cfg h)
  | .nullable s, h => .nullable (s.canonical_ cfg h)
  | .dynamic S s, h => .dynamic S (s.canonical_ cfg h) fun x b hb => by rw [hb]; rfl
  | .vpadded n s, h => .vpadded cfg n (s.canonical_ cfg h)
  | .padded n s, h => by
    simp only [Schema.canonical, Bool.and_eq_true, Bool.or_eq_true, decide_eq_true_eq] at h
    exact .padded cfg n h.1 (s.canonical_ cfg h.2)
  | .seq s, h => .seq (s.canonical_ cfg h) (s.readsPrefix cfg)
  | .fixSeq n s, h => .fixSeq n (s.canonical_ cfg h)
  | .limSeq n s, h => .limSeq n (s.canonical_ cfg h)
  | .autobox s, h => s.canonical_ cfg h
  | .hole _, _ => fun _ _ _ h => by cases h
  | .cstyle w tags, _ => .cstyle w tags
  | .data w vs, h => .data w _ (vs.canonical_ cfg w h)
  | .record fs, h => fs.canonical_ cfg h
theorem Variants.canonical_ (cfg : Cfg) (w : TagWidth) : ∀ vs : Variants, vs.canonical cfg = true →
    VCanonical w vs.wire (vs.dec cfg)
  | .nil, _ => .nil w
  | .cons tag s vs, h => by
    simp only [Variants.canonical, Bool.and_eq_true] at h
    exact .cons tag (s.canonical_ cfg h.1) (vs.canonical_ cfg w h.2)
theorem Fields.canonical_ (cfg : Cfg) : ∀ fs : Fields, fs.canonical cfg = true → Canonical fs.wire (fs.dec cfg)
  | .nil, _ => .fnil
  | .cons s fs, h => by
    simp only [Fields.canonical, Bool.and_eq_true] at h
    exact .fcons (s.canonical_ cfg h.1) (fs.canonical_ cfg h.2)
end

end Verif
