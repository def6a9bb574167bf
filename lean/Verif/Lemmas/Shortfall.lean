import Verif.Spec.Shortfall
import Verif.Lemmas.Schema
/-
The length estimate falls short by the number of zero `N`s, and by nothing else.
-/
namespace Verif

theorem Enc.list_length_gap {α : Type} {e : Enc α} {V : α → Prop} {f g : α → Nat}
    (h : ∀ x b, V x → e x = some b → f x + g x = b.length) : ∀ {xs : List α} {b : Bytes}, (∀ x ∈ xs, V x) →
    Enc.list e xs = some b → (xs.map f).sum + (xs.map g).sum = b.length
  | [], b, _, hb => by cases hb; simp
  | x :: xs, b, hv, hb => by
    obtain ⟨b1, b2, h1, h2, rfl⟩ := cat_eq_some.mp hb
    have := list_length_gap h (fun y hy => hv y (by simp [hy])) h2
    have := h x b1 (hv x (by simp)) h1
    simp
    omega

theorem sum_zero {α : Type} {f : α → Nat} : ∀ {xs : List α}, (∀ x ∈ xs, f x = 0) → (xs.map f).sum = 0
  | [], _ => rfl
  | x :: xs, h => by
    have ih := sum_zero (f := f) (xs := xs) fun y hy => h y (by simp [hy])
    simp [h x (by simp), ih]

mutual
theorem Schema.zeros_of_width : ∀ (s : Schema) {n : Nat}, s.width = some n → ∀ x, s.zeros x = 0
  | .unit, _, _, _ => rfl
  | .bool, _, _, _ => rfl
  | .int _, _, _, _ => rfl
  | .f64, _, _, _ => rfl
  | .rangedInt _ _ _, _, _, _ => rfl
  | .rangedFloat _ _, _, _, _ => rfl
  | .zarithN, _, h, _ => by cases h
  | .zarithZ, _, h, _ => by cases h
  | .bytes, _, h, _ => by cases h
  | .vecU8, _, h, _ => by cases h
  | .string, _, h, _ => by cases h
  | .fixedBytes _, _, _, _ => rfl
  | .fixedString _, _, _, _ => rfl
  | .option s, n, h, x => by
    simp only [Schema.width] at h
    split at h
    · rename_i h0
      match x with
      | none => rfl
      | some y => exact s.zeros_of_width h0 y
    · cases h
  | .nullable s, n, h, x => by
    simp only [Schema.width] at h
    split at h
    · rename_i h0
      match x with
      | none => rfl
      | some y => exact s.zeros_of_width h0 y
    · cases h
  | .dynamic S s, n, h, x => by
    simp only [Schema.width, Option.map_eq_some_iff] at h
    obtain ⟨m, hm, rfl⟩ := h
    exact s.zeros_of_width hm x
  | .vpadded _ s, n, h, x => s.zeros_of_width h x
  | .padded k s, n, h, x => by
    simp only [Schema.width, Option.map_eq_some_iff] at h
    obtain ⟨m, hm, rfl⟩ := h
    exact s.zeros_of_width hm x
  | .seq s, _, h, _ => by cases h
  | .fixSeq k s, n, h, x => by
    simp only [Schema.width, Option.map_eq_some_iff] at h
    obtain ⟨m, hm, rfl⟩ := h
    exact sum_zero fun y _ => s.zeros_of_width hm y
  | .limSeq _ s, _, h, _ => by cases h
  | .autobox s, n, h, x => s.zeros_of_width h x
  | .hole _, _, h, _ => by cases h
  | .cstyle _ _, _, _, _ => rfl
  | .data _ _, _, h, _ => by cases h
  | .record fs, n, h, x => fs.zeros_of_width h x
theorem Fields.zeros_of_width : ∀ (fs : Fields) {n : Nat}, fs.width = some n → ∀ x, fs.zeros x = 0
  | .nil, _, _, _ => rfl
  | .cons s fs, n, h, x => by
    simp only [Fields.width] at h
    split at h
    · rename_i m k h1 h2
      simp only [Fields.zeros, s.zeros_of_width h1, fs.zeros_of_width h2]
    · cases h
end

mutual
theorem Schema.out_width (cfg : Cfg) : ∀ (s : Schema) {n : Nat}, s.width = some n → ∀ x b, s.Valid x → s.out cfg x = some b →
    b.length = n
  | .unit, _, h, _, _, _, hb => by cases h; cases hb; rfl
  | .bool, _, h, _, _, _, hb => by cases h; cases hb; rfl
  | .int _, _, h, _, _, _, hb => by cases h; cases hb; exact toBe_length _ _
  | .f64, _, h, _, _, _, hb => by cases h; cases hb; exact toBe_length _ _
  | .rangedInt t min max, _, h, x, b, hv, hb => (Schema.rangedInt t min max).width_eq h x b hv hb
  | .rangedFloat _ _, _, h, _, _, _, hb => by cases h; cases hb; exact toBe_length _ _
  | .zarithN, _, h, _, _, _, _ => by cases h
  | .zarithZ, _, h, _, _, _, _ => by cases h
  | .bytes, _, h, _, _, _, _ => by cases h
  | .vecU8, _, h, _, _, _, _ => by cases h
  | .string, _, h, _, _, _, _ => by cases h
  | .fixedBytes n, _, h, x, _, _, hb => by cases h; cases hb; exact x.2
  | .fixedString n, _, h, x, _, _, hb => by cases h; cases hb; exact x.2
  | .option s, n, h, x, b, hv, hb => by
    simp only [Schema.width] at h
    split at h
    · rename_i h0
      cases h
      rcases Enc.option_length hb with ⟨-, h1⟩ | ⟨y, b', rfl, h1, h2⟩
      · exact h1
      · have := s.out_width cfg h0 y b' (hv y rfl) h1
        omega
    · cases h
  | .nullable s, n, h, x, b, hv, hb => by
    simp only [Schema.width] at h
    split at h
    · rename_i h0
      cases h
      match x, hb, hv with
      | none, hb, _ => cases hb; rfl
      | some y, hb, hv => exact s.out_width cfg h0 y b (hv y rfl) hb
    · cases h
  | .dynamic S s, n, h, x, b, hv, hb => by
    simp only [Schema.width, Option.map_eq_some_iff] at h
    obtain ⟨m, hm, rfl⟩ := h
    obtain ⟨l, b', h1, h2, h3, rfl⟩ := Enc.dynamic_eq_some.mp hb
    have := s.out_width cfg hm x b' hv h3
    simp [this]
  | .vpadded _ s, n, h, x, b, hv, hb => s.out_width cfg h x b hv hb
  | .padded k s, n, h, x, b, hv, hb => by
    simp only [Schema.width, Option.map_eq_some_iff] at h
    obtain ⟨m, hm, rfl⟩ := h
    obtain ⟨b1, b2, h1, h2, rfl⟩ := cat_eq_some.mp hb
    cases h2
    have := s.out_width cfg hm x b1 hv h1
    simp [this]
  | .seq s, _, h, _, _, _, _ => by cases h
  | .fixSeq k s, n, h, x, b, hv, hb => by
    simp only [Schema.width, Option.map_eq_some_iff] at h
    obtain ⟨m, hm, rfl⟩ := h
    have := Enc.list_length_const (s.out_width cfg hm) hv.2 hb
    rw [this]
    congr 1
    exact hv.1
  | .limSeq _ s, _, h, _, _, _, _ => by cases h
  | .autobox s, n, h, x, b, hv, hb => s.out_width cfg h x b hv hb
  | .hole _, _, h, _, _, _, _ => by cases h
  | .cstyle w _, _, h, _, _, _, hb => by cases h; cases hb; exact toBe_length _ _
  | .data _ _, _, h, _, _, _, _ => by cases h
  | .record fs, n, h, x, b, hv, hb => fs.out_width cfg h x b hv hb
theorem Fields.out_width (cfg : Cfg) : ∀ (fs : Fields) {n : Nat}, fs.width = some n → ∀ x b, fs.Valid x → fs.out cfg x = some b →
    b.length = n
  | .nil, _, h, _, _, _, hb => by cases h; cases hb; rfl
  | .cons s fs, n, h, x, b, hv, hb => by
    simp only [Fields.width] at h
    split at h
    · rename_i m k h1 h2
      cases h
      obtain ⟨b1, b2, h3, h4, rfl⟩ := cat_eq_some.mp hb
      have e1 := s.out_width cfg h1 _ _ hv.1 h3
      have e2 := fs.out_width cfg h2 _ _ hv.2 h4
      simp [e1, e2]
    · cases h
end

theorem Schema.gap_of (cfg : Cfg) (s : Schema) {x : s.Val} {b : Bytes}
    (hu : s.Valid x → s.out cfg x = some b → (s.codec cfg).unknown x + s.zeros x = b.length)
    (hv : s.Valid x) (hb : s.out cfg x = some b) : (s.codec cfg).estimate x + s.zeros x = b.length := by
  unfold Codec.estimate
  rw [s.known_eq cfg]
  cases hw : s.width with
  | none => exact hu hv hb
  | some n =>
    rw [s.zeros_of_width hw x]
    exact (s.out_width cfg hw x b hv hb).symm

mutual
theorem Schema.unknown_gap (cfg : Cfg) : ∀ (s : Schema) (x : s.Val) (b : Bytes), s.Valid x → s.out cfg x = some b →
    (s.codec cfg).unknown x + s.zeros x = b.length
  | .unit, _, _, _, hb => by cases hb; rfl
  | .bool, _, _, _, hb => by cases hb; rfl
  | .int _, _, _, _, hb => by cases hb; exact (toBe_length _ _).symm
  | .f64, _, _, _, hb => by cases hb; exact (toBe_length _ _).symm
  | .rangedInt t min max, x, b, hv, hb => ((Schema.rangedInt t min max).width_eq rfl x b hv hb).symm
  | .rangedFloat _ _, _, _, _, hb => by cases hb; exact (toBe_length _ _).symm
  | .zarithN, x, _, _, hb => by
    cases hb
    have key : ∀ x : Nat, Codec.zarithN.unknown x + (if x = 0 then 1 else 0) = (Enc.nat7 x).length := by
      intro x
      by_cases h : x = 0
      · subst h
        rw [Enc.nat7]
        have h0 : bits 0 = 0 := by rw [bits]; rfl
        show divCeil (bits 0) 7 + 1 = 1
        rw [h0]
        rfl
      · rw [if_neg h]
        exact divCeil_bits h
    exact key x
  | .zarithZ, _, _, _, hb => by cases hb; exact estimateZ _
  | .bytes, _, _, _, hb => by cases hb; rfl
  | .vecU8, _, _, _, hb => by cases hb; exact Nat.mul_one _
  | .string, _, _, _, hb => by cases hb; exact Nat.mul_one _
  | .fixedBytes n, x, _, _, hb => by cases hb; exact x.2.symm
  | .fixedString n, x, _, _, hb => by cases hb; exact x.2.symm
  | .option s, x, b, hv, hb => by
    rcases Enc.option_length hb with ⟨rfl, h1⟩ | ⟨y, b', rfl, h1, h2⟩
    · exact h1.symm
    · have := s.gap_of cfg (s.unknown_gap cfg y b') (hv y rfl) h1
      show 1 + (s.codec cfg).estimate y + s.zeros y = b.length
      omega
  | .nullable s, x, b, hv, hb => by
    match x, hb, hv with
    | none, hb, _ => cases hb; rfl
    | some y, hb, hv => exact s.gap_of cfg (s.unknown_gap cfg y b) (hv y rfl) hb
  | .dynamic S s, x, b, hv, hb => by
    obtain ⟨l, b', h1, h2, h3, rfl⟩ := Enc.dynamic_eq_some.mp hb
    have := s.unknown_gap cfg x b' hv h3
    simp [Schema.codec, Codec.dynamic, Schema.zeros]
    omega
  | .vpadded _ s, x, b, hv, hb => s.unknown_gap cfg x b hv hb
  | .padded k s, x, b, hv, hb => by
    obtain ⟨b1, b2, h1, h2, rfl⟩ := cat_eq_some.mp hb
    cases h2
    have := s.unknown_gap cfg x b1 hv h1
    simp [Schema.codec, Codec.padded, Schema.zeros]
    omega
  | .seq s, x, b, hv, hb =>
    Enc.list_length_gap (fun y b' h h' => s.gap_of cfg (s.unknown_gap cfg y b') h h') hv hb
  | .fixSeq k s, x, b, hv, hb =>
    Enc.list_length_gap (fun y b' h h' => s.unknown_gap cfg y b' h h') hv.2 hb
  | .limSeq _ s, x, b, hv, hb =>
    Enc.list_length_gap (fun y b' h h' => s.gap_of cfg (s.unknown_gap cfg y b') h h') hv.2 hb
  | .autobox s, x, b, hv, hb => s.unknown_gap cfg x b hv hb
  | .hole _, x, _, _, _ => nomatch x
  | .cstyle w _, _, _, _, hb => by cases hb; exact (toBe_length _ _).symm
  | .data w vs, x, b, hv, hb => vs.unknown_gap cfg w x b hv hb
  | .record fs, x, b, hv, hb => fs.unknown_gap cfg x b hv hb
theorem Variants.unknown_gap (cfg : Cfg) : ∀ (vs : Variants) (w : TagWidth) (x : vs.Val) (b : Bytes), vs.Valid x →
    vs.out cfg w x = some b → (vs.codec cfg).unknown w x + vs.zeros x = b.length
  | .nil, _, x, _, _, _ => nomatch x
  | .cons tag s vs, w, .inl x, b, hv, hb => by
    obtain ⟨b1, b2, h1, h2, rfl⟩ := cat_eq_some.mp hb
    cases h1
    have := s.gap_of cfg (s.unknown_gap cfg x b2) hv h2
    simp [Variants.codec, VCodec.cons, Variants.zeros]
    omega
  | .cons tag s vs, w, .inr x, b, hv, hb => vs.unknown_gap cfg w x b hv hb
theorem Fields.unknown_gap (cfg : Cfg) : ∀ (fs : Fields) (x : fs.Val) (b : Bytes), fs.Valid x → fs.out cfg x = some b →
    (fs.codec cfg).unknown x + fs.zeros x = b.length
  | .nil, _, _, _, hb => by cases hb; rfl
  | .cons s fs, x, b, hv, hb => by
    obtain ⟨b1, b2, h1, h2, rfl⟩ := cat_eq_some.mp hb
    have e1 := s.unknown_gap cfg x.1 b1 hv.1 h1
    have e2 := fs.unknown_gap cfg x.2 b2 hv.2 h2
    simp [Fields.codec, FCodec.cons, Fields.zeros]
    omega
end

theorem Schema.estimate_gap (cfg : Cfg) (s : Schema) (x : s.Val) (b : Bytes) (hv : s.Valid x)
    (hb : s.out cfg x = some b) : (s.codec cfg).estimate x + s.zeros x = b.length :=
  s.gap_of cfg (s.unknown_gap cfg x b) hv hb

end Verif
