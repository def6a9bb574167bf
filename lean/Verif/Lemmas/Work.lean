import Verif.RecEffort
import Verif.Props.Schema
/-
The work of encoding a value and the length of what is written.
-/
namespace Verif
open Codec

/-- Pushing `n` bytes counts as `n`. -/
def byBytes (n : Nat) : Nat := n

theorem listSum_le_mul {α : Type} {f g : α → Nat} {k : Nat} (h : ∀ x, f x ≤ k * g x) : ∀ xs : List α,
    (xs.map f).sum ≤ k * (xs.map g).sum
  | [] => Nat.zero_le _
  | x :: xs => by
    simp only [List.map_cons, List.sum_cons, Nat.mul_add]
    exact Nat.add_le_add (h x) (listSum_le_mul h xs)

theorem listSum_le {α : Type} {f g : α → Nat} (h : ∀ x, f x ≤ g x) : ∀ xs : List α, (xs.map f).sum ≤ (xs.map g).sum
  | [] => Nat.le_refl _
  | x :: xs => by
    simp only [List.map_cons, List.sum_cons]
    exact Nat.add_le_add (h x) (listSum_le h xs)

theorem le_pow_mul (a k : Nat) : a ≤ 2 ^ k * a := Nat.le_mul_of_pos_left _ (Nat.two_pow_pos k)

theorem grow {a b j k : Nat} (h : a ≤ 2 ^ j * b) (hk : j ≤ k) : a ≤ 2 ^ k * b :=
  Nat.le_trans h (Nat.mul_le_mul_right _ (Nat.pow_le_pow_right (by decide) hk))

mutual
theorem Schema.work_le (cost : Nat → Nat) : ∀ (s : Schema) (x : s.Val),
    s.work cost 0 1 x ≤ s.work cost 0 2 x ∧ s.work cost 0 2 x ≤ 2 ^ s.dynDepth * s.work cost 0 1 x
  | .unit, _ | .bool, _ | .int _, _ | .f64, _ | .rangedInt _ _ _, _ | .rangedFloat _ _, _ | .zarithN, _ | .zarithZ, _ | .bytes, _
  | .vecU8, _ | .string, _ | .fixedBytes _, _ | .fixedString _, _ | .cstyle _ _, _ => ⟨Nat.le_refl _, le_pow_mul _ _⟩
  | .option s, x => by
    rcases (x : Option s.Val) with _ | x
    · exact ⟨Nat.le_refl _, le_pow_mul _ _⟩
    · have h := Schema.work_le cost s x
      refine ⟨Nat.add_le_add_left h.1 _, ?_⟩
      have e : 2 ^ s.dynDepth * (cost 1 + s.work cost 0 1 x) = 2 ^ s.dynDepth * cost 1 + 2 ^ s.dynDepth * s.work cost 0 1 x := Nat.mul_add ..
      exact Nat.le_trans (Nat.add_le_add (le_pow_mul (cost 1) s.dynDepth) h.2) (Nat.le_of_eq e.symm)
  | .nullable s, x => by
    rcases (x : Option s.Val) with _ | x
    · exact ⟨Nat.le_refl _, Nat.zero_le _⟩
    · exact Schema.work_le cost s x
  | .dynamic S s, x => by
    have h := Schema.work_le cost s x
    have h1 : cost S.len + 0 * s.looks x + 1 * s.work cost 0 1 x ≤ cost S.len + 0 * s.looks x + 2 * s.work cost 0 2 x := by omega
    have h2 : cost S.len + 0 * s.looks x + 2 * s.work cost 0 2 x ≤ 2 ^ (s.dynDepth + 1) * (cost S.len + 0 * s.looks x + 1 * s.work cost 0 1 x) := by
      have := le_pow_mul (cost S.len) (s.dynDepth + 1)
      rw [Nat.zero_mul, Nat.add_zero, Nat.mul_add, Nat.one_mul, Nat.pow_succ, Nat.mul_comm (2 ^ s.dynDepth) 2, Nat.mul_assoc 2 _ (s.work cost 0 1 x)]
      rw [Nat.pow_succ, Nat.mul_comm (2 ^ s.dynDepth) 2] at this
      have := h.2
      omega
    exact ⟨h1, h2⟩
  | .vpadded _ s, x => Schema.work_le cost s x
  | .padded n s, x => by
    have h := Schema.work_le cost s x
    refine ⟨Nat.add_le_add_right h.1 _, ?_⟩
    have e : 2 ^ s.dynDepth * (s.work cost 0 1 x + cost n) = 2 ^ s.dynDepth * s.work cost 0 1 x + 2 ^ s.dynDepth * cost n := Nat.mul_add ..
    exact Nat.le_trans (Nat.add_le_add h.2 (le_pow_mul (cost n) s.dynDepth)) (Nat.le_of_eq e.symm)
  | .seq s, xs => ⟨listSum_le (fun x => (Schema.work_le cost s x).1) xs, listSum_le_mul (fun x => (Schema.work_le cost s x).2) xs⟩
  | .fixSeq _ s, xs => ⟨listSum_le (fun x => (Schema.work_le cost s x).1) xs, listSum_le_mul (fun x => (Schema.work_le cost s x).2) xs⟩
  | .limSeq _ s, xs => ⟨listSum_le (fun x => (Schema.work_le cost s x).1) xs, listSum_le_mul (fun x => (Schema.work_le cost s x).2) xs⟩
  | .autobox s, x => Schema.work_le cost s x
  | .hole _, x => nomatch (x : Empty)
  | .data w vs, x => by
    have h := Variants.work_le cost vs x
    refine ⟨Nat.add_le_add_left h.1 _, ?_⟩
    have e : 2 ^ vs.dynDepth * (cost w.len + vs.work cost 0 1 x) = 2 ^ vs.dynDepth * cost w.len + 2 ^ vs.dynDepth * vs.work cost 0 1 x :=
      Nat.mul_add ..
    exact Nat.le_trans (Nat.add_le_add (le_pow_mul (cost w.len) vs.dynDepth) h.2) (Nat.le_of_eq e.symm)
  | .record fs, x => Fields.work_le cost fs x
theorem Variants.work_le (cost : Nat → Nat) : ∀ (vs : Variants) (x : vs.Val),
    vs.work cost 0 1 x ≤ vs.work cost 0 2 x ∧ vs.work cost 0 2 x ≤ 2 ^ vs.dynDepth * vs.work cost 0 1 x
  | .nil, x => nomatch (x : Empty)
  | .cons _ s vs, x => by
    rcases (x : s.Val ⊕ vs.Val) with x | x
    · exact ⟨(Schema.work_le cost s x).1, grow (Schema.work_le cost s x).2 (Nat.le_max_left ..)⟩
    · exact ⟨(Variants.work_le cost vs x).1, grow (Variants.work_le cost vs x).2 (Nat.le_max_right ..)⟩
theorem Fields.work_le (cost : Nat → Nat) : ∀ (fs : Fields) (x : fs.Val),
    fs.work cost 0 1 x ≤ fs.work cost 0 2 x ∧ fs.work cost 0 2 x ≤ 2 ^ fs.dynDepth * fs.work cost 0 1 x
  | .nil, _ => ⟨Nat.le_refl _, Nat.zero_le _⟩
  | .cons s fs, x => by
    have h := Schema.work_le cost s x.1
    have h' := Fields.work_le cost fs x.2
    refine ⟨Nat.add_le_add h.1 h'.1, ?_⟩
    refine Nat.le_trans (Nat.add_le_add (grow h.2 (Nat.le_max_left s.dynDepth fs.dynDepth)) (grow h'.2 (Nat.le_max_right s.dynDepth fs.dynDepth))) ?_
    exact Nat.le_of_eq (Nat.mul_add ..).symm
end

/-- What `Enc.list` gives, for a property of values and encodings that adds up. -/
theorem list_sums {α : Type} {e : Enc α} {Q : Nat → Nat → Prop} {f : α → Nat} (h0 : Q 0 0)
    (ha : ∀ a b c d, Q a c → Q b d → Q (a + b) (c + d)) (h : ∀ x b, e x = some b → Q (f x) b.length) :
    ∀ xs b, Enc.list e xs = some b → Q (xs.map f).sum b.length
  | [], _, hb => by cases hb; exact h0
  | x :: xs, _, hb => by
    obtain ⟨b, c, h1, h2, rfl⟩ := cat_eq_some.mp hb
    rw [List.length_append]
    exact ha _ _ _ _ (h x b h1) (list_sums h0 ha h xs c h2)

/-- Relations between the work and the length of the encoding that hold of single pushes, add up, and survive a length prefix. -/
structure Adds (k : Nat) (Q : Nat → Nat → Prop) : Prop where
  push : ∀ n, Q n n
  add : ∀ a b c d, Q a c → Q b d → Q (a + b) (c + d)
  pre : ∀ (S : LenPref) a c, Q a c → Q (S.len + k * a) (S.len + c)

theorem LenPref.toBe_len (S : LenPref) (l : Nat) : (toBe S.len l).length = S.len := toBe_length _ _

mutual
theorem Schema.work_adds {k : Nat} {Q : Nat → Nat → Prop} (h : Adds k Q) (cfg : Cfg) : ∀ (s : Schema) (x : s.Val) (b : Bytes),
    s.out cfg x = some b → Q (s.work byBytes 0 k x) b.length
  | .unit, _, _, hb => by cases hb; exact h.push 0
  | .bool, _, _, hb => by cases hb; exact h.push 1
  | .int t, x, _, hb => by
    cases hb
    exact (toBe_length t.len (show t.Val from x).toNat).symm ▸ h.push t.len
  | .f64, x, _, hb => by
    cases hb
    exact (toBe_length 8 (show BitVec 64 from x).toNat).symm ▸ h.push 8
  | .rangedInt t min max, x, b, hb => by
    have key : ∀ y : t.Val, Enc.rangedInt t min max y = some b → b.length = t.len := fun y hy => by
      unfold Enc.rangedInt at hy
      split at hy
      · cases hy; exact toBe_length _ _
      · cases hy
    rw [key x hb]
    exact h.push _
  | .rangedFloat _ _, x, _, hb => by
    cases hb
    exact (toBe_length 8 (show BitVec 64 from x).toNat).symm ▸ h.push 8
  | .zarithN, _, _, hb => by cases hb; exact h.push _
  | .zarithZ, _, _, hb => by cases hb; exact h.push _
  | .bytes, _, _, hb => by cases hb; exact h.push _
  | .vecU8, _, _, hb => by cases hb; exact h.push _
  | .string, _, _, hb => by cases hb; exact h.push _
  | .fixedBytes n, x, _, hb => by cases hb; exact (show ByteArr n from x).2.symm ▸ h.push n
  | .fixedString n, x, _, hb => by cases hb; exact (show ByteArr n from x).2.symm ▸ h.push n
  | .option s, x, b, hb => by
    rcases (x : Option s.Val) with _ | x
    · cases hb; exact h.push 1
    · obtain ⟨p, c, h1, h2, rfl⟩ := cat_eq_some.mp hb
      cases h1
      rw [List.length_append]
      exact h.add 1 (s.work byBytes 0 k x) 1 c.length (h.push 1) (Schema.work_adds h cfg s x c h2)
  | .nullable s, x, b, hb => by
    rcases (x : Option s.Val) with _ | x
    · cases hb; exact h.push 0
    · exact Schema.work_adds h cfg s x b hb
  | .dynamic S s, x, b, hb => by
    obtain ⟨l, c, h1, h2, h3, rfl⟩ := Enc.dynamic_eq_some.mp hb
    rw [List.length_append, LenPref.toBe_len]
    have e : S.len + 0 * s.looks x + k * s.work byBytes 0 k x = S.len + k * s.work byBytes 0 k x := by omega
    exact (congrArg (Q · _) e).mpr (h.pre S _ _ (Schema.work_adds h cfg s x c h3))
  | .vpadded _ s, x, b, hb => Schema.work_adds h cfg s x b hb
  | .padded n s, x, b, hb => by
    obtain ⟨c, p, h1, h2, rfl⟩ := cat_eq_some.mp hb
    cases h2
    rw [List.length_append, List.length_replicate]
    exact h.add _ _ _ _ (Schema.work_adds h cfg s x c h1) (h.push n)
  | .seq s, xs, b, hb => list_sums (h.push 0) h.add (Schema.work_adds h cfg s) xs b hb
  | .fixSeq _ s, xs, b, hb => list_sums (h.push 0) h.add (Schema.work_adds h cfg s) xs b hb
  | .limSeq _ s, xs, b, hb => list_sums (h.push 0) h.add (Schema.work_adds h cfg s) xs b hb
  | .autobox s, x, b, hb => Schema.work_adds h cfg s x b hb
  | .hole _, x, _, _ => nomatch (x : Empty)
  | .cstyle w tags, x, _, hb => by
    cases hb
    exact (toBe_length w.len (show CEnum tags from x).1).symm ▸ h.push w.len
  | .data w vs, x, b, hb => Variants.work_adds h cfg vs w x b hb
  | .record fs, x, b, hb => Fields.work_adds h cfg fs x b hb
theorem Variants.work_adds {k : Nat} {Q : Nat → Nat → Prop} (h : Adds k Q) (cfg : Cfg) : ∀ (vs : Variants) (w : TagWidth) (x : vs.Val)
    (b : Bytes), vs.out cfg w x = some b → Q (w.len + vs.work byBytes 0 k x) b.length
  | .nil, _, x, _, _ => nomatch (x : Empty)
  | .cons tag s vs, w, x, b, hb => by
    rcases (x : s.Val ⊕ vs.Val) with x | x
    · obtain ⟨p, c, h1, h2, rfl⟩ := cat_eq_some.mp hb
      cases h1
      rw [List.length_append, toBe_length]
      exact h.add _ _ _ _ (h.push w.len) (Schema.work_adds h cfg s x c h2)
    · exact Variants.work_adds h cfg vs w x b hb
theorem Fields.work_adds {k : Nat} {Q : Nat → Nat → Prop} (h : Adds k Q) (cfg : Cfg) : ∀ (fs : Fields) (x : fs.Val) (b : Bytes),
    fs.out cfg x = some b → Q (fs.work byBytes 0 k x) b.length
  | .nil, _, _, hb => by cases hb; exact h.push 0
  | .cons s fs, x, b, hb => by
    obtain ⟨p, c, h1, h2, rfl⟩ := cat_eq_some.mp hb
    rw [List.length_append]
    exact h.add _ _ _ _ (Schema.work_adds h cfg s x.1 p h1) (Fields.work_adds h cfg fs x.2 c h2)
end

theorem adds_once : Adds 1 fun a b => a = b :=
  ⟨fun _ => rfl, fun _ _ _ _ h h' => by rw [h, h'], fun S _ _ h => by rw [h, Nat.one_mul]⟩

theorem adds_twice : Adds 2 fun a b => a < 2 ^ b := by
  refine ⟨fun n => Nat.lt_two_pow_self, fun a b c d h h' => ?_, fun S a c h => ?_⟩
  · have : (a + 1) * (b + 1) ≤ 2 ^ c * 2 ^ d := Nat.mul_le_mul h h'
    rw [Nat.add_mul, Nat.mul_add, ← Nat.pow_add] at this
    omega
  · rw [Nat.pow_add]
    have : 2 * (a + 1) ≤ 2 * 2 ^ c := Nat.mul_le_mul_left 2 h
    cases S <;> simp only [LenPref.len] <;> omega

/-! ### calls of estimators -/

/-- Pushes that are not counted. -/
def free (_ : Nat) : Nat := 0

theorem unlessKnown_le (w : Option Nat) (n : Nat) : unlessKnown w n ≤ n := by
  unfold unlessKnown
  split <;> omega

theorem unlessKnown_of {w : Option Nat} (h : w.isSome = true) (n : Nat) : unlessKnown w n = 0 := by
  unfold unlessKnown
  rw [if_pos h]

theorem listSum_zero {α : Type} {f : α → Nat} (h : ∀ x, f x = 0) : ∀ xs : List α, (xs.map f).sum = 0
  | [] => rfl
  | x :: xs => by
    simp only [List.map_cons, List.sum_cons, h x, listSum_zero h xs]

mutual
/-- Nothing is estimated to encode values of types of known length. -/
theorem Schema.work_known : ∀ (s : Schema) (x : s.Val), s.width.isSome = true → s.work free 1 1 x = 0
  | .unit, _, _ | .bool, _, _ | .int _, _, _ | .f64, _, _ | .rangedInt _ _ _, _, _ | .rangedFloat _ _, _, _ | .zarithN, _, _
  | .zarithZ, _, _ | .bytes, _, _ | .vecU8, _, _ | .string, _, _ | .fixedBytes _, _, _ | .fixedString _, _, _ | .cstyle _ _, _, _ => rfl
  | .option s, x, hw => by
    rcases (x : Option s.Val) with _ | x
    · rfl
    · have h0 : s.width.isSome = true := by
        simp only [Schema.width] at hw
        split at hw
        · next h => rw [h]; rfl
        · cases hw
      have h := Schema.work_known s x h0
      show 0 + s.work free 1 1 x = 0
      rw [h]
  | .nullable s, x, hw => by
    rcases (x : Option s.Val) with _ | x
    · rfl
    · have h0 : s.width.isSome = true := by
        simp only [Schema.width] at hw
        split at hw
        · next h => rw [h]; rfl
        · cases hw
      exact Schema.work_known s x h0
  | .dynamic S s, x, hw => by
    have h0 : s.width.isSome = true := by simpa [Schema.width] using hw
    have h := Schema.work_known s x h0
    have e : s.looks x = 0 := unlessKnown_of h0 _
    show 0 + 1 * s.looks x + 1 * s.work free 1 1 x = 0
    rw [h, e]
  | .vpadded _ s, x, hw => Schema.work_known s x hw
  | .padded n s, x, hw => by
    have h0 : s.width.isSome = true := by simpa [Schema.width] using hw
    have h := Schema.work_known s x h0
    show s.work free 1 1 x + 0 = 0
    rw [h]
  | .seq _, _, hw => nomatch hw
  | .fixSeq _ s, xs, hw => by
    have h0 : s.width.isSome = true := by simpa [Schema.width] using hw
    exact listSum_zero (fun x => Schema.work_known s x h0) xs
  | .limSeq _ _, _, hw => nomatch hw
  | .autobox s, x, hw => Schema.work_known s x hw
  | .hole _, x, _ => nomatch (x : Empty)
  | .data _ _, _, hw => nomatch hw
  | .record fs, x, hw => Fields.work_known fs x hw
theorem Fields.work_known : ∀ (fs : Fields) (x : fs.Val), fs.width.isSome = true → fs.work free 1 1 x = 0
  | .nil, _, _ => rfl
  | .cons s fs, x, hw => by
    simp only [Fields.width] at hw
    split at hw
    · next m n h1 h2 =>
      have e1 := Schema.work_known s x.1 (by rw [h1]; rfl)
      have e2 := Fields.work_known fs x.2 (by rw [h2]; rfl)
      show s.work free 1 1 x.1 + fs.work free 1 1 x.2 = 0
      rw [e1, e2]
    · cases hw
end

/-- Relations between how deep `Dynamic`s are nested, the calls made to encode a value and those made to estimate it. -/
structure Tallies (R : Nat → Nat → Nat → Prop) : Prop where
  zero : ∀ d c, R d 0 c
  mono : ∀ d d' a c c', R d a c → d ≤ d' → c ≤ c' → R d' a c'
  add : ∀ d a b c e, R d a c → R d b e → R d (a + b) (c + e)
  pre : ∀ d a c c', R d a c → c' ≤ c → R (d + 1) (c' + a) (c + 1)

namespace Tallies

variable {R : Nat → Nat → Nat → Prop} (h : Tallies R)
include h

theorem known {d a c : Nat} {w : Option Nat} (hw : w.isSome = true → a = 0) (ha : R d a c) : R d a (unlessKnown w c) := by
  unfold unlessKnown
  split
  · next hs => rw [hw hs]; exact h.zero _ _
  · exact ha

theorem list {α : Type} {d : Nat} {f g : α → Nat} (hx : ∀ x, R d (f x) (g x)) : ∀ xs : List α, R d (xs.map f).sum (xs.map g).sum
  | [] => h.zero _ _
  | x :: xs => by
    simp only [List.map_cons, List.sum_cons]
    exact h.add _ _ _ _ _ (hx x) (list hx xs)

end Tallies

mutual
theorem Schema.work_tallies {R : Nat → Nat → Nat → Prop} (h : Tallies R) : ∀ (s : Schema) (x : s.Val), R s.dynDepth (s.work free 1 1 x) (s.calls x)
  | .unit, _ | .bool, _ | .int _, _ | .f64, _ | .rangedInt _ _ _, _ | .rangedFloat _ _, _ | .zarithN, _ | .zarithZ, _ | .bytes, _
  | .vecU8, _ | .string, _ | .fixedBytes _, _ | .fixedString _, _ | .cstyle _ _, _ => h.zero _ _
  | .option s, x => by
    rcases (x : Option s.Val) with _ | x
    · exact h.zero _ _
    · have hx := h.known (Schema.work_known s x) (Schema.work_tallies h s x)
      have e : 0 + s.work free 1 1 x = s.work free 1 1 x := Nat.zero_add _
      exact (congrArg (R _ · _) e).mpr (h.mono _ s.dynDepth _ _ (s.looks x + 1) hx (Nat.le_refl _) (Nat.le_succ _))
  | .nullable s, x => by
    rcases (x : Option s.Val) with _ | x
    · exact h.zero _ _
    · have hx := h.known (Schema.work_known s x) (Schema.work_tallies h s x)
      exact h.mono _ s.dynDepth _ _ (s.looks x + 1) hx (Nat.le_refl _) (Nat.le_succ _)
  | .dynamic S s, x => by
    have e : 0 + 1 * s.looks x + 1 * s.work free 1 1 x = s.looks x + s.work free 1 1 x := by omega
    exact (congrArg (R _ · _) e).mpr (h.pre _ _ _ _ (Schema.work_tallies h s x) (unlessKnown_le _ _))
  | .vpadded _ s, x => h.mono _ s.dynDepth _ _ (s.calls x + 1) (Schema.work_tallies h s x) (Nat.le_refl _) (Nat.le_succ _)
  | .padded _ s, x => h.mono _ s.dynDepth _ _ (s.calls x + 1) (Schema.work_tallies h s x) (Nat.le_refl _) (Nat.le_succ _)
  | .seq s, xs => h.mono _ s.dynDepth _ _ ((xs.map s.looks).sum + 1)
      (h.list (fun x => h.known (Schema.work_known s x) (Schema.work_tallies h s x)) xs) (Nat.le_refl _) (Nat.le_succ _)
  | .fixSeq _ s, xs => h.mono _ s.dynDepth _ _ ((xs.map s.calls).sum + 1) (h.list (Schema.work_tallies h s) xs) (Nat.le_refl _) (Nat.le_succ _)
  | .limSeq _ s, xs => h.mono _ s.dynDepth _ _ ((xs.map s.looks).sum + 1)
      (h.list (fun x => h.known (Schema.work_known s x) (Schema.work_tallies h s x)) xs) (Nat.le_refl _) (Nat.le_succ _)
  | .autobox s, x => h.mono _ s.dynDepth _ _ (s.calls x + 1) (Schema.work_tallies h s x) (Nat.le_refl _) (Nat.le_succ _)
  | .hole _, x => nomatch (x : Empty)
  | .data w vs, x => by
    have e : 0 + vs.work free 1 1 x = vs.work free 1 1 x := Nat.zero_add _
    exact (congrArg (R _ · _) e).mpr (h.mono _ vs.dynDepth _ _ (vs.calls x + 1) (Variants.work_tallies h vs x) (Nat.le_refl _) (Nat.le_succ _))
  | .record fs, x => h.mono _ fs.dynDepth _ _ (fs.calls x + 1) (Fields.work_tallies h fs x) (Nat.le_refl _) (Nat.le_succ _)
theorem Variants.work_tallies {R : Nat → Nat → Nat → Prop} (h : Tallies R) : ∀ (vs : Variants) (x : vs.Val),
    R vs.dynDepth (vs.work free 1 1 x) (vs.calls x)
  | .nil, x => nomatch (x : Empty)
  | .cons _ s vs, x => by
    rcases (x : s.Val ⊕ vs.Val) with x | x
    · exact h.mono _ _ _ _ _ (h.known (Schema.work_known s x) (Schema.work_tallies h s x)) (Nat.le_max_left ..) (Nat.le_refl _)
    · exact h.mono _ _ _ _ _ (Variants.work_tallies h vs x) (Nat.le_max_right ..) (Nat.le_refl _)
theorem Fields.work_tallies {R : Nat → Nat → Nat → Prop} (h : Tallies R) : ∀ (fs : Fields) (x : fs.Val),
    R fs.dynDepth (fs.work free 1 1 x) (fs.calls x)
  | .nil, _ => h.zero _ _
  | .cons s fs, x =>
    h.add _ _ _ _ _ (h.mono _ _ _ _ _ (Schema.work_tallies h s x.1) (Nat.le_max_left ..) (Nat.le_refl _))
      (h.mono _ _ _ _ _ (Fields.work_tallies h fs x.2) (Nat.le_max_right ..) (Nat.le_refl _))
end

theorem Schema.work_looks {R : Nat → Nat → Nat → Prop} (h : Tallies R) (s : Schema) (x : s.Val) :
    R s.dynDepth (s.work free 1 1 x) (s.looks x) := h.known (s.work_known x) (s.work_tallies h x)

theorem tallies_depth : Tallies fun d a c => a ≤ d * c := by
  refine ⟨fun _ _ => Nat.zero_le _, fun d d' a c c' h1 h2 h3 => Nat.le_trans h1 (Nat.mul_le_mul h2 h3), fun d a b c e h1 h2 => ?_,
    fun d a c c' h1 h2 => ?_⟩
  · rw [Nat.mul_add]
    exact Nat.add_le_add h1 h2
  · rw [Nat.mul_add, Nat.add_mul]
    omega

theorem tallies_square : Tallies fun _ a c => 2 * a ≤ c * c := by
  refine ⟨fun _ _ => Nat.zero_le _, fun d d' a c c' h1 h2 h3 => Nat.le_trans h1 (Nat.mul_le_mul h3 h3), fun d a b c e h1 h2 => ?_,
    fun d a c c' h1 h2 => ?_⟩
  · rw [Nat.mul_add, Nat.mul_add, Nat.add_mul, Nat.add_mul]
    omega
  · rw [Nat.mul_add, Nat.mul_add, Nat.add_mul]
    omega

theorem listSum_split {α : Type} {f g e : α → Nat} {l : Nat} (h : ∀ x, f x = g x + l * e x) : ∀ xs : List α,
    (xs.map f).sum = (xs.map g).sum + l * (xs.map e).sum
  | [] => rfl
  | x :: xs => by
    simp only [List.map_cons, List.sum_cons, h x, listSum_split h xs, Nat.mul_add]
    omega

mutual
/-- If contents are written once, pushes and calls of estimators can be counted apart. -/
theorem Schema.work_split (cost : Nat → Nat) (l : Nat) : ∀ (s : Schema) (x : s.Val),
    s.work cost l 1 x = s.work cost 0 1 x + l * s.work free 1 1 x
  | .unit, _ | .bool, _ | .int _, _ | .f64, _ | .rangedInt _ _ _, _ | .rangedFloat _ _, _ | .zarithN, _ | .zarithZ, _ | .bytes, _
  | .vecU8, _ | .string, _ | .fixedBytes _, _ | .fixedString _, _ | .cstyle _ _, _ => rfl
  | .option s, x => by
    rcases (x : Option s.Val) with _ | x
    · rfl
    · have h := Schema.work_split cost l s x
      show cost 1 + s.work cost l 1 x = cost 1 + s.work cost 0 1 x + l * (0 + s.work free 1 1 x)
      rw [h, Nat.zero_add, Nat.add_assoc]
  | .nullable s, x => by
    rcases (x : Option s.Val) with _ | x
    · rfl
    · exact Schema.work_split cost l s x
  | .dynamic S s, x => by
    have h := Schema.work_split cost l s x
    show cost S.len + l * s.looks x + 1 * s.work cost l 1 x =
      cost S.len + 0 * s.looks x + 1 * s.work cost 0 1 x + l * (0 + 1 * s.looks x + 1 * s.work free 1 1 x)
    rw [h, Nat.zero_add, Nat.one_mul, Nat.one_mul, Nat.one_mul, Nat.one_mul, Nat.mul_add]
    omega
  | .vpadded _ s, x => Schema.work_split cost l s x
  | .padded n s, x => by
    have h := Schema.work_split cost l s x
    show s.work cost l 1 x + cost n = s.work cost 0 1 x + cost n + l * (s.work free 1 1 x + 0)
    rw [h, Nat.add_zero]
    omega
  | .seq s, xs => listSum_split (Schema.work_split cost l s) xs
  | .fixSeq _ s, xs => listSum_split (Schema.work_split cost l s) xs
  | .limSeq _ s, xs => listSum_split (Schema.work_split cost l s) xs
  | .autobox s, x => Schema.work_split cost l s x
  | .hole _, x => nomatch (x : Empty)
  | .data w vs, x => by
    have h := Variants.work_split cost l vs x
    show cost w.len + vs.work cost l 1 x = cost w.len + vs.work cost 0 1 x + l * (0 + vs.work free 1 1 x)
    rw [h, Nat.zero_add, Nat.add_assoc]
  | .record fs, x => Fields.work_split cost l fs x
theorem Variants.work_split (cost : Nat → Nat) (l : Nat) : ∀ (vs : Variants) (x : vs.Val),
    vs.work cost l 1 x = vs.work cost 0 1 x + l * vs.work free 1 1 x
  | .nil, x => nomatch (x : Empty)
  | .cons _ s vs, x => by
    rcases (x : s.Val ⊕ vs.Val) with x | x
    · exact Schema.work_split cost l s x
    · exact Variants.work_split cost l vs x
theorem Fields.work_split (cost : Nat → Nat) (l : Nat) : ∀ (fs : Fields) (x : fs.Val),
    fs.work cost l 1 x = fs.work cost 0 1 x + l * fs.work free 1 1 x
  | .nil, _ => rfl
  | .cons s fs, x => by
    have h1 := Schema.work_split cost l s x.1
    have h2 := Fields.work_split cost l fs x.2
    show s.work cost l 1 x.1 + fs.work cost l 1 x.2 =
      s.work cost 0 1 x.1 + fs.work cost 0 1 x.2 + l * (s.work free 1 1 x.1 + fs.work free 1 1 x.2)
    rw [h1, h2, Nat.mul_add]
    omega
end

end Verif
