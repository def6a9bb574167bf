import Verif.Lemmas.Compare
import Verif.Lemmas.Schema
/-
Encodings of values that compare equal.
-/
namespace Verif

/-- Both are not encodable, or the encodings are near. -/
inductive NearO : Option Bytes → Option Bytes → Prop where
  | none : NearO none none
  | some {b c : Bytes} : Near b c → NearO (some b) (some c)

namespace Near

theorem refl : ∀ b : Bytes, Near b b
  | [] => .nil
  | a :: b => .same a (refl b)

theorem append {a b c d : Bytes} (h : Near a b) (h' : Near c d) : Near (a ++ c) (b ++ d) := by
  induction h with
  | nil => exact h'
  | same a _ ih => exact .same a ih
  | neg _ ih => exact .neg ih
  | pos _ ih => exact .pos ih

theorem length {a b : Bytes} (h : Near a b) : a.length = b.length := by
  induction h with
  | nil => rfl
  | same a _ ih => simp [ih]
  | neg _ ih => simp [ih]
  | pos _ ih => simp [ih]

end Near

namespace NearO

theorem refl : ∀ b, NearO b b
  | .none => .none
  | .some b => .some (.refl b)

theorem cat {a b c d : Option Bytes} (h : NearO a b) (h' : NearO c d) : NearO (Enc.cat a c) (Enc.cat b d) := by
  cases h with
  | none => exact .none
  | some h =>
    cases h' with
    | none => exact .none
    | some h' => exact .some (h.append h')

theorem length {a b : Option Bytes} (h : NearO a b) : a.map List.length = b.map List.length := by
  cases h with
  | none => rfl
  | some h => simp [h.length]

end NearO

/-- Equal values have near encodings and the same length estimate. -/
def Nears {α : Type} (eq : α → α → Bool) (e : Enc α) (u : α → Nat) : Prop :=
  ∀ x y, eq x y = true → NearO (e x) (e y) ∧ u x = u y

namespace Nears

variable {α β : Type} {eq : α → α → Bool} {eq' : β → β → Bool} {e : Enc α} {e' : Enc β} {u v : α → Nat} {u' : β → Nat}

theorem exact (h : Cmp.Exact eq) : Nears eq e u := fun x y hx => by
  rw [(h x y).mp hx]
  exact ⟨.refl _, rfl⟩

theorem option (k : Nat) (h : Nears eq e u) :
    Nears (Cmp.optionEq eq) (Enc.option e) (fun x => match x with | none => 1 | some x => k + u x) := by
  intro x y hx
  cases x with
  | none => cases y with
    | none => exact ⟨.refl _, rfl⟩
    | some y => cases hx
  | some x => cases y with
    | none => cases hx
    | some y => exact ⟨.cat (.refl _) (h x y hx).1, congrArg (k + ·) (h x y hx).2⟩

theorem nullable (h : Nears eq e u) :
    Nears (Cmp.optionEq eq) (Enc.nullable e) (fun x => match x with | some x => u x | none => 0) := by
  intro x y hx
  cases x with
  | none => cases y with
    | none => exact ⟨.refl _, rfl⟩
    | some y => cases hx
  | some x => cases y with
    | none => cases hx
    | some y => exact h x y hx

theorem list (h : Nears eq e u) : Nears (Cmp.sliceEq eq) (Enc.list e) (fun xs => (xs.map u).sum) := by
  intro xs
  induction xs with
  | nil =>
    intro ys hx
    cases ys with
    | nil => exact ⟨.refl _, rfl⟩
    | cons y ys => simp [Cmp.sliceEq] at hx
  | cons x xs ih =>
    intro ys hx
    cases ys with
    | nil => simp [Cmp.sliceEq] at hx
    | cons y ys =>
      rw [Cmp.sliceEq_cons, Bool.and_eq_true] at hx
      have h1 := h x y hx.1
      have h2 := ih ys hx.2
      refine ⟨.cat h1.1 h2.1, ?_⟩
      have := h2.2
      simp only [List.map_cons, List.sum_cons, h1.2] at this ⊢
      rw [this]

theorem estimate {c : Codec α} (h : Nears eq e c.unknown) : Nears eq e c.estimate := fun x y hx => by
  refine ⟨(h x y hx).1, ?_⟩
  unfold Codec.estimate
  rw [(h x y hx).2]

theorem dynamic {cfg : Cfg} (S : LenPref) {c : Codec α} (h : Nears eq e c.unknown) :
    Nears eq (Enc.dynamic S (Enc.lenOf cfg c.estimate e) e) (fun x => S.len + c.unknown x) := fun x y hx => by
  have h1 := h x y hx
  have hl : Enc.lenOf cfg c.estimate e x = Enc.lenOf cfg c.estimate e y := by
    unfold Enc.lenOf
    rw [(h.estimate x y hx).2, h1.1.length]
  refine ⟨?_, congrArg (S.len + ·) h1.2⟩
  unfold Enc.dynamic
  rw [hl]
  cases Enc.lenOf cfg c.estimate e y with
  | none => exact .none
  | some l =>
    simp only
    split
    · exact .cat (.refl _) h1.1
    · exact .none

end Nears

/-- Equal doubles are the same unless they are zeros of different sign. -/
theorem f64Eq_iff (x y : BitVec 64) : Cmp.f64Eq x y = true ↔
    (x = y ∧ F64.isNan x = false) ∨ (x = 0x0000000000000000#64 ∧ y = 0x8000000000000000#64) ∨
      (x = 0x8000000000000000#64 ∧ y = 0x0000000000000000#64) := by
  have e : ∀ (x : BitVec 64) (n : Nat), n < 2 ^ 64 → (x = BitVec.ofNat 64 n ↔ x.toNat = n) := by
    intro x n hn
    rw [BitVec.toNat_eq, BitVec.toNat_ofNat, Nat.mod_eq_of_lt hn]
  rw [e x _ (by decide), e y _ (by decide), e x _ (by decide), e y _ (by decide), BitVec.toNat_eq]
  have hx := x.isLt
  have hy := y.isLt
  simp only [Cmp.f64Eq, F64.isNan, F64.key, Bool.and_eq_true, Bool.not_eq_true', decide_eq_false_iff_not, beq_iff_eq]
  generalize x.toNat = a at *
  generalize y.toNat = b at *
  constructor
  · rintro ⟨⟨h1, h2⟩, h3⟩
    split at h3 <;> split at h3 <;> simp only [Int.ofNat_eq_natCast] at h3 <;> omega
  · rintro (⟨rfl, h⟩ | ⟨rfl, rfl⟩ | ⟨rfl, rfl⟩)
    · exact ⟨⟨h, h⟩, rfl⟩
    · decide
    · decide

theorem f64_near (x y : BitVec 64) (h : Cmp.f64Eq x y = true) : NearO (Enc.f64 x) (Enc.f64 y) := by
  rcases (f64Eq_iff x y).mp h with ⟨rfl, _⟩ | ⟨rfl, rfl⟩ | ⟨rfl, rfl⟩
  · exact .refl _
  · exact .some (.neg (.refl _))
  · exact .some (.pos (.refl _))

mutual
theorem Schema.nears (cfg : Cfg) : (s : Schema) → Nears s.eqv (s.out cfg) (s.codec cfg).unknown
  | .unit => .exact (Schema.eqv_exact .unit rfl)
  | .bool => .exact (Schema.eqv_exact .bool rfl)
  | .int t => .exact (Schema.eqv_exact (.int t) rfl)
  | .f64 => fun x y h => ⟨f64_near x y h, rfl⟩
  | .rangedInt t min max => .exact (Schema.eqv_exact (.rangedInt t min max) rfl)
  | .rangedFloat _ _ => fun x y h => ⟨f64_near x y h, rfl⟩
  | .zarithN => .exact (Schema.eqv_exact .zarithN rfl)
  | .zarithZ => .exact (Schema.eqv_exact .zarithZ rfl)
  | .bytes => .exact (Schema.eqv_exact .bytes rfl)
  | .vecU8 => .exact (Schema.eqv_exact .vecU8 rfl)
  | .string => .exact (Schema.eqv_exact .string rfl)
  | .fixedBytes n => .exact (Schema.eqv_exact (.fixedBytes n) rfl)
  | .fixedString n => .exact (Schema.eqv_exact (.fixedString n) rfl)
  | .option s => (Nears.estimate (s.nears cfg)).option 1
  | .nullable s => (Nears.estimate (s.nears cfg)).nullable
  | .dynamic S s => (s.nears cfg).dynamic S
  | .vpadded _ s => s.nears cfg
  | .padded n s => fun x y h => ⟨.cat (s.nears cfg x y h).1 (.refl _), congrArg (· + n) (s.nears cfg x y h).2⟩
  | .seq s => (Nears.estimate (s.nears cfg)).list
  | .fixSeq _ s => (s.nears cfg).list
  | .limSeq _ s => (Nears.estimate (s.nears cfg)).list
  | .autobox s => s.nears cfg
  | .hole _ => fun (x : Empty) => x.elim
  | .cstyle w tags => .exact (Schema.eqv_exact (.cstyle w tags) rfl)
  | .data w vs => vs.nears cfg w
  | .record fs => fs.nears cfg
theorem Variants.nears (cfg : Cfg) : (vs : Variants) → (w : TagWidth) → Nears vs.eqv (vs.out cfg w) ((vs.codec cfg).unknown w)
  | .nil, _ => fun (x : Empty) => x.elim
  | .cons tag s vs, w => fun (x y : s.Val ⊕ vs.Val) h => by
    cases x with
    | inl x => cases y with
      | inl y => exact ⟨.cat (.refl _) (s.nears cfg x y h).1, congrArg (w.len + ·) ((Nears.estimate (s.nears cfg)) x y h).2⟩
      | inr y => cases h
    | inr x => cases y with
      | inl y => cases h
      | inr y => exact vs.nears cfg w x y h
theorem Fields.nears (cfg : Cfg) : (fs : Fields) → Nears fs.eqv (fs.out cfg) (fs.codec cfg).unknown
  | .nil => fun _ _ _ => ⟨.refl _, rfl⟩
  | .cons s fs => fun x y h => by
    have h := (Bool.and_eq_true _ _).mp h
    have h1 := s.nears cfg x.1 y.1 h.1
    have h2 := fs.nears cfg x.2 y.2 h.2
    refine ⟨.cat h1.1 h2.1, ?_⟩
    show (s.codec cfg).unknown x.1 + (fs.codec cfg).unknown x.2 = (s.codec cfg).unknown y.1 + (fs.codec cfg).unknown y.2
    rw [h1.2, h2.2]
end

end Verif
