import Verif.Spec.Sorts
import Verif.Compare
import Verif.Lemmas.Schema
import Verif.Lemmas.Recursive
import Verif.Lemmas.RecCompare
/-
Comparing encodings byte by byte, for the combinators of Verif/Spec/Format.lean and by induction for every schema.
-/
namespace Verif

namespace Cmp

/-- The first answer if it decides, or else the second. -/
def next (o p : Option Ordering) : Option Ordering :=
  match o with
  | some .eq => p
  | o => o

@[simp] theorem next_eq (p : Option Ordering) : next (some .eq) p = p := rfl

theorem next_next (o p q : Option Ordering) : next (next o p) q = next o (next p q) := by
  rcases o with _ | _ | _ | _ <;> rfl

theorem next_end (o : Option Ordering) : next o (some .eq) = o := by
  rcases o with _ | _ | _ | _ <;> rfl

theorem next_ne {o : Option Ordering} (h : o ≠ some .eq) (p : Option Ordering) : next o p = o := by
  rcases o with _ | _ | _ | _ <;> first | rfl | exact absurd rfl h

theorem slice_cons {α : Type} (cmp : α → α → Option Ordering) (x y : α) (xs ys : List α) :
    slice cmp (x :: xs) (y :: ys) = next (cmp x y) (slice cmp xs ys) := by
  rw [slice]; rcases cmp x y with _ | _ | _ | _ <;> rfl

theorem andThen_eq {α β : Type} (cmp : α → α → Option Ordering) (rest : β → β → Option Ordering) (x y : α × β) :
    andThen cmp rest x y = next (cmp x.1 y.1) (rest x.2 y.2) := by
  rw [andThen]; rcases cmp x.1 y.1 with _ | _ | _ | _ <;> rfl

theorem bytes_cons (a b : Byte) (as bs : Bytes) :
    bytes (a :: as) (b :: bs) = next (some (compare (a.toNat : Int) (b.toNat : Int))) (bytes as bs) := slice_cons _ _ _ _ _

theorem int_compare_self (n : Int) : compare n n = .eq := by
  simp only [compare, compareOfLessAndEq]
  rw [if_neg (by omega), if_pos trivial]

theorem int_compare_lt {m n : Int} (h : m < n) : compare m n = .lt := by
  simp only [compare, compareOfLessAndEq]
  rw [if_pos h]

theorem int_compare_gt {m n : Int} (h : n < m) : compare m n = .gt := by
  simp only [compare, compareOfLessAndEq]
  rw [if_neg (by omega), if_neg (by omega)]

theorem bytes_same : ∀ p a b : Bytes, bytes (p ++ a) (p ++ b) = bytes a b
  | [], _, _ => rfl
  | x :: p, a, b => by
    rw [List.cons_append, List.cons_append, bytes_cons, int_compare_self, next_eq, bytes_same p a b]

theorem slice_self {α : Type} {cmp : α → α → Option Ordering} (h : ∀ x, cmp x x = some .eq) : ∀ xs, slice cmp xs xs = some .eq
  | [] => rfl
  | x :: xs => by rw [slice_cons, h, next_eq, slice_self h xs]

theorem byInt_self {α : Type} (key : α → Int) (x : α) : byInt key x x = some .eq := congrArg some (int_compare_self _)

theorem bytes_append : ∀ {b c : Bytes}, b.length = c.length → ∀ r r' : Bytes,
    bytes (b ++ r) (c ++ r') = next (bytes b c) (bytes r r')
  | [], [], _, _, _ => rfl
  | x :: b, y :: c, h, r, r' => by
    rw [List.cons_append, List.cons_append, bytes_cons, bytes_cons, next_next, bytes_append (Nat.succ.inj h)]
  | [], _ :: _, h, _, _ => nomatch h
  | _ :: _, [], h, _, _ => nomatch h

/-- Big-endian encodings of the same width sort like the numbers. -/
theorem bytes_toBe : ∀ (k : Nat) {m n : Nat}, m < 256 ^ k → n < 256 ^ k →
    bytes (toBe k m) (toBe k n) = some (compare (m : Int) (n : Int))
  | 0, m, n, hm, hn => by
    have hm : m = 0 := by simpa using hm
    have hn : n = 0 := by simpa using hn
    subst hm; subst hn
    rw [int_compare_self]; rfl
  | k + 1, m, n, hm, hn => by
    have hm' : m / 256 < 256 ^ k := (Nat.div_lt_iff_lt_mul (by decide)).mpr (by rw [← Nat.pow_succ]; exact hm)
    have hn' : n / 256 < 256 ^ k := (Nat.div_lt_iff_lt_mul (by decide)).mpr (by rw [← Nat.pow_succ]; exact hn)
    rw [toBe, toBe, bytes_append (by simp), bytes_toBe k hm' hn', bytes_cons]
    have e1 : (UInt8.ofNat (m % 256)).toNat = m % 256 := by simp
    have e2 : (UInt8.ofNat (n % 256)).toNat = n % 256 := by simp
    rw [e1, e2]
    show next _ (next _ (some .eq)) = _
    rw [next_end]
    by_cases h1 : m / 256 < n / 256
    · rw [int_compare_lt (m := (m : Int)) (n := n) (by omega), int_compare_lt (m := ((m / 256 : Nat) : Int)) (by omega)]; rfl
    · by_cases h2 : n / 256 < m / 256
      · rw [int_compare_gt (m := (m : Int)) (n := n) (by omega), int_compare_gt (m := ((m / 256 : Nat) : Int)) (by omega)]; rfl
      · have e : m / 256 = n / 256 := by omega
        rw [e, int_compare_self, next_eq]
        by_cases h3 : m % 256 < n % 256
        · rw [int_compare_lt (m := (m : Int)) (n := n) (by omega), int_compare_lt (by omega)]
        · by_cases h4 : n % 256 < m % 256
          · rw [int_compare_gt (m := (m : Int)) (n := n) (by omega), int_compare_gt (by omega)]
          · have : m = n := by omega
            subst this
            rw [int_compare_self, int_compare_self]

end Cmp

open Cmp

/-- The encodings sort like the values; if `last` they are compared up to their ends. -/
def Sorts {α : Type} (last : Bool) (e : Enc α) (V : α → Prop) (cmp : α → α → Option Ordering) : Prop :=
  ∀ x y b c r r', V x → V y → e x = some b → e y = some c → (last = true → r = [] ∧ r' = []) →
    Cmp.bytes (b ++ r) (c ++ r') = next (cmp x y) (Cmp.bytes r r')

namespace Sorts

variable {α β : Type} {last : Bool} {e : Enc α} {V : α → Prop} {cmp : α → α → Option Ordering}
  {f : Enc β} {V' : β → Prop} {cmp' : β → β → Option Ordering}

theorem mono (h : Sorts false e V cmp) : Sorts last e V cmp :=
  fun x y b c r r' hx hy hb hc _ => h x y b c r r' hx hy hb hc nofun

/-- Encodings of the same length. -/
theorem of_length (h : ∀ x y b c, V x → V y → e x = some b → e y = some c → b.length = c.length ∧ Cmp.bytes b c = cmp x y) :
    Sorts last e V cmp := by
  intro x y b c r r' hx hy hb hc _
  obtain ⟨h1, h2⟩ := h x y b c hx hy hb hc
  rw [bytes_append h1, h2]

/-- Nothing follows. -/
theorem of_last (h : ∀ x y b c, V x → V y → e x = some b → e y = some c → Cmp.bytes b c = cmp x y) : Sorts true e V cmp := by
  intro x y b c r r' hx hy hb hc hl
  obtain ⟨rfl, rfl⟩ := hl rfl
  rw [List.append_nil, List.append_nil, h x y b c hx hy hb hc]
  exact (next_end _).symm

theorem last_eq (h : Sorts last e V cmp) {x y : α} {b c : Bytes} (hx : V x) (hy : V y) (hb : e x = some b) (hc : e y = some c) :
    Cmp.bytes b c = cmp x y := by
  have h1 := h x y b c [] [] hx hy hb hc fun _ => ⟨rfl, rfl⟩
  rw [List.append_nil, List.append_nil] at h1
  rw [h1]
  exact next_end _

theorem int_compare_add (m n k : Int) : compare (m + k) (n + k) = compare m n := by
  rcases Int.lt_trichotomy m n with h | h | h
  · rw [int_compare_lt h, int_compare_lt (by omega)]
  · rw [h, int_compare_self, int_compare_self]
  · rw [int_compare_gt h, int_compare_gt (by omega)]

/-- Numbers at a fixed distance from what is written. -/
theorem shifted (k : Nat) (off : Int) {key : α → Int} {num : α → Nat} (hn : ∀ x, num x < 256 ^ k)
    (h : ∀ x b, V x → e x = some b → b = toBe k (num x) ∧ key x = num x + off) : Sorts last e V (byInt key) :=
  of_length fun x y b c hx hy hb hc => by
    obtain ⟨rfl, h1⟩ := h x b hx hb
    obtain ⟨rfl, h2⟩ := h y c hy hc
    rw [bytes_toBe k (hn x) (hn y), byInt, h1, h2, int_compare_add]
    exact ⟨by simp, rfl⟩

theorem unsigned (k : Nat) {key : α → Int} {num : α → Nat} (hn : ∀ x, num x < 256 ^ k)
    (h : ∀ x y b c, V x → V y → e x = some b → e y = some c → b = toBe k (num x) ∧ c = toBe k (num y) ∧ key x = num x ∧ key y = num y) :
    Sorts last e V (byInt key) :=
  of_length fun x y b c hx hy hb hc => by
    obtain ⟨rfl, rfl, h1, h2⟩ := h x y b c hx hy hb hc
    rw [bytes_toBe k (hn x) (hn y), byInt, h1, h2]
    exact ⟨by simp, rfl⟩

theorem option (h : Sorts last e V cmp) : Sorts last (Enc.option e) (fun o => ∀ x, o = some x → V x) (Cmp.option cmp) := by
  intro x y b c r r' hx hy hb hc hl
  cases x with
  | none =>
    cases hb
    cases y with
    | none => cases hc; exact bytes_same [0x00] r r'
    | some y => obtain ⟨_, c', h1, h2, rfl⟩ := cat_eq_some.mp hc; cases h1; rfl
  | some x =>
    obtain ⟨_, b', h1, h2, rfl⟩ := cat_eq_some.mp hb
    cases h1
    cases y with
    | none => cases hc; rfl
    | some y =>
      obtain ⟨_, c', h3, h4, rfl⟩ := cat_eq_some.mp hc
      cases h3
      rw [List.append_assoc, List.append_assoc, bytes_same]
      exact h x y b' c' r r' (hx _ rfl) (hy _ rfl) h2 h4 hl

theorem nil_bytes {b : Bytes} (h : b ≠ []) : Cmp.bytes [] b = some .lt := by
  cases b with
  | nil => exact absurd rfl h
  | cons _ _ => rfl

theorem bytes_nil {b : Bytes} (h : b ≠ []) : Cmp.bytes b [] = some .gt := by
  cases b with
  | nil => exact absurd rfl h
  | cons _ _ => rfl

theorem nullable (hn : NonEmpty e V) (h : Sorts last e V cmp) :
    Sorts true (Enc.nullable e) (fun o => ∀ x, o = some x → V x) (Cmp.option cmp) := by
  refine of_last fun x y b c hx hy hb hc => ?_
  cases x with
  | none =>
    cases hb
    cases y with
    | none => cases hc; rfl
    | some y => exact nil_bytes (hn y c (hy _ rfl) hc)
  | some x =>
    cases y with
    | none => cases hc; exact bytes_nil (hn x b (hx _ rfl) hb)
    | some y => exact h.last_eq (hx _ rfl) (hy _ rfl) hb hc

theorem list (hn : NonEmpty e V) (h : Sorts false e V cmp) : Sorts true (Enc.list e) (fun xs => ∀ x ∈ xs, V x) (Cmp.slice cmp) := by
  refine of_last fun x => ?_
  induction x with
  | nil =>
    intro y b c _ hy hb hc
    cases hb
    cases y with
    | nil => cases hc; rfl
    | cons y ys =>
      obtain ⟨c1, c2, h1, h2, rfl⟩ := cat_eq_some.mp hc
      exact nil_bytes fun e0 => hn y c1 (hy y (.head _)) h1 (List.append_eq_nil_iff.mp e0).1
  | cons x xs ih =>
    intro y b c hx hy hb hc
    obtain ⟨b1, b2, h1, h2, rfl⟩ := cat_eq_some.mp hb
    cases y with
    | nil =>
      cases hc
      exact bytes_nil fun e0 => hn x b1 (hx x (.head _)) h1 (List.append_eq_nil_iff.mp e0).1
    | cons y ys =>
      obtain ⟨c1, c2, h3, h4, rfl⟩ := cat_eq_some.mp hc
      rw [slice_cons, h x y b1 c1 b2 c2 (hx x (.head _)) (hy y (.head _)) h1 h3 nofun,
        ih ys b2 c2 (fun z hz => hx z (.tail _ hz)) (fun z hz => hy z (.tail _ hz)) h2 h4]

theorem fixed (h : Sorts false e V cmp) : ∀ n, Sorts last (Enc.list e) (fun xs => xs.length = n ∧ ∀ x ∈ xs, V x) (Cmp.slice cmp)
  | 0 => fun x y b c r r' hx hy hb hc _ => by
    obtain rfl := List.eq_nil_of_length_eq_zero hx.1
    obtain rfl := List.eq_nil_of_length_eq_zero hy.1
    cases hb; cases hc; rfl
  | n + 1 => fun x y b c r r' hx hy hb hc hl => by
    cases x with
    | nil => cases hx.1
    | cons x xs =>
      cases y with
      | nil => cases hy.1
      | cons y ys =>
        obtain ⟨b1, b2, h1, h2, rfl⟩ := cat_eq_some.mp hb
        obtain ⟨c1, c2, h3, h4, rfl⟩ := cat_eq_some.mp hc
        rw [slice_cons, List.append_assoc, List.append_assoc, next_next,
          h x y b1 c1 _ _ (hx.2 x (.head _)) (hy.2 y (.head _)) h1 h3 nofun,
          fixed h n xs ys b2 c2 r r' ⟨Nat.succ.inj hx.1, fun z hz => hx.2 z (.tail _ hz)⟩
            ⟨Nat.succ.inj hy.1, fun z hz => hy.2 z (.tail _ hz)⟩ h2 h4 hl]

theorem padded (h : Sorts false e V cmp) (n : Nat) : Sorts last (Enc.padded n e) V cmp := by
  intro x y b c r r' hx hy hb hc _
  obtain ⟨b1, _, h1, h2, rfl⟩ := cat_eq_some.mp hb
  obtain ⟨c1, _, h3, h4, rfl⟩ := cat_eq_some.mp hc
  cases h2; cases h4
  rw [List.append_assoc, List.append_assoc, h x y b1 c1 _ _ hx hy h1 h3 nofun, bytes_same]

theorem dynamic {n : Nat} (hw : ∀ x b, V x → e x = some b → b.length = n) (h : Sorts true e V cmp) (S : LenPref) :
    Sorts last (Enc.dynamic S (fun x => (e x).map List.length) e) V cmp := by
  refine of_length fun x y b c hx hy hb hc => ?_
  obtain ⟨l, b', h1, h2, h3, rfl⟩ := Enc.dynamic_eq_some.mp hb
  obtain ⟨l', c', h4, h5, h6, rfl⟩ := Enc.dynamic_eq_some.mp hc
  rw [h3] at h1; rw [h6] at h4
  obtain rfl := Option.some.inj h1
  obtain rfl := Option.some.inj h4
  have hb := hw x b' hx h3
  have hc := hw y c' hy h6
  rw [hb, hc]
  refine ⟨by simp [hb, hc], ?_⟩
  rw [bytes_same]
  exact h.last_eq hx hy h3 h6

theorem fcons (h : Sorts false e V cmp) (h' : Sorts last f V' cmp') :
    Sorts last (Enc.fcons e f) (fun x => V x.1 ∧ V' x.2) (andThen cmp cmp') := by
  intro x y b c r r' hx hy hb hc hl
  obtain ⟨b1, b2, h1, h2, rfl⟩ := cat_eq_some.mp hb
  obtain ⟨c1, c2, h3, h4, rfl⟩ := cat_eq_some.mp hc
  rw [andThen_eq, List.append_assoc, List.append_assoc, next_next, h x.1 y.1 b1 c1 _ _ hx.1 hy.1 h1 h3 nofun,
    h' x.2 y.2 b2 c2 r r' hx.2 hy.2 h2 h4 hl]

theorem fone (h : Sorts last e V cmp) :
    Sorts last (Enc.fcons e Enc.fnil) (fun x => V x.1 ∧ True) (andThen cmp fun _ _ => some .eq) := by
  intro x y b c r r' hx hy hb hc hl
  obtain ⟨b1, _, h1, h2, rfl⟩ := cat_eq_some.mp hb
  obtain ⟨c1, _, h3, h4, rfl⟩ := cat_eq_some.mp hc
  cases h2; cases h4
  rw [andThen_eq, next_end, List.append_nil, List.append_nil, h x.1 y.1 b1 c1 r r' hx.1 hy.1 h1 h3 hl]

end Sorts

theorem Variants.wire_tag (w : TagWidth) : ∀ (vs : Variants) (y : vs.Val) {c : Bytes}, vs.wire w y = some c →
    ∃ t ∈ vs.tags, ∃ c', c = toBe w.len t ++ c'
  | .nil, y, _, _ => nomatch y
  | .cons tag s vs, .inl y, c, h => by
    obtain ⟨_, c', h1, _, rfl⟩ := cat_eq_some.mp h
    cases h1
    exact ⟨tag, .head _, c', rfl⟩
  | .cons tag s vs, .inr y, c, h => by
    obtain ⟨t, ht, c', e⟩ := vs.wire_tag w y h
    exact ⟨t, .tail _ ht, c', e⟩

theorem bytes_tag_lt {k m n : Nat} (hm : m < 256 ^ k) (hn : n < 256 ^ k) (h : m < n) (r r' : Bytes) :
    Cmp.bytes (toBe k m ++ r) (toBe k n ++ r') = some .lt := by
  rw [bytes_append (by simp), bytes_toBe k hm hn, int_compare_lt (by omega)]; rfl

theorem bytes_tag_gt {k m n : Nat} (hm : m < 256 ^ k) (hn : n < 256 ^ k) (h : n < m) (r r' : Bytes) :
    Cmp.bytes (toBe k m ++ r) (toBe k n ++ r') = some .gt := by
  rw [bytes_append (by simp), bytes_toBe k hm hn, int_compare_gt (by omega)]; rfl

theorem IntTy.toNat_lt (t : IntTy) (x : t.Val) : x.toNat < 256 ^ t.len := by
  have h := x.isLt
  have e : (256 : Nat) ^ t.len = 2 ^ (8 * t.len) := by rw [show 256 = 2 ^ 8 from rfl, ← Nat.pow_mul]
  rw [e]; exact h

theorem IntTy.toInt_of_neg (t : IntTy) (x : t.Val) (h : t.toInt x < 0) : t.toInt x = x.toNat + -((256 ^ t.len : Nat) : Int) := by
  unfold IntTy.toInt at h ⊢
  split
  · next hs =>
    rw [if_pos hs] at h
    rw [BitVec.toInt_eq_toNat_cond] at h ⊢
    have e : (256 : Nat) ^ t.len = 2 ^ (8 * t.len) := by rw [Nat.pow_mul]
    split at h
    · omega
    · next h2 =>
      rw [if_neg h2, e]
      omega
  · next hs =>
    rw [if_neg hs] at h
    omega

theorem IntTy.neg_signed (t : IntTy) (x : t.Val) (h : t.toInt x < 0) : t.signed = true := by
  cases hs : t.signed with
  | true => rfl
  | false => rw [IntTy.toInt, hs, if_neg (by decide)] at h; omega

theorem IntTy.neg_big (t : IntTy) (x : t.Val) (h : t.toInt x < 0) : 256 ^ t.len ≤ 2 * x.toNat := by
  have hs := t.neg_signed x h
  rw [IntTy.toInt, if_pos hs, BitVec.toInt_eq_toNat_cond] at h
  have e : (256 : Nat) ^ t.len = 2 ^ (8 * t.len) := by rw [Nat.pow_mul]
  split at h
  · omega
  · omega

theorem IntTy.nonneg_small (t : IntTy) (x : t.Val) (h : 0 ≤ t.toInt x) (hs : t.signed = true) : 2 * x.toNat < 256 ^ t.len := by
  rw [IntTy.toInt, if_pos hs, BitVec.toInt_eq_toNat_cond] at h
  have e : (256 : Nat) ^ t.len = 2 ^ (8 * t.len) := by rw [Nat.pow_mul]
  have := x.isLt
  split at h
  · omega
  · omega

theorem F64.toNat_lt (x : BitVec 64) : x.toNat < 256 ^ 8 := x.isLt

/-- What is not below a positive number is positive. -/
theorem F64.positive {a x : BitVec 64} (ha : 0 < F64.key a) (h : F64.le a x = true) : F64.isNan x = false ∧ F64.key x = x.toNat := by
  simp only [F64.le, Bool.and_eq_true, Bool.not_eq_true', decide_eq_true_eq] at h
  refine ⟨h.1.2, ?_⟩
  have h2 : 0 < F64.key x := Int.lt_of_lt_of_le ha h.2
  unfold F64.key at h2 ⊢
  simp only [Int.ofNat_eq_natCast] at h2 ⊢
  split
  · next h3 => rw [if_pos h3] at h2; omega
  · next h3 => rw [Nat.mod_eq_of_lt (by omega)]

theorem IntTy.toInt_of_nonneg (t : IntTy) (x : t.Val) (h : 0 ≤ t.toInt x) : t.toInt x = x.toNat := by
  unfold IntTy.toInt at h ⊢
  split
  · next hs =>
    rw [if_pos hs] at h
    rw [BitVec.toInt_eq_toNat_cond] at h ⊢
    have := x.isLt
    split at h
    · next h2 => rw [if_pos h2]
    · omega
  · rfl

theorem Fields.eq_nil {fs : Fields} (h : fs.isNil = true) : fs = .nil := by
  cases fs with
  | nil => rfl
  | cons _ _ => cases h

mutual
theorem Schema.sorts_wire (h : Bool) : ∀ (last : Bool) (s : Schema), s.sorts h last = true → s.tagsOk → Sorts last s.wire s.Valid s.pcmp
  | _, .unit, _, _ => .of_length fun _ _ _ _ _ _ hb hc => by cases hb; cases hc; exact ⟨rfl, rfl⟩
  | _, .bool, _, _ => .of_length fun (x y : Bool) _ _ _ _ hb hc => by cases hb; cases hc; cases x <;> cases y <;> exact ⟨rfl, rfl⟩
  | _, .int t, hs, _ => .unsigned t.len (num := fun x => x.toNat) (t.toNat_lt) fun x y b c _ _ hb hc => by
    cases hb; cases hc
    have hs : t.signed = false := by simpa [Schema.sorts] using hs
    exact ⟨rfl, rfl, by simp [IntTy.toInt, hs], by simp [IntTy.toInt, hs]⟩
  | _, .rangedInt t min max, hs, _ => by
    simp only [Schema.sorts, Bool.or_eq_true, Bool.not_eq_true', decide_eq_true_eq] at hs
    have wr : ∀ (x : t.Val) (b : Bytes), (Schema.rangedInt t min max).wire x = some b →
        b = toBe t.len x.toNat ∧ Enc.inRange min max (t.toInt x) := by
      intro x b hb
      simp only [Schema.wire, Enc.rangedInt] at hb
      split at hb
      · next hr => cases hb; exact ⟨rfl, hr⟩
      · cases hb
    by_cases h0 : t.signed = false ∨ 0 ≤ min
    · refine .shifted t.len 0 (num := fun x => x.toNat) (t.toNat_lt) fun x b _ hb => ⟨(wr x b hb).1, ?_⟩
      rw [Int.add_zero]
      refine t.toInt_of_nonneg x ?_
      rcases h0 with h0 | h0
      · simp [IntTy.toInt, h0]
      · have hr := (wr x b hb).2
        unfold Enc.inRange at hr
        split at hr <;> omega
    · have hm : max < 0 := by
        rcases hs with hs | hs
        · exact absurd hs h0
        · exact hs
      refine .shifted t.len (-((256 ^ t.len : Nat) : Int)) (num := fun x => x.toNat) (t.toNat_lt) fun x b _ hb => ⟨(wr x b hb).1, ?_⟩
      refine t.toInt_of_neg x ?_
      have hr := (wr x b hb).2
      unfold Enc.inRange at hr
      split at hr <;> omega
  | _, .f64, hs, _ => nomatch hs
  | _, .rangedFloat min max, hs, _ => .of_length fun (x y : BitVec 64) b c hx hy hb hc => by
    have hs : 0 < F64.key min := by simpa [Schema.sorts] using hs
    cases hb; cases hc
    obtain ⟨x1, x2⟩ := F64.positive hs hx.1
    obtain ⟨y1, y2⟩ := F64.positive hs hy.1
    refine ⟨by simp, ?_⟩
    rw [bytes_toBe 8 (F64.toNat_lt x) (F64.toNat_lt y)]
    show _ = Cmp.f64 x y
    rw [Cmp.f64, x1, y1, x2, y2]
    rfl
  | _, .zarithN, hs, _ => nomatch hs
  | _, .zarithZ, hs, _ => nomatch hs
  | true, .bytes, _, _ => .of_last fun _ _ _ _ _ _ hb hc => by cases hb; cases hc; rfl
  | true, .vecU8, _, _ => .of_last fun _ _ _ _ _ _ hb hc => by cases hb; cases hc; rfl
  | true, .string, _, _ => .of_last fun _ _ _ _ _ _ hb hc => by cases hb; cases hc; rfl
  | false, .bytes, hs, _ => nomatch hs
  | false, .vecU8, hs, _ => nomatch hs
  | false, .string, hs, _ => nomatch hs
  | _, .fixedBytes n, _, _ => .of_length fun (x y : ByteArr n) _ _ _ _ hb hc => by
    cases hb; cases hc; exact ⟨x.2.trans y.2.symm, rfl⟩
  | _, .fixedString n, _, _ => .of_length fun (x y : ByteArr n) _ _ _ _ hb hc => by
    cases hb; cases hc; exact ⟨x.2.trans y.2.symm, rfl⟩
  | last, .option s, hs, ht => (s.sorts_wire h last hs ht).option
  | last, .nullable s, hs, ht => by
    simp only [Schema.sorts, Bool.and_eq_true] at hs
    obtain ⟨⟨rfl, hn⟩, hs⟩ := hs
    exact (s.sorts_wire h true hs ht).nullable (s.nonEmpty hn)
  | _, .dynamic S s, hs, ht => by
    simp only [Schema.sorts, Bool.and_eq_true, Option.isSome_iff_exists] at hs
    obtain ⟨⟨n, hn⟩, hs⟩ := hs
    exact (s.sorts_wire h true hs ht).dynamic (s.width_eq hn) S
  | last, .vpadded _ s, hs, ht => s.sorts_wire h last hs ht
  | _, .padded n s, hs, ht => (s.sorts_wire h false hs ht).padded n
  | last, .seq s, hs, ht => by
    simp only [Schema.sorts, Bool.and_eq_true] at hs
    obtain ⟨⟨rfl, hn⟩, hs⟩ := hs
    exact (s.sorts_wire h false hs ht).list (s.nonEmpty hn)
  | last, .limSeq n s, hs, ht => by
    simp only [Schema.sorts, Bool.and_eq_true] at hs
    obtain ⟨⟨rfl, hn⟩, hs⟩ := hs
    exact fun x y b c r r' hx hy => (s.sorts_wire h false hs ht).list (s.nonEmpty hn) x y b c r r' hx.2 hy.2
  | _, .fixSeq n s, hs, ht => (s.sorts_wire h false hs ht).fixed n
  | last, .autobox s, hs, ht => s.sorts_wire h last hs ht
  | _, .hole _, _, _ => fun x => nomatch x
  | _, .cstyle w tags, _, ht => .unsigned w.len (num := fun (x : CEnum tags) => x.1) (fun x => ht x.1 x.2) fun x y b c _ _ hb hc => by
    cases hb; cases hc; exact ⟨rfl, rfl, rfl, rfl⟩
  | last, .data w vs, hs, ht => vs.sorts_wire h last w hs ht.1 ht.2
  | last, .record fs, hs, ht => fs.sorts_wire h last hs ht
theorem Variants.sorts_wire (h last : Bool) (w : TagWidth) : ∀ vs : Variants, vs.sorts h last = true → (∀ t ∈ vs.tags, t < 256 ^ w.len) →
    vs.tagsOk → Sorts last (vs.wire w) vs.Valid vs.pcmp
  | .nil, _, _, _ => fun x => nomatch x
  | .cons tag s vs, hs, hw, ht => by
    simp only [Variants.sorts, Bool.and_eq_true, List.all_eq_true, decide_eq_true_eq] at hs
    obtain ⟨⟨h1, h2⟩, h3⟩ := hs
    have hw' : ∀ t ∈ vs.tags, t < 256 ^ w.len := fun t h => hw t (.tail _ h)
    intro x y b c r r' hx hy hb hc hl
    cases x with
    | inl x =>
      obtain ⟨_, b', e1, e2, rfl⟩ := cat_eq_some.mp hb
      cases e1
      cases y with
      | inl y =>
        obtain ⟨_, c', e3, e4, rfl⟩ := cat_eq_some.mp hc
        cases e3
        rw [List.append_assoc, List.append_assoc, bytes_same]
        exact s.sorts_wire h last h2 ht.2.1 x y b' c' r r' hx hy e2 e4 hl
      | inr y =>
        obtain ⟨t, htg, c', rfl⟩ := vs.wire_tag w y hc
        rw [List.append_assoc, List.append_assoc, bytes_tag_lt (hw tag (.head _)) (hw' t htg) (h1 t htg)]
        rfl
    | inr x =>
      cases y with
      | inl y =>
        obtain ⟨_, c', e3, e4, rfl⟩ := cat_eq_some.mp hc
        cases e3
        obtain ⟨t, htg, b', rfl⟩ := vs.wire_tag w x hb
        rw [List.append_assoc, List.append_assoc, bytes_tag_gt (hw' t htg) (hw tag (.head _)) (h1 t htg)]
        rfl
      | inr y => exact vs.sorts_wire h last w h3 hw' ht.2.2 x y b c r r' hx hy hb hc hl
theorem Fields.sorts_wire (h last : Bool) : ∀ fs : Fields, fs.sorts h last = true → fs.tagsOk → Sorts last fs.wire fs.Valid fs.pcmp
  | .nil, _, _ => .of_length fun _ _ _ _ _ _ hb hc => by cases hb; cases hc; exact ⟨rfl, rfl⟩
  | .cons s .nil, hs, ht => by
    simp only [Fields.sorts, Fields.isNil, Bool.and_true] at hs
    exact (s.sorts_wire h last hs ht.1).fone
  | .cons s (.cons t fs), hs, ht => by
    rw [Fields.sorts, Bool.and_eq_true] at hs
    have h1 : s.sorts h false = true := by simpa [Fields.isNil] using hs.1
    exact (s.sorts_wire h false h1 ht.1).fcons (Fields.sorts_wire h last (.cons t fs) hs.2 ht.2)
end

/-! ### recursive types -/

mutual
theorem Schema.sorts_mono (h : Bool) : ∀ s : Schema, s.sorts h false = true → s.sorts h true = true
  | .unit, hs | .bool, hs | .int _, hs | .f64, hs | .rangedInt _ _ _, hs | .rangedFloat _ _, hs | .zarithN, hs | .zarithZ, hs
  | .fixedBytes _, hs | .fixedString _, hs | .cstyle _ _, hs | .dynamic _ _, hs | .padded _ _, hs | .fixSeq _ _, hs => hs
  | .bytes, _ | .vecU8, _ | .string, _ => rfl
  | .option s, hs | .vpadded _ s, hs | .autobox s, hs => s.sorts_mono h hs
  | .nullable _, hs | .seq _, hs | .limSeq _ _, hs => nomatch hs
  | .hole _, _ => by simp [Schema.sorts]
  | .data _ vs, hs => vs.sorts_mono h hs
  | .record fs, hs => fs.sorts_mono h hs
theorem Variants.sorts_mono (h : Bool) : ∀ vs : Variants, vs.sorts h false = true → vs.sorts h true = true
  | .nil, _ => rfl
  | .cons tag s vs, hs => by
    simp only [Variants.sorts, Bool.and_eq_true] at hs ⊢
    exact ⟨⟨hs.1.1, s.sorts_mono h hs.1.2⟩, vs.sorts_mono h hs.2⟩
theorem Fields.sorts_mono (h : Bool) : ∀ fs : Fields, fs.sorts h false = true → fs.sorts h true = true
  | .nil, _ => rfl
  | .cons s fs, hs => by
    simp only [Fields.sorts, Bool.and_eq_true, Bool.true_and, Bool.false_and] at hs ⊢
    refine ⟨?_, fs.sorts_mono h hs.2⟩
    cases fs.isNil with
    | false => exact hs.1
    | true => exact s.sorts_mono h hs.1
end

section
variable {ρ : Nat → Schema}

mutual
theorem Schema.width_some_fill : ∀ (s : Schema) {n : Nat}, s.width = some n → (s.fill ρ).width = some n
  | .unit, _, h | .bool, _, h | .int _, _, h | .f64, _, h | .rangedInt _ _ _, _, h | .rangedFloat _ _, _, h | .zarithN, _, h
  | .zarithZ, _, h | .bytes, _, h | .vecU8, _, h | .string, _, h | .fixedBytes _, _, h | .fixedString _, _, h | .cstyle _ _, _, h => h
  | .hole _, _, h => nomatch h
  | .seq _, _, h | .limSeq _ _, _, h | .data _ _, _, h => nomatch h
  | .option s, _, h | .nullable s, _, h => by
    simp only [Schema.width, Schema.fill] at h ⊢
    split at h
    · next h0 => rw [s.width_some_fill h0]; exact h
    · cases h
  | .dynamic S s, _, h | .padded _ s, _, h | .fixSeq _ s, _, h => by
    simp only [Schema.width, Schema.fill, Option.map_eq_some_iff] at h ⊢
    obtain ⟨m, h1, h2⟩ := h
    exact ⟨m, s.width_some_fill h1, h2⟩
  | .vpadded _ s, _, h | .autobox s, _, h => s.width_some_fill h
  | .record fs, _, h => fs.width_some_fill h
theorem Fields.width_some_fill : ∀ (fs : Fields) {n : Nat}, fs.width = some n → (fs.fill ρ).width = some n
  | .nil, _, h => h
  | .cons s fs, _, h => by
    simp only [Fields.width, Fields.fill] at h ⊢
    cases h1 : s.width with
    | none => rw [h1] at h; cases h
    | some m =>
      cases h2 : fs.width with
      | none => rw [h1, h2] at h; cases h
      | some n => rw [h1, h2] at h; rw [s.width_some_fill h1, fs.width_some_fill h2]; exact h
end

theorem Schema.nonempty_hole (hn : ∀ i, (ρ i).nonempty = true) (s : Schema) (h : s.nonempty = true) : (s.fill ρ).nonempty = true :=
  s.nonempty_fill (ρ := .hole) (fun i _ => hn i) (by rw [s.fill_hole]; exact h)

theorem Fields.isNil_fill (fs : Fields) : (fs.fill ρ).isNil = fs.isNil := by
  cases fs <;> rfl

mutual
theorem Schema.sorts_fill {h : Bool} (hρ : ∀ i, (ρ i).sorts h (!h) = true) (hn : ∀ i, (ρ i).nonempty = true) :
    ∀ (last : Bool) (s : Schema), s.sorts h last = true → (s.fill ρ).sorts h last = true
  | _, .unit, hs | _, .bool, hs | _, .int _, hs | _, .f64, hs | _, .rangedInt _ _ _, hs | _, .rangedFloat _ _, hs | _, .zarithN, hs
  | _, .zarithZ, hs | _, .fixedBytes _, hs | _, .fixedString _, hs | _, .cstyle _ _, hs | _, .bytes, hs | _, .vecU8, hs
  | _, .string, hs => hs
  | last, .hole i, hs => by
    have h1 := hρ i
    show (ρ i).sorts h last = true
    cases h with
    | true =>
      cases last with
      | false => exact h1
      | true => exact (ρ i).sorts_mono _ h1
    | false =>
      have : last = true := by simpa [Schema.sorts] using hs
      subst this
      exact h1
  | last, .option s, hs | last, .vpadded _ s, hs | last, .autobox s, hs => s.sorts_fill hρ hn last hs
  | _, .padded _ s, hs | _, .fixSeq _ s, hs => s.sorts_fill hρ hn false hs
  | last, .nullable s, hs => by
    simp only [Schema.sorts, Schema.fill, Bool.and_eq_true] at hs ⊢
    exact ⟨⟨hs.1.1, s.nonempty_hole hn hs.1.2⟩, s.sorts_fill hρ hn last hs.2⟩
  | last, .seq s, hs | last, .limSeq _ s, hs => by
    simp only [Schema.sorts, Schema.fill, Bool.and_eq_true] at hs ⊢
    exact ⟨⟨hs.1.1, s.nonempty_hole hn hs.1.2⟩, s.sorts_fill hρ hn false hs.2⟩
  | _, .dynamic _ s, hs => by
    simp only [Schema.sorts, Schema.fill, Bool.and_eq_true, Option.isSome_iff_exists] at hs ⊢
    obtain ⟨⟨n, h1⟩, h2⟩ := hs
    exact ⟨⟨n, s.width_some_fill h1⟩, s.sorts_fill hρ hn true h2⟩
  | last, .data _ vs, hs => vs.sorts_fill hρ hn last hs
  | last, .record fs, hs => fs.sorts_fill hρ hn last hs
theorem Variants.sorts_fill {h : Bool} (hρ : ∀ i, (ρ i).sorts h (!h) = true) (hn : ∀ i, (ρ i).nonempty = true) :
    ∀ (last : Bool) (vs : Variants), vs.sorts h last = true → (vs.fill ρ).sorts h last = true
  | _, .nil, hs => hs
  | last, .cons tag s vs, hs => by
    simp only [Variants.sorts, Variants.fill, Bool.and_eq_true, Variants.tags_fill] at hs ⊢
    exact ⟨⟨hs.1.1, s.sorts_fill hρ hn last hs.1.2⟩, vs.sorts_fill hρ hn last hs.2⟩
theorem Fields.sorts_fill {h : Bool} (hρ : ∀ i, (ρ i).sorts h (!h) = true) (hn : ∀ i, (ρ i).nonempty = true) :
    ∀ (last : Bool) (fs : Fields), fs.sorts h last = true → (fs.fill ρ).sorts h last = true
  | _, .nil, hs => hs
  | last, .cons s fs, hs => by
    simp only [Fields.sorts, Fields.fill, Bool.and_eq_true, Fields.isNil_fill] at hs ⊢
    exact ⟨s.sorts_fill hρ hn _ hs.1, fs.sorts_fill hρ hn last hs.2⟩
end
end

section
variable {ρ ρ' : Nat → Schema} {f : ∀ i, (ρ i).Val → (ρ' i).Val}

mutual
theorem Schema.valid_mapFill (h : ∀ i x, (ρ i).Valid x → (ρ' i).Valid (f i x)) :
    ∀ (s : Schema) (x : (s.fill ρ).Val), (s.fill ρ).Valid x → (s.fill ρ').Valid (s.mapFill f x)
  | .unit, _, hv | .bool, _, hv | .int _, _, hv | .f64, _, hv | .rangedInt _ _ _, _, hv | .rangedFloat _ _, _, hv | .zarithN, _, hv
  | .zarithZ, _, hv | .bytes, _, hv | .vecU8, _, hv | .string, _, hv | .fixedBytes _, _, hv | .fixedString _, _, hv
  | .cstyle _ _, _, hv => hv
  | .hole i, x, hv => h i x hv
  | .dynamic _ s, x, hv | .vpadded _ s, x, hv | .padded _ s, x, hv | .autobox s, x, hv => s.valid_mapFill h x hv
  | .option s, x, hv | .nullable s, x, hv => by
    intro y hy
    obtain ⟨x', hx, rfl⟩ := Option.map_eq_some_iff.mp hy
    exact s.valid_mapFill h x' (hv x' hx)
  | .seq s, x, hv => by
    intro y hy
    obtain ⟨x', hx, rfl⟩ := List.mem_map.mp hy
    exact s.valid_mapFill h x' (hv x' hx)
  | .fixSeq n s, x, hv => by
    refine ⟨(List.length_map _).trans hv.1, fun y hy => ?_⟩
    obtain ⟨x', hx, rfl⟩ := List.mem_map.mp hy
    exact s.valid_mapFill h x' (hv.2 x' hx)
  | .limSeq n s, x, hv => by
    refine ⟨Nat.le_trans (Nat.le_of_eq (List.length_map _)) hv.1, fun y hy => ?_⟩
    obtain ⟨x', hx, rfl⟩ := List.mem_map.mp hy
    exact s.valid_mapFill h x' (hv.2 x' hx)
  | .data _ vs, x, hv => vs.valid_mapFill h x hv
  | .record fs, x, hv => fs.valid_mapFill h x hv
theorem Variants.valid_mapFill (h : ∀ i x, (ρ i).Valid x → (ρ' i).Valid (f i x)) :
    ∀ (vs : Variants) (x : (vs.fill ρ).Val), (vs.fill ρ).Valid x → (vs.fill ρ').Valid (vs.mapFill f x)
  | .nil, x, _ => nomatch x
  | .cons _ s _, .inl x, hv => s.valid_mapFill h x hv
  | .cons _ _ vs, .inr x, hv => vs.valid_mapFill h x hv
theorem Fields.valid_mapFill (h : ∀ i x, (ρ i).Valid x → (ρ' i).Valid (f i x)) :
    ∀ (fs : Fields) (x : (fs.fill ρ).Val), (fs.fill ρ).Valid x → (fs.fill ρ').Valid (fs.mapFill f x)
  | .nil, _, hv => hv
  | .cons s fs, x, hv => ⟨s.valid_mapFill h x.1 hv.1, fs.valid_mapFill h x.2 hv.2⟩
end
end

/-- Well-formed values that are equal are the same. -/
def Cmp.ExactOn {α : Type} (V : α → Prop) (eq : α → α → Bool) : Prop := ∀ x y, V x → V y → eq x y = true → x = y

namespace Cmp.ExactOn

variable {α : Type} {V : α → Prop} {eq : α → α → Bool}

theorem of (h : Cmp.Exact eq) : ExactOn V eq := fun x y _ _ => (h x y).mp

theorem option (h : ExactOn V eq) : ExactOn (fun o => ∀ x, o = some x → V x) (Cmp.optionEq eq)
  | .none, .none, _, _, _ => rfl
  | .none, .some _, _, _, e => nomatch e
  | .some _, .none, _, _, e => nomatch e
  | .some x, .some y, hx, hy, e => congrArg _ (h x y (hx x rfl) (hy y rfl) e)

theorem slice (h : ExactOn V eq) : ExactOn (fun xs => ∀ x ∈ xs, V x) (Cmp.sliceEq eq)
  | [], [], _, _, _ => rfl
  | [], _ :: _, _, _, e => by simp [sliceEq] at e
  | _ :: _, [], _, _, e => by simp [sliceEq] at e
  | x :: xs, y :: ys, hx, hy, e => by
    simp only [sliceEq, List.length_cons, List.zip_cons_cons, List.all_cons, Bool.and_eq_true, beq_iff_eq, Nat.add_right_cancel_iff] at e
    have h1 := h x y (hx x (.head _)) (hy y (.head _)) e.2.1
    have h2 := slice h xs ys (fun z hz => hx z (.tail _ hz)) (fun z hz => hy z (.tail _ hz))
      (by simp only [sliceEq, Bool.and_eq_true, beq_iff_eq]; exact ⟨e.1, e.2.2⟩)
    rw [h1, h2]

end Cmp.ExactOn

mutual
theorem Schema.sorts_exact (h : Bool) : ∀ (last : Bool) (s : Schema), s.sorts h last = true → Cmp.ExactOn s.Valid s.eqv
  | _, .f64, hs => nomatch hs
  | _, .rangedFloat min max, hs => fun (x y : BitVec 64) hx hy e => by
    have hs : 0 < F64.key min := by simpa [Schema.sorts] using hs
    have x1 := (F64.positive hs hx.1).2
    have y1 := (F64.positive hs hy.1).2
    have e : Cmp.f64Eq x y = true := e
    simp only [Cmp.f64Eq, Bool.and_eq_true, beq_iff_eq] at e
    exact BitVec.eq_of_toNat_eq (by have := e.2; omega)
  | _, .unit, _ => .of (Schema.eqv_exact .unit rfl)
  | _, .bool, _ => .of (Schema.eqv_exact .bool rfl)
  | _, .int t, _ => .of (Schema.eqv_exact (.int t) rfl)
  | _, .rangedInt t min max, _ => .of (Schema.eqv_exact (.rangedInt t min max) rfl)
  | _, .zarithN, _ => .of (Schema.eqv_exact .zarithN rfl)
  | _, .zarithZ, _ => .of (Schema.eqv_exact .zarithZ rfl)
  | _, .fixedBytes n, _ => .of (Schema.eqv_exact (.fixedBytes n) rfl)
  | _, .fixedString n, _ => .of (Schema.eqv_exact (.fixedString n) rfl)
  | _, .cstyle w tags, _ => .of (Schema.eqv_exact (.cstyle w tags) rfl)
  | _, .bytes, _ => .of (Schema.eqv_exact .bytes rfl)
  | _, .vecU8, _ => .of (Schema.eqv_exact .vecU8 rfl)
  | _, .string, _ => .of (Schema.eqv_exact .string rfl)
  | _, .hole i, _ => .of (Schema.eqv_exact (.hole i) rfl)
  | last, .vpadded _ s, hs | last, .autobox s, hs => s.sorts_exact h last hs
  | last, .option s, hs => (s.sorts_exact h last hs).option
  | _, .padded _ s, hs => s.sorts_exact h false hs
  | _, .fixSeq _ s, hs => fun x y hx hy => (s.sorts_exact h false hs).slice x y hx.2 hy.2
  | last, .nullable s, hs => (s.sorts_exact h last (by simp only [Schema.sorts, Bool.and_eq_true] at hs; exact hs.2)).option
  | _, .seq s, hs => (s.sorts_exact h false (by simp only [Schema.sorts, Bool.and_eq_true] at hs; exact hs.2)).slice
  | _, .limSeq _ s, hs => fun x y hx hy =>
    (s.sorts_exact h false (by simp only [Schema.sorts, Bool.and_eq_true] at hs; exact hs.2)).slice x y hx.2 hy.2
  | _, .dynamic _ s, hs => s.sorts_exact h true (by simp only [Schema.sorts, Bool.and_eq_true] at hs; exact hs.2)
  | last, .data _ vs, hs => vs.sorts_exact h last hs
  | last, .record fs, hs => fs.sorts_exact h last hs
theorem Variants.sorts_exact (h : Bool) : ∀ (last : Bool) (vs : Variants), vs.sorts h last = true → Cmp.ExactOn vs.Valid vs.eqv
  | _, .nil, _ => fun x => nomatch x
  | last, .cons _ s vs, hs => by
    simp only [Variants.sorts, Bool.and_eq_true] at hs
    intro x y hx hy e
    match x, y, hx, hy, e with
    | .inl x, .inl y, hx, hy, e => exact congrArg Sum.inl (s.sorts_exact h last hs.1.2 x y hx hy e)
    | .inr x, .inr y, hx, hy, e => exact congrArg Sum.inr (vs.sorts_exact h last hs.2 x y hx hy e)
theorem Fields.sorts_exact (h : Bool) : ∀ (last : Bool) (fs : Fields), fs.sorts h last = true → Cmp.ExactOn fs.Valid fs.eqv
  | _, .nil, _ => fun _ _ _ _ _ => rfl
  | last, .cons s fs, hs => fun x y hx hy e => by
    simp only [Fields.sorts, Bool.and_eq_true] at hs
    have e' := (Bool.and_eq_true _ _).mp e
    exact Prod.ext (s.sorts_exact h _ hs.1 x.1 y.1 hx.1 hy.1 e'.1) (fs.sorts_exact h last hs.2 x.2 y.2 hx.2 hy.2 e'.2)
end

namespace Decls

variable (d : Decls)

theorem lift_valid : ∀ n i x, (d.unfold n i).Valid x → (d.unfold (n + 1) i).Valid (d.lift n i x)
  | 0, _, x, _ => nomatch x
  | n + 1, i, x, hv => (d.body i).valid_mapFill (fun j y hy => lift_valid n j y hy) x hv

theorem valid_at {i n : Nat} (x : (d.unfold n i).Val) (hx : (d.unfold n i).Valid x) :
    ∀ k, ∃ y, d.val (n + k) y = d.val n x ∧ (d.unfold (n + k) i).Valid y
  | 0 => ⟨x, rfl, hx⟩
  | k + 1 => by
    obtain ⟨y, hy, hv⟩ := valid_at x hx k
    exact ⟨d.lift _ i y, (d.val_lift _ y).trans hy, d.lift_valid _ _ y hv⟩

/-- Two well-formed values are well-formed values of one unfolding. -/
theorem exists_two_valid {i n m : Nat} (x : (d.unfold n i).Val) (y : (d.unfold m i).Val) (hx : (d.unfold n i).Valid x)
    (hy : (d.unfold m i).Valid y) :
    ∃ k x' y', d.val k x' = d.val n x ∧ d.val k y' = d.val m y ∧ (d.unfold k i).Valid x' ∧ (d.unfold k i).Valid y' := by
  obtain ⟨x', h1, h2⟩ := d.valid_at x hx m
  obtain ⟨y', h3, h4⟩ : ∃ y', d.val (n + m) y' = d.val m y ∧ (d.unfold (n + m) i).Valid y' := by
    rw [Nat.add_comm]
    exact d.valid_at y hy n
  exact ⟨n + m, x', y', h1, h3, h2, h4⟩

theorem sorts {h : Bool} (hs : ∀ j, (d.body j).sorts h (!h) = true) (hst : d.Stable) (hn : ∀ j, (d.body j).nonempty = true) :
    ∀ n i, (d.unfold n i).sorts h (!h) = true
  | 0, _ => by simp [unfold, Schema.sorts]
  | n + 1, i => (d.body i).sorts_fill (sorts hs hst hn n) (fun j => d.nonempty hst (hn j) n) _ (hs i)

end Decls

end Verif
