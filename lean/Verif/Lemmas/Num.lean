import Verif.Spec.Format
/-
Lemmas about numbers and their byte representations.
-/
namespace Verif

theorem cat_some_left (a : Bytes) (o : Option Bytes) : Enc.cat (some a) o = o.map (a ++ ·) := by
  cases o <;> rfl

theorem cat_some (a b : Bytes) : Enc.cat (some a) (some b) = some (a ++ b) := rfl
theorem cat_none_left (o : Option Bytes) : Enc.cat none o = none := rfl
theorem cat_none_right (o : Option Bytes) : Enc.cat o none = none := by cases o <;> rfl

theorem cat_eq_some {a b : Option Bytes} {e : Bytes} :
    Enc.cat a b = some e ↔ ∃ x y, a = some x ∧ b = some y ∧ e = x ++ y := by
  cases a <;> cases b <;> simp [Enc.cat, eq_comm]

theorem byte_ofNat_toNat {n : Nat} (h : n < 256) : (UInt8.ofNat n).toNat = n := by
  simp [UInt8.toNat_ofNat']
  omega

theorem byte_lt (b : Byte) : b.toNat < 256 := b.toNat_lt

theorem byte_ext {a b : Byte} (h : a.toNat = b.toNat) : a = b := UInt8.toNat_inj.mp h

@[simp] theorem toBe_length (k n : Nat) : (toBe k n).length = k := by
  induction k generalizing n with
  | zero => rfl
  | succ k ih => simp [toBe, ih]

theorem ofBe_append (a : Bytes) (b : Byte) : ofBe (a ++ [b]) = ofBe a * 256 + b.toNat := by
  simp [ofBe]

theorem ofBe_toBe (k n : Nat) : ofBe (toBe k n) = n % 256 ^ k := by
  induction k generalizing n with
  | zero => simp [toBe, ofBe, Nat.mod_one]
  | succ k ih =>
    rw [toBe, ofBe_append, ih, byte_ofNat_toNat (Nat.mod_lt _ (by decide)), Nat.pow_succ,
      Nat.mul_comm (256 ^ k) 256, Nat.mod_mul]
    omega

theorem ofBe_toBe_of_lt {k n : Nat} (h : n < 256 ^ k) : ofBe (toBe k n) = n := by
  rw [ofBe_toBe, Nat.mod_eq_of_lt h]

theorem ofBe_lt (bs : Bytes) : ofBe bs < 256 ^ bs.length := by
  rw [← List.reverse_reverse bs]
  induction bs.reverse with
  | nil => simp [ofBe]
  | cons b l ih =>
    rw [List.reverse_cons, ofBe_append]
    simp only [List.length_append, List.length_reverse, List.length_cons, List.length_nil, Nat.zero_add,
      Nat.pow_succ] at ih ⊢
    have := byte_lt b
    omega

theorem toBe_ofBe (bs : Bytes) : toBe bs.length (ofBe bs) = bs := by
  rw [← List.reverse_reverse bs]
  induction bs.reverse with
  | nil => rfl
  | cons b l ih =>
    rw [List.reverse_cons, ofBe_append]
    simp only [List.length_append, List.length_reverse, List.length_cons, List.length_nil, Nat.zero_add]
    simp only [List.length_reverse] at ih
    have hb := byte_lt b
    rw [toBe, show (ofBe l.reverse * 256 + b.toNat) / 256 = ofBe l.reverse by omega, ih,
      show (ofBe l.reverse * 256 + b.toNat) % 256 = b.toNat by omega]
    congr 2
    exact byte_ext (byte_ofNat_toNat hb)

theorem IntTy.pow_eq (t : IntTy) : 2 ^ (8 * t.len) = 256 ^ t.len := by
  rw [Nat.pow_mul]

theorem IntTy.ofBe_toBe (t : IntTy) (x : t.Val) : BitVec.ofNat (8 * t.len) (ofBe (toBe t.len x.toNat)) = x := by
  have := x.isLt
  rw [IntTy.pow_eq] at this
  rw [ofBe_toBe_of_lt this]
  simp

/-! ### zarith -/

theorem radix_ne_nil (n : Nat) : toRadix n ≠ [] := by
  unfold toRadix
  split <;> simp

theorem radix_lt (n : Nat) : ∀ d ∈ toRadix n, d < 128 := by
  induction n using Nat.strongRecOn with
  | _ n ih =>
    unfold toRadix
    split
    · simpa
    · rename_i h
      simp only [List.mem_cons, forall_eq_or_imp]
      exact ⟨Nat.mod_lt _ (by decide), ih _ (by omega)⟩

theorem xor_low : ∀ n, n < 128 → UInt8.ofNat n ^^^ 0x80 = UInt8.ofNat (n + 128) := by decide +kernel

theorem xor_xor (b : Byte) : b ^^^ 0x80 ^^^ 0x80 = b := by
  rw [UInt8.xor_assoc]; simp

theorem toggleTop_append (l : Bytes) (x : Byte) : toggleTop (l ++ [x]) = l.map (· ^^^ 0x80) ++ [x] := by
  simp only [toggleTop, List.length_append, List.length_cons, List.length_nil, Nat.zero_add,
    Nat.add_sub_cancel]
  have : (l ++ [x]).modify l.length (· ^^^ 0x80) = l ++ [x ^^^ 0x80] := by
    induction l with
    | nil => rfl
    | cons a l ih => simpa using ih
  rw [this]
  simp [xor_xor]

theorem toggleTop_cons (x : Byte) {l : Bytes} (h : l ≠ []) : toggleTop (x :: l) = (x ^^^ 0x80) :: toggleTop l := by
  rw [← List.dropLast_concat_getLast h, ← List.cons_append, toggleTop_append, toggleTop_append]
  rfl

theorem toggle_radix (n : Nat) : toggleTop ((toRadix n).map UInt8.ofNat) = Enc.nat7 n := by
  induction n using Nat.strongRecOn with
  | _ n ih =>
    unfold toRadix Enc.nat7
    split
    · exact toggleTop_append [] _
    · rename_i h
      rw [List.map_cons, toggleTop_cons _ (by simp [radix_ne_nil]), ih _ (by omega),
        xor_low _ (Nat.mod_lt _ (by decide))]

theorem serializeN_eq (n : Nat) : serializeN n = Enc.nat7 n := toggle_radix n

theorem and_7f : ∀ b : Byte, (b &&& 0x7f).toNat = b.toNat % 128 := by
  intro b
  have := Nat.and_two_pow_sub_one_eq_mod b.toNat 7
  simpa using this

theorem and_3f : ∀ b : Byte, (b &&& 0x3f).toNat = b.toNat % 64 := by
  intro b
  have := Nat.and_two_pow_sub_one_eq_mod b.toNat 6
  simpa using this

theorem forall_byte {P : Byte → Prop} (h : ∀ n, n < 256 → P (UInt8.ofNat n)) (b : Byte) : P b := by
  have := h b.toNat (byte_lt b)
  simpa using this

theorem and_80_eq : ∀ b : Byte, (b &&& 0x80 = 0) ↔ b.toNat < 128 := by
  apply forall_byte
  decide +kernel

theorem and_40_ne : ∀ b : Byte, (b &&& 0x40 ≠ 0) ↔ b.toNat / 64 % 2 = 1 := by
  apply forall_byte
  decide +kernel

theorem fromRadix_map (bs : Bytes) :
    fromRadix (bs.map fun b => (b &&& 0x7f).toNat) = some (Dec.val7 bs) := by
  simp only [fromRadix]
  rw [if_pos]
  · simp only [Dec.val7, List.foldr_map, and_7f]
  · simp only [List.all_eq_true, List.mem_map, forall_exists_index, and_imp, decide_eq_true_eq]
    rintro _ b _ rfl
    rw [and_7f]
    exact Nat.mod_lt _ (by decide)

theorem deserializeN_eq (bs : Bytes) : deserializeN bs = some (Dec.val7 bs) := fromRadix_map bs

theorem shift_or (i b : Nat) (h : b < 64) : (i <<< 6) ||| b = b + 64 * i := by
  rw [Nat.shiftLeft_eq, Nat.mul_comm, ← Nat.two_pow_add_eq_or_of_lt (i := 6) h i]
  omega

theorem deserializeZ_eq {bs : Bytes} (h : bs ≠ []) : deserializeZ bs = some (Dec.ival7 bs) := by
  cases bs with
  | nil => exact absurd rfl h
  | cons b bs =>
    simp only [deserializeZ, fromRadix_map, Dec.ival7, and_3f, shift_or _ _ (Nat.mod_lt _ (by decide)), and_40_ne]

theorem or_40 : ∀ n, n < 64 → UInt8.ofNat n ||| 0x40 = UInt8.ofNat (n + 64) := by decide +kernel

theorem shr_1 : ∀ n, n < 128 → UInt8.ofNat n >>> 1 = UInt8.ofNat (n / 2) := by decide +kernel

theorem serializeZ_eq (z : Int) : serializeZ z = Enc.int7 z := by
  simp only [serializeZ, Enc.int7]
  generalize z.natAbs = n
  have h2 : n <<< 1 = 2 * n := by rw [Nat.shiftLeft_eq]; omega
  rw [h2]
  unfold toRadix
  by_cases h : n < 64
  · have h' : 2 * n < 128 := by omega
    have hs : UInt8.ofNat (2 * n) >>> 1 = UInt8.ofNat n := by rw [shr_1 _ h']; congr 1; omega
    simp only [if_pos h, if_pos h', List.map_cons, List.map_nil, List.modify_zero_cons, hs]
    split
    · rw [or_40 _ h]; exact toggleTop_append [] _
    · exact toggleTop_append [] _
  · have h' : ¬ 2 * n < 128 := by omega
    have hs : UInt8.ofNat (2 * n % 128) >>> 1 = UInt8.ofNat (n % 64) := by
      rw [shr_1 _ (Nat.mod_lt _ (by decide))]; congr 1; omega
    have hd : 2 * n / 128 = n / 64 := by omega
    have hm : n % 64 < 64 := Nat.mod_lt _ (by decide)
    simp only [if_neg h, if_neg h', List.map_cons, List.modify_zero_cons, hs, hd]
    split
    · rw [or_40 _ hm, toggleTop_cons _ (by simp [radix_ne_nil]), toggle_radix, xor_low _ (by omega)]
    · rw [toggleTop_cons _ (by simp [radix_ne_nil]), toggle_radix, xor_low _ (by omega)]

theorem terminal_eq : (fun b : Byte => decide (b &&& 0x80 = 0)) = (fun b => decide (b.toNat < 128)) := by
  funext b
  simp only [and_80_eq]

/-! ### range checks -/

theorem restrict_ok_iff {val min max : Int} : (restrict val min max = .ok ()) ↔ Enc.inRange min max val := by
  unfold restrict Enc.inRange
  repeat' split
  all_goals simp
  all_goals omega

theorem IntTy.tryFrom_nat {t : IntTy} {n : Nat} (ht : t.signed = false) (h : n < 256 ^ t.len) :
    IntTy.tryFrom t n = some (BitVec.ofNat _ n) := by
  have h' : t.lo ≤ (n : Int) ∧ (n : Int) ≤ t.hi := by
    simp only [IntTy.lo, IntTy.hi, ht, Bool.false_eq_true, if_false]
    have := t.pow_eq
    have h2 : (2 : Int) ^ (8 * t.len) = ((256 ^ t.len : Nat) : Int) := by rw [← this]; simp
    rw [h2]
    omega
  simp only [IntTy.tryFrom, if_pos h']
  congr 1

end Verif
