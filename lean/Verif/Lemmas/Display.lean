import Verif.Display
import Verif.Spec.Numeral
/-
Lemmas about printed numbers.
-/
namespace Verif

/-! ### digits -/

theorem digitVal_decimal : ∀ d, d < 10 → digitVal (Char.ofNat (48 + d)) = some d := by decide

theorem digitVal_digit (k : NumFmt) : ∀ d, d < k.radix → digitVal (k.digit d) = some d := by
  cases k <;> decide

theorem numeral_append (b : Nat) (s t : Text) : numeral b (s ++ t) = (numeral b s).bind fun n => readDigits b n t := by
  rw [numeral, readDigits, List.foldlM_append]
  rfl

theorem numeral_snoc {b : Nat} {s : Text} {n d : Nat} {c : Char} (h : numeral b s = some n) (hc : digitVal c = some d)
    (hd : d < b) : numeral b (s ++ [c]) = some (b * n + d) := by
  rw [numeral_append, h]
  simp [readDigits, readDigit, hc, hd]

theorem numeral_one {b d : Nat} {c : Char} (hc : digitVal c = some d) (hd : d < b) : numeral b [c] = some d := by
  simp [numeral, readDigits, readDigit, hc, hd]

theorem readDigits_digit {b : Nat} : ∀ {t : Text} {m n : Nat}, readDigits b m t = some n → ∀ c ∈ t, (digitVal c).isSome = true
  | [], _, _, _, c, hc => by cases hc
  | d :: t, m, n, h, c, hc => by
    rw [readDigits, List.foldlM_cons] at h
    cases hd : readDigit b m d with
    | none => rw [hd] at h; cases h
    | some m' =>
      rw [hd] at h
      rcases List.mem_cons.mp hc with rfl | hc
      · unfold readDigit at hd
        split at hd
        · rename_i heq; rw [heq]; rfl
        · cases hd
      · exact readDigits_digit h c hc

theorem numeral_zeros {b : Nat} (hb : 0 < b) (t : Text) : ∀ z, numeral b (List.replicate z '0' ++ t) = numeral b t
  | 0 => rfl
  | z + 1 => by
    have h0 : readDigit b 0 '0' = some 0 := by
      have : digitVal '0' = some 0 := by decide
      simp [readDigit, this, hb]
    show readDigits b 0 ('0' :: (List.replicate z '0' ++ t)) = _
    rw [readDigits, List.foldlM_cons, h0]
    exact numeral_zeros hb t z

/-- What the digits of a number look like. -/
structure IsNumeral (b : Nat) (upper : Bool) (n : Nat) (ds : Text) : Prop where
  value : numeral b ds = some n
  nonempty : ds ≠ []
  short : ds.head? = some '0' → ds = ['0']
  case : ∀ c ∈ ds, ofCase upper c

theorem head_snoc {s : Text} {c d : Char} (h : s ≠ []) : (s ++ [c]).head? = some d ↔ s.head? = some d := by
  cases s with
  | nil => exact absurd rfl h
  | cons a s => rfl

theorem isNumeral_decimal (upper : Bool) (n : Nat) : IsNumeral 10 upper n (decimal n) := by
  have hcase : ∀ d, d < 10 → ofCase upper (Char.ofNat (48 + d)) := by cases upper <;> decide
  have hz : ∀ d, d < 10 → Char.ofNat (48 + d) = '0' → d = 0 := by decide
  suffices h : IsNumeral 10 upper n (decimal n) ∧ ((decimal n).head? = some '0' → n = 0) from h.1
  induction n using Nat.strongRecOn with
  | _ n ih =>
    rw [decimal]
    split
    · rename_i h
      refine ⟨⟨numeral_one (digitVal_decimal n h) h, by simp, fun h0 => ?_, ?_⟩, fun h0 => ?_⟩
      · simpa using h0
      · intro c hc
        rw [List.mem_singleton.mp hc]
        exact hcase n h
      · exact hz n h (by simpa using h0)
    · rename_i h
      obtain ⟨hn, h0⟩ := ih (n / 10) (by omega)
      have hd : n % 10 < 10 := Nat.mod_lt _ (by omega)
      have hh : ∀ {P : Prop}, (decimal (n / 10) ++ [Char.ofNat (48 + n % 10)]).head? = some '0' → P := fun hh => by
        have := h0 ((head_snoc hn.nonempty).mp hh)
        omega
      refine ⟨⟨?_, by simp, hh, ?_⟩, hh⟩
      · rw [numeral_snoc hn.value (digitVal_decimal _ hd) hd]
        exact congrArg some (by omega)
      · intro c hc
        rcases List.mem_append.mp hc with hc | hc
        · exact hn.case c hc
        · rw [List.mem_singleton.mp hc]
          exact hcase _ hd

theorem NumFmt.digits_one (k : NumFmt) (n : Nat) (h : n < k.radix) : k.digits n = [k.digit n] := by
  rw [digits, dif_pos h]

theorem NumFmt.digits_more (k : NumFmt) (n : Nat) (h : ¬ n < k.radix) :
    k.digits n = k.digits (n / k.radix) ++ [k.digit (n % k.radix)] := by
  rw [digits, dif_neg h]

theorem NumFmt.radix_two (k : NumFmt) : 2 ≤ k.radix := by cases k <;> decide

theorem isNumeral_digits (k : NumFmt) (n : Nat) : IsNumeral k.radix (decide (k = .upperHex)) n (k.digits n) := by
  have hcase : ∀ d, d < k.radix → ofCase (decide (k = .upperHex)) (k.digit d) := by cases k <;> decide
  have hz : ∀ d, d < k.radix → k.digit d = '0' → d = 0 := by cases k <;> decide
  have h2 := k.radix_two
  suffices h : IsNumeral k.radix (decide (k = .upperHex)) n (k.digits n) ∧ ((k.digits n).head? = some '0' → n = 0) from h.1
  induction n using Nat.strongRecOn with
  | _ n ih =>
    rw [NumFmt.digits]
    split
    · rename_i h
      refine ⟨⟨numeral_one (digitVal_digit k n h) h, by simp, fun h0 => ?_, ?_⟩, fun h0 => ?_⟩
      · simpa using h0
      · intro c hc
        rw [List.mem_singleton.mp hc]
        exact hcase n h
      · exact hz n h (by simpa using h0)
    · rename_i h
      have hlt : n / k.radix < n := Nat.div_lt_self (by omega) (by omega)
      have hpos : n / k.radix ≠ 0 := fun h0 => by
        rcases Nat.div_eq_zero_iff.mp h0 with h0 | h0 <;> omega
      obtain ⟨hn, h0⟩ := ih (n / k.radix) hlt
      have hd : n % k.radix < k.radix := Nat.mod_lt _ (by omega)
      have hh : ∀ {P : Prop}, (k.digits (n / k.radix) ++ [k.digit (n % k.radix)]).head? = some '0' → P := fun hh =>
        absurd (h0 ((head_snoc hn.nonempty).mp hh)) hpos
      refine ⟨⟨?_, by simp, hh, ?_⟩, hh⟩
      · rw [numeral_snoc hn.value (digitVal_digit k _ hd) hd]
        exact congrArg some (Nat.div_add_mod n k.radix)
      · intro c hc
        rcases List.mem_append.mp hc with hc | hc
        · exact hn.case c hc
        · rw [List.mem_singleton.mp hc]
          exact hcase _ hd

/-! ### padding -/

theorem FmtSpec.padding_placed (f : FmtSpec) (n : Nat) (default : Align) (body : Text) : ∃ l r,
    f.padding n default body = List.replicate l f.fill ++ body ++ List.replicate r f.fill ∧ l + r = n ∧
      Placed (f.align.getD default) l r := by
  unfold padding Placed
  cases f.align.getD default
  · exact ⟨0, n, by simp, by omega, rfl⟩
  · exact ⟨n, 0, by simp, by omega, rfl⟩
  · exact ⟨n / 2, n - n / 2, by simp, by omega, by simp only; omega⟩

theorem FmtSpec.padIntegral_printed (f : FmtSpec) (nonneg : Bool) (pre : Text) {b n : Nat} {upper : Bool} {ds : Text}
    (h : IsNumeral b upper n ds) :
    Printed f (if nonneg then (if f.plus then ['+'] else []) else ['-']) pre b upper n (f.padIntegral nonneg pre ds) := by
  obtain ⟨h1, h2, h3, h4⟩ := h
  unfold padIntegral Printed
  simp only
  generalize (if nonneg = true then if f.plus = true then ['+'] else [] else ['-'] : Text) = sign
  have hl : (if f.alternate = true then pre.length else 0) = (if f.alternate = true then pre else [] : Text).length := by
    split <;> rfl
  rw [hl]
  generalize (if f.alternate = true then pre else [] : Text) = mark
  by_cases hw : f.width ≤ (sign ++ mark).length + ds.length
  · rw [if_pos hw]
    rw [List.length_append] at hw
    refine ⟨0, 0, 0, ds, by simp, h1, h2, h3, h4, ?_, ?_⟩
    · rw [List.length_append, List.length_append]; omega
    · split
      · exact ⟨rfl, rfl⟩
      · refine ⟨rfl, ?_⟩
        unfold Placed; split <;> simp
  · rw [if_neg hw]
    by_cases hz : f.zero = true
    · rw [if_pos hz]
      refine ⟨0, f.width - ((sign ++ mark).length + ds.length), 0, ds, by simp, h1, h2, h3, h4, ?_, ?_⟩
      · rw [List.length_append, List.length_append, List.length_append, List.length_replicate]
        rw [List.length_append] at hw; omega
      · rw [if_pos hz]; exact ⟨rfl, rfl⟩
    · rw [if_neg hz]
      obtain ⟨l, r, e, hlr, hp⟩ := f.padding_placed (f.width - ((sign ++ mark).length + ds.length)) .right ((sign ++ mark) ++ ds)
      refine ⟨l, 0, r, ds, by rw [e]; simp, h1, h2, h3, h4, ?_, ?_⟩
      · rw [e, List.length_append, List.length_append, List.length_append, List.length_replicate, List.length_replicate]
        rw [List.length_append] at hlr hw ⊢; omega
      · rw [if_neg hz]; exact ⟨rfl, hp⟩

/-! ### reading back -/

theorem filter_replicate_none {p : Char → Bool} {c : Char} (h : p c = false) (n : Nat) : (List.replicate n c).filter p = [] := by
  rw [List.filter_eq_nil_iff]
  intro a ha
  rw [(List.mem_replicate.mp ha).2, h]
  simp

/-- The digits in a printed number, the sign and the mark of the base left aside. -/
theorem Printed.filtered {f : FmtSpec} {sign pre : Text} {b n : Nat} {upper : Bool} {t : Text} (hb : 0 < b)
    (hf : f.zero = true ∨ digitVal f.fill = none) (h : Printed f sign pre b upper n t) :
    ∃ ds, t.filter (fun c => (digitVal c).isSome) =
      (sign ++ if f.alternate then pre else []).filter (fun c => (digitVal c).isSome) ++ ds ∧ numeral b ds = some n := by
  obtain ⟨l, z, r, ds, rfl, h1, _, _, _, _, h2⟩ := h
  refine ⟨List.replicate z '0' ++ ds, ?_, by rw [numeral_zeros hb, h1]⟩
  have hds : (List.replicate z '0' ++ ds).filter (fun c => (digitVal c).isSome) = List.replicate z '0' ++ ds := by
    rw [List.filter_eq_self]
    intro c hc
    rcases List.mem_append.mp hc with hc | hc
    · rw [(List.mem_replicate.mp hc).2]; decide
    · exact readDigits_digit h1 c hc
  have hlr : ∀ m, (m = l ∨ m = r) → (List.replicate m f.fill).filter (fun c => (digitVal c).isSome) = [] := by
    intro m hm
    rcases hf with hf | hf
    · rw [if_pos hf] at h2
      rcases hm with rfl | rfl
      · rw [h2.1]; rfl
      · rw [h2.2]; rfl
    · exact filter_replicate_none (by simp [hf]) m
  rw [List.filter_append, List.filter_append, List.filter_append, hlr l (Or.inl rfl), hlr r (Or.inr rfl), hds]
  simp

theorem Printed.value {f : FmtSpec} {sign pre : Text} {b n m : Nat} {upper : Bool} {t : Text} (hb : 0 < b)
    (hf : f.zero = true ∨ digitVal f.fill = none) (h : Printed f sign pre b upper n t) (h' : Printed f sign pre b upper m t) :
    n = m := by
  obtain ⟨ds, e, hd⟩ := h.filtered hb hf
  obtain ⟨ds', e', hd'⟩ := h'.filtered hb hf
  rw [e] at e'
  rw [List.append_cancel_left e', hd'] at hd
  exact (Option.some.inj hd).symm

end Verif
