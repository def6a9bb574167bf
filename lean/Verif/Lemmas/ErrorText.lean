import Verif.ErrorText
/-
Lemmas about texts: numbers can be read back, and a text is cut where a number ends.
-/
namespace Verif

/-! ### cutting texts -/

/-- A text that does not begin with a character of the kind `p`. -/
def stops (p : Char → Bool) : Text → Bool
  | [] => true
  | c :: _ => !p c

theorem cut {p : Char → Bool} : ∀ {a b x y : Text}, (∀ c ∈ a, p c = true) → (∀ c ∈ b, p c = true) →
    stops p x = true → stops p y = true → a ++ x = b ++ y → a = b ∧ x = y
  | [], [], _, _, _, _, _, _, h => ⟨rfl, h⟩
  | [], c :: b, x, y, _, hb, hx, _, h => by
    simp only [List.nil_append, List.cons_append] at h
    rw [h] at hx
    simp [stops, hb c (by simp)] at hx
  | c :: a, [], x, y, ha, _, _, hy, h => by
    simp only [List.nil_append, List.cons_append] at h
    rw [← h] at hy
    simp [stops, ha c (by simp)] at hy
  | c :: a, d :: b, x, y, ha, hb, hx, hy, h => by
    simp only [List.cons_append, List.cons.injEq] at h
    obtain ⟨rfl, h⟩ := h
    obtain ⟨rfl, rfl⟩ := cut (fun c hc => ha c (by simp [hc])) (fun c hc => hb c (by simp [hc])) hx hy h
    exact ⟨rfl, rfl⟩

/-- Two literals that differ before either of them ends. -/
def clash : Text → Text → Bool
  | c :: a, d :: b => c != d || clash a b
  | _, _ => false

theorem clash_ne : ∀ {a b x y : Text}, clash a b = true → a ++ x ≠ b ++ y
  | [], _, _, _, h, _ => by simp [clash] at h
  | _ :: _, [], _, _, h, _ => by simp [clash] at h
  | c :: a, d :: b, x, y, h, e => by
    simp only [List.cons_append, List.cons.injEq] at e
    simp only [clash, Bool.or_eq_true, bne_iff_ne, ne_eq] at h
    rcases h with h | h
    · exact h e.1
    · exact clash_ne h e.2

/-! ### decimal -/

theorem isDigit_dec {n : Nat} (h : n < 10) : (Char.ofNat (48 + n)).isDigit = true := by
  have : ∀ i : Fin 10, (Char.ofNat (48 + i.val)).isDigit = true := by decide
  exact this ⟨n, h⟩

theorem decimal_digits (n : Nat) : ∀ c ∈ decimal n, c.isDigit = true := by
  induction n using Nat.strongRecOn with
  | _ n ih =>
    rw [decimal]
    split
    · rename_i h
      simp [isDigit_dec h]
    · rename_i h
      intro c hc
      rcases List.mem_append.mp hc with hc | hc
      · exact ih (n / 10) (by omega) c hc
      · simp only [List.mem_singleton] at hc
        rw [hc]
        exact isDigit_dec (Nat.mod_lt _ (by omega))

theorem decimal_ne_nil (n : Nat) : decimal n ≠ [] := by
  rw [decimal]
  split <;> simp

/-- The number a text of decimal digits writes. -/
def ofDecimal (t : Text) : Nat := t.foldl (fun a c => a * 10 + (c.toNat - 48)) 0

theorem dec_toNat {n : Nat} (h : n < 10) : (Char.ofNat (48 + n)).toNat - 48 = n := by
  have : ∀ i : Fin 10, (Char.ofNat (48 + i.val)).toNat - 48 = i.val := by decide
  exact this ⟨n, h⟩

theorem ofDecimal_decimal (n : Nat) : ofDecimal (decimal n) = n := by
  induction n using Nat.strongRecOn with
  | _ n ih =>
    rw [decimal]
    split
    · rename_i h
      simp [ofDecimal, dec_toNat h]
    · rename_i h
      have := ih (n / 10) (by omega)
      unfold ofDecimal at this ⊢
      rw [List.foldl_append, this]
      simp only [List.foldl_cons, List.foldl_nil, dec_toNat (Nat.mod_lt n (show 0 < 10 by omega))]
      omega

theorem decimal_inj {m n : Nat} (h : decimal m = decimal n) : m = n := by
  rw [← ofDecimal_decimal m, h, ofDecimal_decimal]

theorem decimal_cut {m n : Nat} {x y : Text} (hx : stops Char.isDigit x = true) (hy : stops Char.isDigit y = true)
    (h : decimal m ++ x = decimal n ++ y) : m = n ∧ x = y := by
  obtain ⟨h₁, h₂⟩ := cut (decimal_digits m) (decimal_digits n) hx hy h
  exact ⟨decimal_inj h₁, h₂⟩

theorem signed_inj {m n : Int} (h : signed m = signed n) : m = n := by
  have hd : ∀ k l, decimal k ≠ '-' :: decimal l := by
    intro k l e
    have := decimal_digits k '-' (by rw [e]; simp)
    exact absurd this (by decide)
  cases m with
  | ofNat m =>
    cases n with
    | ofNat n => rw [decimal_inj h]
    | negSucc n => exact absurd h (hd _ _)
  | negSucc m =>
    cases n with
    | ofNat n => exact absurd h.symm (hd _ _)
    | negSucc n =>
      simp only [signed, List.cons.injEq, true_and] at h
      have := decimal_inj h
      rw [show m = n from by omega]

/-! ### hexadecimal -/

/-- The value of a hexadecimal digit. -/
def hexValue (c : Char) : Nat := if c.isDigit then c.toNat - 48 else c.toNat - 87

def ofHex (t : Text) : Nat := t.foldl (fun a c => a * 16 + hexValue c) 0

theorem hexValue_hexDigit {n : Nat} (h : n < 16) : hexValue (hexDigit n) = n := by
  have : ∀ i : Fin 16, hexValue (hexDigit i.val) = i.val := by decide
  exact this ⟨n, h⟩

theorem hexDigit_ne_space {n : Nat} (h : n < 16) : (hexDigit n != ' ') = true := by
  have : ∀ i : Fin 16, (hexDigit i.val != ' ') = true := by decide
  exact this ⟨n, h⟩

theorem ofHex_lowerHex (n : Nat) : ofHex (lowerHex n) = n := by
  induction n using Nat.strongRecOn with
  | _ n ih =>
    rw [lowerHex]
    split
    · rename_i h
      simp [ofHex, hexValue_hexDigit h]
    · rename_i h
      have := ih (n / 16) (by omega)
      unfold ofHex at this ⊢
      rw [List.foldl_append, this]
      simp only [List.foldl_cons, List.foldl_nil, hexValue_hexDigit (Nat.mod_lt n (show 0 < 16 by omega))]
      omega

theorem lowerHex_no_space (n : Nat) : ∀ c ∈ lowerHex n, (c != ' ') = true := by
  induction n using Nat.strongRecOn with
  | _ n ih =>
    rw [lowerHex]
    split
    · rename_i h
      intro c hc
      simp only [List.mem_singleton] at hc
      rw [hc]
      exact hexDigit_ne_space h
    · rename_i h
      intro c hc
      rcases List.mem_append.mp hc with hc | hc
      · exact ih (n / 16) (by omega) c hc
      · simp only [List.mem_singleton] at hc
        rw [hc]
        exact hexDigit_ne_space (Nat.mod_lt _ (by omega))

theorem altHex_no_space (w n : Nat) : ∀ c ∈ altHex w n, (c != ' ') = true := by
  intro c hc
  simp only [altHex, List.mem_append, List.mem_cons, List.mem_replicate, List.not_mem_nil, or_false] at hc
  rcases hc with ((rfl | rfl) | ⟨_, rfl⟩) | hc
  · decide
  · decide
  · decide
  · exact lowerHex_no_space n c hc

theorem ofHex_altHex (w n : Nat) : ofHex ((altHex w n).drop 2) = n := by
  have : ∀ k (t : Text), ofHex (List.replicate k '0' ++ t) = ofHex t := by
    intro k t
    induction k with
    | zero => rfl
    | succ k ih =>
      rw [List.replicate_succ, List.cons_append, ← ih]
      rfl
  simp only [altHex, List.cons_append, List.nil_append, List.drop_succ_cons, List.drop_zero, this, ofHex_lowerHex]

theorem altHex_inj {w w' m n : Nat} (h : altHex w m = altHex w' n) : m = n := by
  rw [← ofHex_altHex w m, h, ofHex_altHex]

theorem fmt02x_inj {a b : Byte} (h : fmt02x a = fmt02x b) : a = b := by
  simp only [fmt02x, List.cons.injEq, and_true] at h
  have ha := a.toNat_lt
  have hb := b.toNat_lt
  have h₁ : a.toNat / 16 = b.toNat / 16 := by
    rw [← hexValue_hexDigit (show a.toNat / 16 < 16 by omega), h.1, hexValue_hexDigit (by omega)]
  have h₂ : a.toNat % 16 = b.toNat % 16 := by
    rw [← hexValue_hexDigit (show a.toNat % 16 < 16 by omega), h.2, hexValue_hexDigit (by omega)]
  apply UInt8.toNat_inj.mp
  omega

theorem writeHex_eq (fmt : Text) (buf : Bytes) : writeHex fmt buf = fmt ++ buf.flatMap fmt02x := by
  unfold writeHex
  induction buf generalizing fmt with
  | nil => simp
  | cons b buf ih => rw [List.foldl_cons, ih, List.flatMap_cons, List.append_assoc]

theorem hexBytes_inj : ∀ {a b : Bytes}, a.flatMap fmt02x = b.flatMap fmt02x → a = b
  | [], [], _ => rfl
  | [], b :: bs, h => by simp [fmt02x] at h
  | a :: as, [], h => by simp [fmt02x] at h
  | a :: as, b :: bs, h => by
    simp only [List.flatMap_cons] at h
    obtain ⟨h₁, h₂⟩ := List.append_inj h (by simp [fmt02x])
    rw [fmt02x_inj h₁, hexBytes_inj h₂]

/-! ### lists -/

theorem debugItems_cons (a a' : Nat) (as : List Nat) :
    debugItems (a :: a' :: as) = decimal a ++ ',' :: ' ' :: debugItems (a' :: as) := by
  rw [debugItems, List.append_assoc]
  · rfl
  · simp

theorem debugItems_cut : ∀ {a b : List Nat} {x y : Text}, debugItems a ++ ']' :: x = debugItems b ++ ']' :: y →
    a = b ∧ x = y
  | [], [], x, y, h => by simpa [debugItems] using h
  | [], b :: bs, x, y, h => by
    exfalso
    have : ∃ r, debugItems (b :: bs) = decimal b ++ r := by
      cases bs with
      | nil => exact ⟨[], by simp [debugItems]⟩
      | cons c cs => exact ⟨_, by simp only [debugItems, List.append_assoc]; rfl⟩
    obtain ⟨r, hr⟩ := this
    rw [hr, debugItems] at h
    cases hd : decimal b with
    | nil => exact decimal_ne_nil b hd
    | cons c cs =>
      have := decimal_digits b c (by rw [hd]; simp)
      rw [hd] at h
      simp only [List.nil_append, List.cons_append, List.cons.injEq] at h
      rw [← h.1] at this
      exact absurd this (by decide)
  | a :: as, [], x, y, h => by
    exfalso
    have : ∃ r, debugItems (a :: as) = decimal a ++ r := by
      cases as with
      | nil => exact ⟨[], by simp [debugItems]⟩
      | cons c cs => exact ⟨_, by simp only [debugItems, List.append_assoc]; rfl⟩
    obtain ⟨r, hr⟩ := this
    rw [hr, debugItems] at h
    cases hd : decimal a with
    | nil => exact decimal_ne_nil a hd
    | cons c cs =>
      have := decimal_digits a c (by rw [hd]; simp)
      rw [hd] at h
      simp only [List.nil_append, List.cons_append, List.cons.injEq] at h
      rw [h.1] at this
      exact absurd this (by decide)
  | [a], [b], x, y, h => by
    obtain ⟨h₁, h₂⟩ := decimal_cut (by rfl) (by rfl) (show decimal a ++ ']' :: x = decimal b ++ ']' :: y from h)
    simp only [List.cons.injEq, true_and] at h₂
    exact ⟨by rw [h₁], h₂⟩
  | [a], b :: b' :: bs, x, y, h => by
    exfalso
    have h' : decimal a ++ ']' :: x = decimal b ++ (',' :: ' ' :: debugItems (b' :: bs) ++ ']' :: y) := by
      rw [debugItems, debugItems, List.append_assoc, List.append_assoc] at h
      exact h
      simp
    obtain ⟨_, h₂⟩ := decimal_cut (by rfl) (by rfl) h'
    simp at h₂
  | a :: a' :: as, [b], x, y, h => by
    exfalso
    have h' : decimal a ++ (',' :: ' ' :: debugItems (a' :: as) ++ ']' :: x) = decimal b ++ ']' :: y := by
      rw [debugItems, debugItems, List.append_assoc, List.append_assoc] at h
      exact h
      simp
    obtain ⟨_, h₂⟩ := decimal_cut (by rfl) (by rfl) h'
    simp at h₂
  | a :: a' :: as, b :: b' :: bs, x, y, h => by
    have h' : decimal a ++ (',' :: ' ' :: (debugItems (a' :: as) ++ ']' :: x)) =
        decimal b ++ (',' :: ' ' :: (debugItems (b' :: bs) ++ ']' :: y)) := by
      rw [debugItems_cons, debugItems_cons] at h
      simpa using h
    obtain ⟨h₁, h₂⟩ := decimal_cut (by rfl) (by rfl) h'
    simp only [List.cons.injEq, true_and] at h₂
    obtain ⟨h₃, h₄⟩ := debugItems_cut h₂
    exact ⟨by rw [h₁, h₃], h₄⟩

theorem debugList_cut {a b : List Nat} {x y : Text} (h : debugList a ++ x = debugList b ++ y) : a = b ∧ x = y := by
  refine debugItems_cut (x := x) (y := y) ?_
  simpa [debugList] using h

theorem toNat_inj : ∀ {a b : Bytes}, a.map (·.toNat) = b.map (·.toNat) → a = b
  | [], [], _ => rfl
  | [], _ :: _, h => by simp at h
  | _ :: _, [], h => by simp at h
  | a :: as, b :: bs, h => by
    simp only [List.map_cons, List.cons.injEq] at h
    rw [UInt8.toNat_inj.mp h.1, toNat_inj h.2]

end Verif
