import Verif.Hex
import Verif.Lemmas.Utf8
/-
`bytes_of_hex` and `eq_hex_bytes` by characters instead of byte offsets.
-/
namespace Verif

/-- A character of one byte. -/
def isAscii (c : Char) : Prop := c.toNat < 128

instance (c : Char) : Decidable (isAscii c) := inferInstanceAs (Decidable (_ < _))

theorem isCont_ofNat {n : Nat} (h : n < 256) : isCont (UInt8.ofNat n) = (decide (128 ≤ n) && decide (n ≤ 191)) := by
  simp [isCont, Nat.mod_eq_of_lt h]

/-- The first byte of a character starts it, the others continue it. -/
theorem utf8Char_shape (c : Char) : ∃ b tl, utf8Char c = b :: tl ∧ isCont b = false ∧ (∀ x ∈ tl, isCont x = true) ∧
    (isAscii c ↔ tl = []) ∧ tl.length ≤ 3 := by
  have hv := char_valid c
  unfold utf8Char isAscii
  simp only
  split
  · refine ⟨_, _, rfl, ?_, by simp, by simp; omega, by simp⟩
    rw [isCont_ofNat (by omega)]
    simp; omega
  · split
    · refine ⟨_, _, rfl, ?_, ?_, by simp; omega, by simp⟩
      · rw [isCont_ofNat (by omega)]; simp; omega
      · intro x hx
        simp only [List.mem_singleton] at hx
        subst hx
        exact isCont_of (by omega)
    · split
      · refine ⟨_, _, rfl, ?_, ?_, by simp; omega, by simp⟩
        · rw [isCont_ofNat (by omega)]; simp; omega
        · intro x hx
          simp only [List.mem_cons, List.not_mem_nil, or_false] at hx
          rcases hx with rfl | rfl <;> exact isCont_of (by omega)
      · refine ⟨_, _, rfl, ?_, ?_, by simp; omega, by simp⟩
        · rw [isCont_ofNat (by omega)]; simp; omega
        · intro x hx
          simp only [List.mem_cons, List.not_mem_nil, or_false] at hx
          rcases hx with rfl | rfl | rfl <;> exact isCont_of (by omega)

theorem utf8Char_ascii {c : Char} (h : isAscii c) : utf8Char c = [UInt8.ofNat c.toNat] := by
  unfold utf8Char
  exact if_pos h

theorem boundary_at (pre : Bytes) (cs : List Char) : isCharBoundary (pre ++ utf8 cs) pre.length = true := by
  unfold isCharBoundary
  cases cs with
  | nil => simp [utf8]
  | cons c cs =>
    obtain ⟨b, tl, hb, hc, _⟩ := utf8Char_shape c
    rw [utf8_cons, hb]
    simp [hc]

theorem boundary_inside {pre post : Bytes} {x : Byte} (hx : isCont x = true) (hp : pre ≠ []) :
    isCharBoundary (pre ++ x :: post) pre.length = false := by
  unfold isCharBoundary
  simp [hx, hp]

theorem strSlice_ok (pre p : Bytes) (cs' cs : List Char) (h : utf8 cs' = p ++ utf8 cs) :
    strSlice (pre ++ utf8 cs') pre.length (pre.length + p.length) = some p := by
  have h1 := boundary_at pre cs'
  have h2 := boundary_at (pre ++ p) cs
  rw [List.append_assoc, ← h, List.length_append] at h2
  rw [strSlice, if_pos ⟨by omega, h1, h2⟩, h]
  simp

theorem strSlice_panic (pre p post : Bytes) (x : Byte) (hx : isCont x = true) (hp : p ≠ []) :
    strSlice (pre ++ (p ++ x :: post)) pre.length (pre.length + p.length) = none := by
  have h := boundary_inside (pre := pre ++ p) (post := post) hx (by simp [hp])
  rw [List.append_assoc, List.length_append] at h
  rw [strSlice, if_neg (by simp [h])]

/-- The text by characters: `none` is a panic, `some none` an invalid digit. -/
def hexScan : List Char → Option (Option Bytes)
  | [] => some (some [])
  | [c] => if (utf8Char c).length = 2 then some none else none
  | c :: d :: cs =>
    if isAscii c then
      if isAscii d then
        match fromStrRadix16 [UInt8.ofNat c.toNat, UInt8.ofNat d.toNat] with
        | some b => (hexScan cs).map (·.map (b :: ·))
        | none => some none
      else none
    else if (utf8Char c).length = 2 then some none else none

theorem toDigit16_lead {b : Byte} (h : 128 ≤ b.toNat) : toDigit16 b = none := by
  unfold toDigit16
  simp only
  rw [if_neg (by omega), if_neg (by omega), if_neg (by omega)]

/-- A two-byte character is not a number. -/
theorem radix_wide {c : Char} (h : ¬ isAscii c) (b x : Byte) (hb : utf8Char c = [b, x]) : fromStrRadix16 [b, x] = none := by
  have h1 : 128 ≤ b.toNat := by
    have hv := char_valid c
    unfold utf8Char at hb
    unfold isAscii at h
    rw [if_neg h] at hb
    split at hb
    · have := (List.cons.inj hb).1
      subst this
      rw [UInt8.toNat_ofNat_of_lt' (by rw [UInt8.size]; omega)]
      omega
    · split at hb <;> cases hb
  have h2 : b ≠ 43 := by rintro rfl; exact absurd h1 (by decide)
  simp [fromStrRadix16, h2, radixGo, toDigit16_lead h1]

/-- What the slice of two bytes at a character boundary is. -/
def SliceTwo (pre : Bytes) (cs : List Char) : Prop :=
    match cs with
    | [] => False
    | [c] => (∃ b x, utf8Char c = [b, x] ∧ strSlice (pre ++ utf8 cs) pre.length (pre.length + 2) = some [b, x]) ∨
        ((utf8Char c).length ≠ 2 ∧ strSlice (pre ++ utf8 cs) pre.length (pre.length + 2) = none)
    | c :: d :: _ => if isAscii c then
        if isAscii d then strSlice (pre ++ utf8 cs) pre.length (pre.length + 2) =
          some [UInt8.ofNat c.toNat, UInt8.ofNat d.toNat]
        else strSlice (pre ++ utf8 cs) pre.length (pre.length + 2) = none
      else (∃ b x, utf8Char c = [b, x] ∧ strSlice (pre ++ utf8 cs) pre.length (pre.length + 2) = some [b, x]) ∨
        ((utf8Char c).length ≠ 2 ∧ strSlice (pre ++ utf8 cs) pre.length (pre.length + 2) = none)

theorem slice_two (pre : Bytes) (cs : List Char) (h : (utf8 cs).length ≥ 2) : SliceTwo pre cs := by
  have wide : ∀ (c : Char) (cs : List Char), ¬ isAscii c →
      (∃ b x, utf8Char c = [b, x] ∧ strSlice (pre ++ utf8 (c :: cs)) pre.length (pre.length + 2) = some [b, x]) ∨
        ((utf8Char c).length ≠ 2 ∧ strSlice (pre ++ utf8 (c :: cs)) pre.length (pre.length + 2) = none) := by
    intro c cs hc
    obtain ⟨b, tl, hb, _, ht, ha, _⟩ := utf8Char_shape c
    match tl, ha, ht with
    | [], ha, _ => exact absurd (ha.mpr rfl) hc
    | [x], _, _ =>
      refine .inl ⟨b, x, hb, ?_⟩
      exact strSlice_ok pre [b, x] (c :: cs) cs (by rw [utf8_cons, hb])
    | x :: y :: tl, _, ht =>
      refine .inr ⟨by rw [hb]; simp, ?_⟩
      rw [utf8_cons, hb]
      exact strSlice_panic pre [b, x] (tl ++ utf8 cs) y (ht y (by simp)) (by simp)
  match cs, h with
  | [], h => simp [utf8] at h
  | [c], h =>
    refine wide c [] fun ha => ?_
    rw [utf8_cons, utf8Char_ascii ha] at h
    simp [utf8] at h
  | c :: d :: cs, _ =>
    simp only [SliceTwo]
    split
    · rename_i hc
      split
      · rename_i hd
        refine strSlice_ok pre [_, _] (c :: d :: cs) cs ?_
        rw [utf8_cons, utf8_cons, utf8Char_ascii hc, utf8Char_ascii hd]
        rfl
      · rename_i hd
        obtain ⟨b, tl, hb, _, ht, ha, _⟩ := utf8Char_shape d
        match tl, ha, ht with
        | [], ha, _ => exact absurd (ha.mpr rfl) hd
        | x :: tl, _, ht =>
          rw [utf8_cons, utf8_cons, utf8Char_ascii hc, hb]
          exact strSlice_panic pre [_, b] (tl ++ utf8 cs) x (ht x (by simp)) (by simp)
    · rename_i hc
      exact wide c (d :: cs) hc

theorem bytesOfHexGo_eq (src : List Char) : ∀ (n ix : Nat) (dst pre : Bytes) (cs : List Char), utf8 src = pre ++ utf8 cs →
    pre.length = ix * 2 → (utf8 cs).length = n * 2 →
    bytesOfHexGo src n ix dst = (hexScan cs).map fun o => match o with
      | none => .error (.nonHex src)
      | some bs => .ok (dst ++ bs) := by
  intro n
  induction n with
  | zero =>
    intro ix dst pre cs _ _ hl
    cases cs with
    | nil => simp [bytesOfHexGo, hexScan]
    | cons c cs =>
      obtain ⟨b, tl, hb, _⟩ := utf8Char_shape c
      rw [utf8_cons, hb] at hl
      simp at hl
  | succ n ih =>
    intro ix dst pre cs hs hp hl
    have h2 := slice_two pre cs (by omega)
    rw [bytesOfHexGo, hs, ← hp]
    match cs, h2, hs, hl with
    | [c], h2, hs, hl =>
      rcases h2 with ⟨b, x, hb, h2⟩ | ⟨hb, h2⟩
      · rw [h2]
        simp only [hexScan, hb, List.length_cons, List.length_nil, if_true]
        rw [radix_wide (c := c) (fun ha => by rw [utf8Char_ascii ha] at hb; cases hb) b x hb]
        rfl
      · rw [h2]
        simp [hexScan, hb]
    | c :: d :: cs, h2, hs, hl =>
      simp only [SliceTwo] at h2
      rw [hexScan]
      by_cases hc : isAscii c
      · simp only [hc, if_true] at h2 ⊢
        by_cases hd : isAscii d
        · simp only [hd, if_true] at h2 ⊢
          rw [h2]
          simp only
          cases fromStrRadix16 [UInt8.ofNat c.toNat, UInt8.ofNat d.toNat] with
          | none => rfl
          | some w =>
            simp only
            rw [ih (ix + 1) (dst ++ [w]) (pre ++ [UInt8.ofNat c.toNat, UInt8.ofNat d.toNat]) cs
              (by rw [hs, utf8_cons, utf8_cons, utf8Char_ascii hc, utf8Char_ascii hd]; simp) (by simp; omega)
              (by rw [utf8_cons, utf8_cons, utf8Char_ascii hc, utf8Char_ascii hd] at hl; simp at hl; omega)]
            cases hexScan cs with
            | none => rfl
            | some o => cases o <;> simp
        · simp only [hd, if_false] at h2 ⊢
          rw [h2]
          rfl
      · simp only [hc, if_false] at h2 ⊢
        rcases h2 with ⟨b, x, hb, h2⟩ | ⟨hb, h2⟩
        · rw [h2]
          simp only [hb, List.length_cons, List.length_nil, if_true]
          rw [radix_wide hc b x hb]
          rfl
        · rw [h2, if_neg hb]
          rfl

theorem bytesOfHex_eq (src : List Char) : bytesOfHex src =
    if (utf8 src).length % 2 = 0 then (hexScan src).map fun o => match o with
      | none => .error (.nonHex src)
      | some bs => .ok bs
    else some (.error (.oddParity src)) := by
  unfold bytesOfHex
  simp only
  split
  · rename_i h
    rw [if_pos (by omega)]
    cases src with
    | nil => rfl
    | cons c cs =>
      obtain ⟨b, tl, hb, _⟩ := utf8Char_shape c
      rw [utf8_cons, hb] at h
      simp at h
  · split
    · rfl
    · rename_i h
      rw [if_pos (by omega), bytesOfHexGo_eq src _ 0 [] [] src rfl rfl (by omega)]
      rfl

/-- Comparison stops at the first difference, so it may not see an invalid digit or a boundary behind it. -/
def eqScan : List Char → Bytes → Option Bool
  | [], [] => some true
  | c :: d :: cs, t :: ts =>
    if isAscii c then
      if isAscii d then
        match fromStrRadix16 [UInt8.ofNat c.toNat, UInt8.ofNat d.toNat] with
        | some b => if b = t then eqScan cs ts else some false
        | none => some false
      else none
    else if (utf8Char c).length = 2 then some false else none
  | [c], _ :: _ => if (utf8Char c).length = 2 then some false else none
  | _, _ => some false

theorem eqHexGo_eq (src : List Char) : ∀ (tgt : Bytes) (ix : Nat) (pre : Bytes) (cs : List Char), utf8 src = pre ++ utf8 cs →
    pre.length = ix * 2 → (utf8 cs).length = tgt.length * 2 → eqHexGo src tgt ix = eqScan cs tgt := by
  intro tgt
  induction tgt with
  | nil =>
    intro ix pre cs _ _ hl
    cases cs with
    | nil => rfl
    | cons c cs =>
      obtain ⟨b, tl, hb, _⟩ := utf8Char_shape c
      rw [utf8_cons, hb] at hl
      simp at hl
  | cons t tgt ih =>
    intro ix pre cs hs hp hl
    rw [List.length_cons] at hl
    have h2 := slice_two pre cs (by omega)
    rw [eqHexGo, hs, ← hp]
    match cs, h2, hs, hl with
    | [c], h2, hs, hl =>
      rcases h2 with ⟨b, x, hb, h2⟩ | ⟨hb, h2⟩
      · rw [h2]
        simp only [eqScan, hb, List.length_cons, List.length_nil, if_true]
        rw [radix_wide (c := c) (fun ha => by rw [utf8Char_ascii ha] at hb; cases hb) b x hb]
      · rw [h2]
        simp [eqScan, hb]
    | c :: d :: cs, h2, hs, hl =>
      simp only [SliceTwo] at h2
      rw [eqScan]
      by_cases hc : isAscii c
      · simp only [hc, if_true] at h2 ⊢
        by_cases hd : isAscii d
        · simp only [hd, if_true] at h2 ⊢
          rw [h2]
          simp only
          cases fromStrRadix16 [UInt8.ofNat c.toNat, UInt8.ofNat d.toNat] with
          | none => rfl
          | some w =>
            simp only
            split
            · exact ih (ix + 1) (pre ++ [UInt8.ofNat c.toNat, UInt8.ofNat d.toNat]) cs
                (by rw [hs, utf8_cons, utf8_cons, utf8Char_ascii hc, utf8Char_ascii hd]; simp) (by simp; omega)
                (by rw [utf8_cons, utf8_cons, utf8Char_ascii hc, utf8Char_ascii hd] at hl; simp at hl; omega)
            · rfl
        · simp only [hd, if_false] at h2 ⊢
          rw [h2]
      · simp only [hc, if_false] at h2 ⊢
        rcases h2 with ⟨b, x, hb, h2⟩ | ⟨hb, h2⟩
        · rw [h2]
          simp only [hb, List.length_cons, List.length_nil, if_true]
          rw [radix_wide hc b x hb]
        · rw [h2, if_neg hb]

theorem eqHexBytes_eq (src : List Char) (tgt : Bytes) : eqHexBytes src tgt =
    if tgt.length * 2 = (utf8 src).length then eqScan src tgt else some false := by
  unfold eqHexBytes
  by_cases h : tgt.length * 2 = (utf8 src).length
  · rw [if_neg (by simpa using h), if_pos h, eqHexGo_eq src tgt 0 [] src rfl rfl h.symm]
  · rw [if_pos h, if_neg h]

end Verif
