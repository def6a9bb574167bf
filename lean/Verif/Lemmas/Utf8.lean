import Verif.Lemmas.Num
import Verif.Fixed
/-
UTF-8.
-/
namespace Verif

theorem charWidth_of {n : Nat} (hn : n < 256) : charWidth (UInt8.ofNat n) =
    if n < 0x80 then 1 else if 0xc2 ≤ n ∧ n ≤ 0xdf then 2 else if 0xe0 ≤ n ∧ n ≤ 0xef then 3
    else if 0xf0 ≤ n ∧ n ≤ 0xf4 then 4 else 0 := by
  unfold charWidth
  rw [byte_ofNat_toNat hn]

theorem isCont_of {n : Nat} (hn : n < 64) : isCont (UInt8.ofNat (0x80 + n)) = true := by
  unfold isCont
  rw [byte_ofNat_toNat (by omega)]
  simp
  omega

theorem char_valid (c : Char) : c.toNat < 0xd800 ∨ (0xdfff < c.toNat ∧ c.toNat < 0x110000) := c.valid

/-- Scanning the encoding of a character yields it. -/
theorem lossyStep_utf8 (c : Char) (rest : Bytes) :
    ∃ a bs, utf8Char c = a :: bs ∧ lossyStep a (bs ++ rest) = (c, bs.length + 1) := by
  have hv := char_valid c
  have hc : Char.ofNat c.toNat = c := Char.ofNat_toNat c
  unfold utf8Char
  simp only
  generalize c.toNat = n at *
  split
  · rename_i h
    refine ⟨_, _, rfl, ?_⟩
    simp only [lossyStep, charWidth_of (show n < 256 by omega), if_pos h, byte_ofNat_toNat (show n < 256 by omega), hc,
      List.length_nil]
  · split
    · rename_i h1 h2
      refine ⟨_, _, rfl, ?_⟩
      simp only [lossyStep, charWidth_of (show 0xc0 + n / 64 < 256 by omega)]
      rw [if_neg (by omega), if_pos (by omega)]
      simp only [List.cons_append, safeGet, List.getD_cons_zero, isCont_of (show n % 64 < 64 by omega), Bool.not_true,
        Bool.false_eq_true, if_false, byte_ofNat_toNat (show 0xc0 + n / 64 < 256 by omega),
        byte_ofNat_toNat (show 0x80 + n % 64 < 256 by omega), List.length_cons, List.length_nil]
      rw [show (192 + n / 64 - 192) * 64 + (128 + n % 64 - 128) = n by omega, hc]
    · split
      · rename_i h1 h2 h3
        refine ⟨_, _, rfl, ?_⟩
        simp only [lossyStep, charWidth_of (show 0xe0 + n / 4096 < 256 by omega)]
        rw [if_neg (by omega), if_neg (by omega), if_pos (by omega)]
        have hs : second3 (UInt8.ofNat (0xe0 + n / 4096)) (UInt8.ofNat (0x80 + n / 64 % 64)) = true := by
          unfold second3
          rw [byte_ofNat_toNat (by omega), byte_ofNat_toNat (by omega)]
          simp
          omega
        simp only [List.cons_append, safeGet, List.getD_cons_zero, List.getD_cons_succ, hs,
          isCont_of (show n % 64 < 64 by omega), Bool.not_true,
          Bool.false_eq_true, if_false, byte_ofNat_toNat (show 0xe0 + n / 4096 < 256 by omega),
          byte_ofNat_toNat (show 0x80 + n / 64 % 64 < 256 by omega),
          byte_ofNat_toNat (show 0x80 + n % 64 < 256 by omega), List.length_cons, List.length_nil]
        rw [show (224 + n / 4096 - 224) * 4096 + (128 + n / 64 % 64 - 128) * 64 + (128 + n % 64 - 128) = n by omega, hc]
      · rename_i h1 h2 h3
        refine ⟨_, _, rfl, ?_⟩
        simp only [lossyStep, charWidth_of (show 0xf0 + n / 262144 < 256 by omega)]
        rw [if_neg (by omega), if_neg (by omega), if_neg (by omega), if_pos (by omega)]
        have hs : second4 (UInt8.ofNat (0xf0 + n / 262144)) (UInt8.ofNat (0x80 + n / 4096 % 64)) = true := by
          unfold second4
          rw [byte_ofNat_toNat (by omega), byte_ofNat_toNat (by omega)]
          simp
          omega
        simp only [List.cons_append, safeGet, List.getD_cons_zero, List.getD_cons_succ, hs,
          isCont_of (show n % 64 < 64 by omega), isCont_of (show n / 64 % 64 < 64 by omega), Bool.not_true,
          Bool.false_eq_true, if_false, byte_ofNat_toNat (show 0xf0 + n / 262144 < 256 by omega),
          byte_ofNat_toNat (show 0x80 + n / 4096 % 64 < 256 by omega),
          byte_ofNat_toNat (show 0x80 + n / 64 % 64 < 256 by omega),
          byte_ofNat_toNat (show 0x80 + n % 64 < 256 by omega), List.length_cons, List.length_nil]
        rw [show (240 + n / 262144 - 240) * 262144 + (128 + n / 4096 % 64 - 128) * 4096 + (128 + n / 64 % 64 - 128) * 64
          + (128 + n % 64 - 128) = n by omega, hc]

theorem lossy_utf8 (cs : List Char) : lossy (utf8 cs) = cs := by
  induction cs with
  | nil => rw [utf8, List.flatMap_nil, lossy]
  | cons c cs ih =>
    obtain ⟨a, bs, h1, h2⟩ := lossyStep_utf8 c (utf8 cs)
    have : utf8 (c :: cs) = a :: (bs ++ utf8 cs) := by
      rw [utf8, List.flatMap_cons, h1]; rfl
    rw [this, lossy, h2]
    simp [ih]

theorem utf8_cons (c : Char) (cs : List Char) : utf8 (c :: cs) = utf8Char c ++ utf8 cs := by
  rw [utf8, List.flatMap_cons]; rfl

/-- The encoder is the one of Lean's own strings. -/
theorem utf8Char_eq (c : Char) : utf8Char c = String.utf8EncodeChar c := by
  have hv := char_valid c
  unfold utf8Char String.utf8EncodeChar
  change _ = (if c.toNat ≤ 127 then [UInt8.ofNat c.toNat] else
    if c.toNat ≤ 2047 then [UInt8.ofNat (c.toNat / 64 % 32 + 192), UInt8.ofNat (c.toNat % 64 + 128)] else
    if c.toNat ≤ 65535 then [UInt8.ofNat (c.toNat / 4096 % 16 + 224), UInt8.ofNat (c.toNat / 64 % 64 + 128),
      UInt8.ofNat (c.toNat % 64 + 128)]
    else [UInt8.ofNat (c.toNat / 262144 % 8 + 240), UInt8.ofNat (c.toNat / 4096 % 64 + 128),
      UInt8.ofNat (c.toNat / 64 % 64 + 128), UInt8.ofNat (c.toNat % 64 + 128)])
  simp only
  generalize c.toNat = n at *
  by_cases h1 : n < 0x80
  · rw [if_pos h1, if_pos (by omega)]
  rw [if_neg h1, if_neg (show ¬ n ≤ 127 by omega)]
  by_cases h2 : n < 0x800
  · rw [if_pos h2, if_pos (by omega), show 0xc0 + n / 64 = n / 64 % 32 + 192 by omega, Nat.add_comm 0x80]
  rw [if_neg h2, if_neg (show ¬ n ≤ 2047 by omega)]
  by_cases h3 : n < 0x10000
  · rw [if_pos h3, if_pos (by omega), show 0xe0 + n / 4096 = n / 4096 % 16 + 224 by omega, Nat.add_comm 0x80,
      Nat.add_comm 0x80]
  · rw [if_neg h3, if_neg (by omega), show 0xf0 + n / 262144 = n / 262144 % 8 + 240 by omega, Nat.add_comm 0x80,
      Nat.add_comm 0x80, Nat.add_comm 0x80]

theorem utf8_eq (cs : List Char) : utf8 cs = cs.flatMap String.utf8EncodeChar := by
  unfold utf8
  congr 1
  exact funext utf8Char_eq

theorem utf8Step_utf8 (c : Char) (rest : Bytes) :
    ∃ a bs, utf8Char c = a :: bs ∧ utf8Step a (bs ++ rest) = some (bs.length + 1) := by
  have hv := char_valid c
  unfold utf8Char
  simp only
  generalize c.toNat = n at *
  split
  · rename_i h
    refine ⟨_, _, rfl, ?_⟩
    simp only [utf8Step, charWidth_of (show n < 256 by omega), if_pos h, List.length_nil]
  · split
    · rename_i h1 h2
      refine ⟨_, _, rfl, ?_⟩
      simp only [utf8Step, charWidth_of (show 0xc0 + n / 64 < 256 by omega)]
      rw [if_neg (by omega), if_pos (by omega)]
      simp only [List.cons_append, isCont_of (show n % 64 < 64 by omega), if_true, List.length_cons, List.length_nil]
    · split
      · rename_i h1 h2 h3
        refine ⟨_, _, rfl, ?_⟩
        simp only [utf8Step, charWidth_of (show 0xe0 + n / 4096 < 256 by omega)]
        rw [if_neg (by omega), if_neg (by omega), if_pos (by omega)]
        have hs : second3 (UInt8.ofNat (0xe0 + n / 4096)) (UInt8.ofNat (0x80 + n / 64 % 64)) = true := by
          unfold second3
          rw [byte_ofNat_toNat (by omega), byte_ofNat_toNat (by omega)]
          simp
          omega
        simp only [List.cons_append, hs, isCont_of (show n % 64 < 64 by omega), Bool.and_self, if_true,
          List.length_cons, List.length_nil]
      · rename_i h1 h2 h3
        refine ⟨_, _, rfl, ?_⟩
        simp only [utf8Step, charWidth_of (show 0xf0 + n / 262144 < 256 by omega)]
        rw [if_neg (by omega), if_neg (by omega), if_neg (by omega), if_pos (by omega)]
        have hs : second4 (UInt8.ofNat (0xf0 + n / 262144)) (UInt8.ofNat (0x80 + n / 4096 % 64)) = true := by
          unfold second4
          rw [byte_ofNat_toNat (by omega), byte_ofNat_toNat (by omega)]
          simp
          omega
        simp only [List.cons_append, hs, isCont_of (show n % 64 < 64 by omega),
          isCont_of (show n / 64 % 64 < 64 by omega), Bool.and_self, if_true, List.length_cons, List.length_nil]

theorem ofNat_toNat_byte (b : Byte) {n : Nat} (h : n = b.toNat) : UInt8.ofNat n = b := by
  subst h; exact UInt8.ofNat_toNat

theorem char_ofNat_toNat {n : Nat} (h : n < 0xd800 ∨ (0xdfff < n ∧ n < 0x110000)) : (Char.ofNat n).toNat = n := by
  have : n.isValidChar := by
    simp only [Nat.isValidChar]; omega
  rw [Char.ofNat, dif_pos this]
  simp [Char.ofNatAux, Char.toNat]

/-- A well-formed sequence is the encoding of a character. -/
theorem utf8Step_some {a : Byte} {bs : Bytes} {n : Nat} (h : utf8Step a bs = some n) :
    ∃ c, a :: bs = utf8Char c ++ bs.drop (n - 1) := by
  have ha := a.toNat_lt
  unfold utf8Step at h
  split at h
  · rename_i hw
    cases h
    simp only [charWidth] at hw
    have h0 : a.toNat < 0x80 := by
      revert hw; split <;> (try split) <;> (try split) <;> (try split) <;> simp_all
    refine ⟨Char.ofNat a.toNat, ?_⟩
    rw [utf8Char, char_ofNat_toNat (by omega), if_pos h0]
    simp
  · rename_i b1 _ hw
    have hb := b1.toNat_lt
    split at h
    · rename_i hc
      cases h
      simp only [isCont, Bool.and_eq_true, decide_eq_true_eq] at hc
      have h0 : 0xc2 ≤ a.toNat ∧ a.toNat ≤ 0xdf := by
        simp only [charWidth] at hw
        revert hw; split <;> (try split) <;> (try split) <;> (try split) <;> simp_all
      refine ⟨Char.ofNat ((a.toNat - 0xc0) * 64 + (b1.toNat - 0x80)), ?_⟩
      rw [utf8Char, char_ofNat_toNat (by omega), if_neg (by omega), if_pos (by omega),
        ofNat_toNat_byte a (by omega), ofNat_toNat_byte b1 (by omega)]
      simp
    · cases h
  · rename_i b1 b2 _ hw
    have hb1 := b1.toNat_lt
    have hb2 := b2.toNat_lt
    split at h
    · rename_i hc
      cases h
      simp only [isCont, second3, Bool.and_eq_true, Bool.or_eq_true, decide_eq_true_eq] at hc
      have h0 : 0xe0 ≤ a.toNat ∧ a.toNat ≤ 0xef := by
        simp only [charWidth] at hw
        revert hw; split <;> (try split) <;> (try split) <;> (try split) <;> simp_all
      refine ⟨Char.ofNat ((a.toNat - 0xe0) * 4096 + (b1.toNat - 0x80) * 64 + (b2.toNat - 0x80)), ?_⟩
      rw [utf8Char, char_ofNat_toNat (by omega), if_neg (by omega), if_neg (by omega), if_pos (by omega),
        ofNat_toNat_byte a (by omega), ofNat_toNat_byte b1 (by omega), ofNat_toNat_byte b2 (by omega)]
      simp
    · cases h
  · rename_i b1 b2 b3 _ hw
    have hb1 := b1.toNat_lt
    have hb2 := b2.toNat_lt
    have hb3 := b3.toNat_lt
    split at h
    · rename_i hc
      cases h
      simp only [isCont, second4, Bool.and_eq_true, Bool.or_eq_true, decide_eq_true_eq] at hc
      have h0 : 0xf0 ≤ a.toNat ∧ a.toNat ≤ 0xf4 := by
        simp only [charWidth] at hw
        revert hw; split <;> (try split) <;> (try split) <;> (try split) <;> simp_all
      refine ⟨Char.ofNat ((a.toNat - 0xf0) * 262144 + (b1.toNat - 0x80) * 4096 + (b2.toNat - 0x80) * 64 +
        (b3.toNat - 0x80)), ?_⟩
      rw [utf8Char, char_ofNat_toNat (by omega), if_neg (by omega), if_neg (by omega), if_neg (by omega),
        ofNat_toNat_byte a (by omega), ofNat_toNat_byte b1 (by omega), ofNat_toNat_byte b2 (by omega),
        ofNat_toNat_byte b3 (by omega)]
      simp
    · cases h
  · cases h

/-- `from_utf8` accepts exactly the encodings of character sequences. -/
theorem fromUtf8Ok_iff (v : Bytes) : fromUtf8Ok v = true ↔ ∃ cs, v = utf8 cs := by
  constructor
  · suffices H : ∀ k, ∀ v : Bytes, v.length ≤ k → fromUtf8Ok v = true → ∃ cs, v = utf8 cs from H _ v (Nat.le_refl _)
    intro k
    induction k with
    | zero =>
      intro v hv _
      exact ⟨[], by rw [List.length_eq_zero_iff.mp (Nat.le_zero.mp hv)]; rfl⟩
    | succ k ih =>
      intro v hv h
      cases v with
      | nil => exact ⟨[], rfl⟩
      | cons a bs =>
        rw [fromUtf8Ok] at h
        split at h
        · rename_i n hn
          obtain ⟨cs, hcs⟩ := ih (bs.drop (n - 1)) (by simp at hv ⊢; omega) h
          obtain ⟨c, hc⟩ := utf8Step_some hn
          exact ⟨c :: cs, by rw [utf8_cons, ← hcs]; exact hc⟩
        · cases h
  · rintro ⟨cs, rfl⟩
    induction cs with
    | nil => rw [utf8, List.flatMap_nil, fromUtf8Ok]
    | cons c cs ih =>
      obtain ⟨a, bs, h1, h2⟩ := utf8Step_utf8 c (utf8 cs)
      rw [utf8_cons, h1, List.cons_append, fromUtf8Ok, h2]
      simpa using ih

end Verif
