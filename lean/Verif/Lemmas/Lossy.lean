import Verif.Lemmas.Utf8
/-
Beginnings of encoded characters, and what the scanner of `from_utf8_lossy` does with ill-formed pieces.
-/
namespace Verif

/-- The second bytes that can follow a first byte. -/
def secondOk (a b : Byte) : Bool :=
  match charWidth a with
  | 2 => isCont b
  | 3 => second3 a b
  | 4 => second4 a b
  | _ => false

/-- The bytes can be extended to the encoding of a character. -/
def Begins (q : Bytes) : Prop :=
  match q with
  | [] => True
  | [a] => 1 ≤ charWidth a
  | [a, b] => 2 ≤ charWidth a ∧ secondOk a b
  | [a, b, c] => 3 ≤ charWidth a ∧ secondOk a b ∧ isCont c
  | [a, b, c, d] => 4 ≤ charWidth a ∧ secondOk a b ∧ isCont c ∧ isCont d
  | _ => False

theorem charWidth_le (a : Byte) : charWidth a ≤ 4 := by
  unfold charWidth
  simp only
  split <;> (try split) <;> (try split) <;> (try split) <;> omega

theorem begins_of_step {a : Byte} {bs : Bytes} (h : utf8Step a bs = some (bs.length + 1)) : Begins (a :: bs) := by
  unfold utf8Step at h
  split at h
  · rename_i hw
    simp at h
    subst h
    simp [Begins, hw]
  · rename_i hw
    split at h
    · rename_i hc
      simp at h
      subst h
      simp [Begins, secondOk, hw, hc]
    · cases h
  · rename_i hw
    split at h
    · rename_i hc
      simp at h
      subst h
      simp [Begins, secondOk, hw] 
      simpa using hc
    · cases h
  · rename_i hw
    split at h
    · rename_i hc
      simp at h
      subst h
      simp [Begins, secondOk, hw]
      simpa [and_assoc] using hc
    · cases h
  · cases h

theorem begins_utf8 (c : Char) : Begins (utf8Char c) := by
  obtain ⟨a, bs, h1, h2⟩ := utf8Step_utf8 c []
  rw [List.append_nil] at h2
  rw [h1]
  exact begins_of_step h2

theorem begins_init (q : Bytes) (b : Byte) (h : Begins (q ++ [b])) : Begins q := by
  match q, h with
  | [], _ => trivial
  | [a], h => exact Nat.le_trans (by decide) h.1
  | [a, b], h => exact ⟨Nat.le_trans (by decide) h.1, h.2.1⟩
  | [a, b, c], h => exact ⟨Nat.le_trans (by decide) h.1, h.2.1, h.2.2.1⟩
  | [a, b, c, d], h => exact h.elim
  | a :: b :: c :: d :: e :: q, h => exact h.elim

theorem begins_prefix {q t : Bytes} (h : Begins (q ++ t)) : Begins q := by
  induction t generalizing q with
  | nil => simpa using h
  | cons b t ih =>
    have : Begins ((q ++ [b]) ++ t) := by simpa using h
    exact begins_init q b (ih this)

theorem second_exists (a : Byte) (h : 2 ≤ charWidth a) : ∃ b, secondOk a b = true := by
  have H : ∀ a : Fin 256, 2 ≤ charWidth (UInt8.ofNat a.1) →
      (secondOk (UInt8.ofNat a.1) 0x80 = true ∨ secondOk (UInt8.ofNat a.1) 0xa0 = true) := by decide +kernel
  have := H ⟨a.toNat, a.toNat_lt⟩
  rw [UInt8.ofNat_toNat] at this
  exact (this h).elim (⟨_, ·⟩) (⟨_, ·⟩)

/-- A beginning of a character that is not complete can be extended by a byte. -/
theorem begins_extend {a : Byte} {bs : Bytes} (h : Begins (a :: bs)) (hl : bs.length + 1 < charWidth a) :
    ∃ b, Begins (a :: (bs ++ [b])) := by
  match bs, h with
  | [], h =>
    obtain ⟨b, hb⟩ := second_exists a hl
    exact ⟨b, hl, hb⟩
  | [b], h => exact ⟨0x80, hl, h.2, by decide⟩
  | [b, c], h => exact ⟨0x80, hl, h.2.1, h.2.2, by decide⟩
  | [b, c, d], h => exact absurd (charWidth_le a) (by simp at hl; omega)

theorem begins_width {a : Byte} {bs : Bytes} (h : Begins (a :: bs)) : bs.length + 1 ≤ charWidth a := by
  match bs, h with
  | [], h => exact h
  | [b], h => exact h.1
  | [b, c], h => exact h.1
  | [b, c, d], h => exact h.1

theorem begins_step {a : Byte} {bs : Bytes} (h : Begins (a :: bs)) (hl : bs.length + 1 = charWidth a) :
    utf8Step a bs = some (bs.length + 1) := by
  match bs, h with
  | [], h =>
    simp only [List.length_nil] at hl
    simp [utf8Step, ← hl]
  | [b], h =>
    simp only [List.length_cons, List.length_nil] at hl
    have := h.2
    simp only [secondOk, ← hl] at this
    simp [utf8Step, ← hl, this]
  | [b, c], h =>
    simp only [List.length_cons, List.length_nil] at hl
    have := h.2
    simp only [secondOk, ← hl] at this
    simp [utf8Step, ← hl, this]
  | [b, c, d], h =>
    simp only [List.length_cons, List.length_nil] at hl
    have := h.2
    simp only [secondOk, ← hl] at this
    simp [utf8Step, ← hl, this]

/-- `Begins` says what its name says. -/
theorem begins_iff (q : Bytes) : Begins q ↔ ∃ c, q <+: utf8Char c := by
  constructor
  · intro h
    cases q with
    | nil => exact ⟨'a', List.nil_prefix⟩
    | cons a bs =>
      suffices H : ∀ k (bs : Bytes), Begins (a :: bs) → bs.length + 1 + k = charWidth a →
          ∃ c, (a :: bs) <+: utf8Char c by
        exact H (charWidth a - (bs.length + 1)) bs h (by have := begins_width h; omega)
      intro k
      induction k with
      | zero =>
        intro bs h hl
        obtain ⟨c, hc⟩ := utf8Step_some (begins_step h hl)
        rw [Nat.add_sub_cancel, List.drop_length, List.append_nil] at hc
        exact ⟨c, hc ▸ List.prefix_refl _⟩
      | succ k ih =>
        intro bs h hl
        obtain ⟨b, hb⟩ := begins_extend h (by omega)
        obtain ⟨c, hc⟩ := ih (bs ++ [b]) hb (by simp; omega)
        exact ⟨c, List.IsPrefix.trans ⟨[b], by simp⟩ hc⟩
  · rintro ⟨c, t, ht⟩
    exact begins_prefix (ht ▸ begins_utf8 c)

/-- Zero never continues a character. -/
theorem safeGet_of {bs : Bytes} {i : Nat} (h : safeGet bs i ≠ 0) : i < bs.length := by
  apply Classical.byContradiction
  intro hn
  exact h (by simp [safeGet, List.getD, List.getElem?_eq_none (Nat.not_lt.mp hn)])

theorem isCont_ne {b : Byte} (h : isCont b = true) : b ≠ 0 := by rintro rfl; exact absurd h (by decide)

theorem secondOk_ne {a b : Byte} (h : secondOk a b = true) : b ≠ 0 := by
  rintro rfl
  unfold secondOk at h
  split at h
  · exact absurd h (by decide)
  · simp [second3] at h
  · simp [second4] at h
  · cases h

/-- Which piece the scanner takes: a whole character, or the longest piece with which a character could begin
(one byte if there is none). -/
theorem lossyStep_cases (a : Byte) (bs : Bytes) :
    (∃ c, lossyStep a bs = (c, (utf8Char c).length) ∧ utf8Char c <+: a :: bs) ∨
    (∃ k, lossyStep a bs = (replacement, k + 1) ∧ k ≤ bs.length ∧ (k = 0 ∨ Begins (a :: bs.take k)) ∧
      (∀ m, k < m → m ≤ bs.length → ¬ Begins (a :: bs.take m)) ∧ ∀ n, utf8Step a bs ≠ some n) := by
  by_cases hs : ∃ n, utf8Step a bs = some n
  · left
    obtain ⟨n, hn⟩ := hs
    obtain ⟨c, hc⟩ := utf8Step_some hn
    obtain ⟨a', bs', h1, h2⟩ := lossyStep_utf8 c (bs.drop (n - 1))
    rw [h1, List.cons_append] at hc
    obtain ⟨rfl, hb⟩ := List.cons.inj hc
    refine ⟨c, ?_, ?_⟩
    · rw [hb, h2, h1]; rfl
    · rw [h1]
      exact ⟨bs.drop (n - 1), hc.symm⟩
  · right
    have hs : ∀ n, utf8Step a bs ≠ some n := fun n h => hs ⟨n, h⟩
    have no1 : charWidth a ≠ 1 := fun hw => hs 1 (by simp [utf8Step, hw])
    have none_of : ∀ (k : Nat), (∀ h : k < bs.length, ¬ Begins (a :: bs.take (k + 1))) →
        ∀ m, k < m → m ≤ bs.length → ¬ Begins (a :: bs.take m) := by
      intro k h m hm hl hb
      refine h (by omega) ?_
      have : bs.take m = bs.take (k + 1) ++ (bs.take m).drop (k + 1) := by
        have := (List.take_append_drop (k + 1) (bs.take m)).symm
        rwa [List.take_take, Nat.min_eq_left (by omega)] at this
      rw [this] at hb
      exact begins_prefix (q := a :: bs.take (k + 1)) (by simpa using hb)
    have hw4 := charWidth_le a
    have fin : ∀ k, lossyStep a bs = (replacement, k + 1) → k ≤ bs.length → (k = 0 ∨ Begins (a :: bs.take k)) →
        (∀ _ : k < bs.length, ¬ Begins (a :: bs.take (k + 1))) →
        (∃ k, lossyStep a bs = (replacement, k + 1) ∧ k ≤ bs.length ∧ (k = 0 ∨ Begins (a :: bs.take k)) ∧
          (∀ m, k < m → m ≤ bs.length → ¬ Begins (a :: bs.take m)) ∧ ∀ n, utf8Step a bs ≠ some n) :=
      fun k h1 h2 h3 h4 => ⟨k, h1, h2, h3, none_of k h4, hs⟩
    have len1 : secondOk a (safeGet bs 0) = true → ∃ b r, bs = b :: r := by
      intro h
      have := safeGet_of (secondOk_ne h)
      match bs, this with
      | b :: r, _ => exact ⟨b, r, rfl⟩
    have first : secondOk a (safeGet bs 0) = false → ∀ _ : 0 < bs.length, ¬ Begins (a :: bs.take (0 + 1)) := by
      intro h hl hb
      match bs, hl with
      | b :: r, _ =>
        have h2 := hb.2
        simp only [safeGet, List.getD_cons_zero] at h
        rw [h] at h2
        cases h2
    have two : ∀ b r, bs = b :: r → isCont (safeGet bs 1) = false →
        ∀ _ : 1 < bs.length, ¬ Begins (a :: bs.take (1 + 1)) := by
      intro b r hbs h hl hb
      subst hbs
      match r, hl with
      | c :: r, _ =>
        have h2 := hb.2.2
        simp only [safeGet, List.getD_cons_zero, List.getD_cons_succ] at h
        rw [h] at h2
        cases h2
    have three : ∀ b c r, bs = b :: c :: r → isCont (safeGet bs 2) = false →
        ∀ _ : 2 < bs.length, ¬ Begins (a :: bs.take (2 + 1)) := by
      intro b c r hbs h hl hb
      subst hbs
      match r, hl with
      | d :: r, _ =>
        have h2 := hb.2.2.2
        simp only [safeGet, List.getD_cons_zero, List.getD_cons_succ] at h
        rw [h] at h2
        cases h2
    have cases4 : charWidth a = 0 ∨ charWidth a = 2 ∨ charWidth a = 3 ∨ charWidth a = 4 := by omega
    have len2 : ∀ b r, bs = b :: r → isCont (safeGet bs 1) = true → ∃ c r', bs = b :: c :: r' := by
      intro b r hbs h
      have := safeGet_of (isCont_ne h)
      subst hbs
      match r, this with
      | c :: r, _ => exact ⟨c, r, rfl⟩
    have len3 : ∀ b c r, bs = b :: c :: r → isCont (safeGet bs 2) = true → ∃ d r', bs = b :: c :: d :: r' := by
      intro b c r hbs h
      have := safeGet_of (isCont_ne h)
      subst hbs
      match r, this with
      | d :: r, _ => exact ⟨d, r, rfl⟩
    rcases cases4 with hw | hw | hw | hw
    · refine fin 0 (by simp [lossyStep, hw]) (Nat.zero_le _) (.inl rfl) (fun hl hb => ?_)
      match bs, hl with
      | b :: r, _ => exact absurd hb.1 (by omega)
    · cases h1 : secondOk a (safeGet bs 0) with
      | false =>
        refine fin 0 ?_ (Nat.zero_le _) (.inl rfl) (first h1)
        simp only [secondOk, hw] at h1
        simp [lossyStep, hw, h1]
      | true =>
        obtain ⟨b, r, rfl⟩ := len1 h1
        simp only [secondOk, hw, safeGet, List.getD_cons_zero] at h1
        exact absurd (by simp [utf8Step, hw, h1]) (hs 2)
    · cases h1 : secondOk a (safeGet bs 0) with
      | false =>
        refine fin 0 ?_ (Nat.zero_le _) (.inl rfl) (first h1)
        simp only [secondOk, hw] at h1
        simp [lossyStep, hw, h1]
      | true =>
        obtain ⟨b, r, hbs⟩ := len1 h1
        have h1' := h1
        simp only [secondOk, hw] at h1'
        cases h2 : isCont (safeGet bs 1) with
        | false =>
          refine fin 1 (by simp [lossyStep, hw, h1', h2]) (by rw [hbs]; simp) (.inr ?_) (two b r hbs h2)
          subst hbs
          exact ⟨by omega, h1⟩
        | true =>
          obtain ⟨c, r', rfl⟩ := len2 b r hbs h2
          simp only [safeGet, List.getD_cons_zero, List.getD_cons_succ] at h1' h2
          exact absurd (by simp [utf8Step, hw, h1', h2]) (hs 3)
    · cases h1 : secondOk a (safeGet bs 0) with
      | false =>
        refine fin 0 ?_ (Nat.zero_le _) (.inl rfl) (first h1)
        simp only [secondOk, hw] at h1
        simp [lossyStep, hw, h1]
      | true =>
        obtain ⟨b, r, hbs⟩ := len1 h1
        have h1' := h1
        simp only [secondOk, hw] at h1'
        cases h2 : isCont (safeGet bs 1) with
        | false =>
          refine fin 1 (by simp [lossyStep, hw, h1', h2]) (by rw [hbs]; simp) (.inr ?_) (two b r hbs h2)
          subst hbs
          exact ⟨by omega, h1⟩
        | true =>
          obtain ⟨c, r', hbs'⟩ := len2 b r hbs h2
          cases h3 : isCont (safeGet bs 2) with
          | false =>
            refine fin 2 (by simp [lossyStep, hw, h1', h2, h3]) (by rw [hbs']; simp) (.inr ?_) (three b c r' hbs' h3)
            subst hbs'
            exact ⟨by omega, h1, h2⟩
          | true =>
            obtain ⟨d, r'', rfl⟩ := len3 b c r' hbs' h3
            simp only [safeGet, List.getD_cons_zero, List.getD_cons_succ] at h1' h2 h3
            exact absurd (by simp [utf8Step, hw, h1', h2, h3]) (hs 4)

end Verif
