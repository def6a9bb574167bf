import Verif.Refine.Sound
import Verif.Refine.Cost
/-
In a window that ends before the cursor (VPadded in release builds, C20) nothing can be read and nothing closed: code
that is run there makes a bounded number of calls, and comes back, if at all, where it was.
-/
namespace Verif

/-- Windows that end before the cursor come about only by overlong requests, and nothing succeeds in them (`Z`) except
asking for the remainder, which seems to be there, and opening further ones. -/
structure Wraps {σ : Type} (P : ParserOps σ) (R : Bytes → List Bytes → σ → Prop) (Z : σ → Prop) : Prop where
  openOver : ∀ {v vs s} {n : Nat} {u s'}, R v vs s → v.length < n → n < usizeMod → P.setFit n s = .ok u s' → Z s'
  remainder : ∀ {s n s'}, Z s → P.remainder s = .ok n s' → n ≠ 0 ∧ s' = s
  consumeByte : ∀ {s b s'}, Z s → P.consumeByte s ≠ .ok b s'
  consume : ∀ {s n b s'}, Z s → P.consume n s ≠ .ok b s'
  setFit : ∀ {s n u s'}, Z s → P.setFit n s = .ok u s' → Z s'
  enforce : ∀ {s u s'}, Z s → P.enforceTarget s ≠ .ok u s'

/-! ### the three parsers -/

theorem sliceWraps : Wraps SliceParser.ops SliceR (fun _ => False) where
  openOver hr hn hn' ho := sliceSturdy.openOver hr hn hn' ho
  remainder h := h.elim
  consumeByte h := h.elim
  consume h := h.elim
  setFit h := h.elim
  enforce h := h.elim

/-- The innermost window ends before the cursor. -/
def Inverted (c : ContextOffset) : Prop := c.cur ≤ isizeMax ∧ ∃ t fs, c.frames = t :: fs ∧ t < c.cur

namespace ContextOffset

variable {p : Profile} {c c' : ContextOffset} {n : Nat} {buf : Bytes}

theorem setFit_inverts {u : Unit} (hi : OffInv buf c) (hn : (absCursor buf c).top.length < n) (hn' : n < usizeMod)
    (h : c.setFit p n = .ok u c') : Inverted c' := by
  have h1 := hi.cur_le_limit
  have h2 := hi.limit_le
  have h3 := hi.small
  have hc : c'.cur = c.cur ∧ ∃ t fs, c'.frames = t :: fs := by
    unfold setFit at h
    split at h
    · cases h
    · split at h
      · split at h <;> cases h
      · unfold pushFrame at h
        split at h
        · cases h; exact ⟨rfl, _, _, rfl⟩
        · cases h
  obtain ⟨hb, t, ht, hlt⟩ := setFit_open hi hn hn' h
  obtain ⟨e, t', fs, hf⟩ := hc
  refine ⟨by omega, t', fs, hf, ?_⟩
  rw [hf] at ht
  simp only [List.take_succ_cons, List.take_zero, List.mem_singleton] at ht
  rwa [← ht]

theorem Inverted.limit_lt (h : Inverted c) : c.limit < c.cur := by
  obtain ⟨_, t, fs, hf, hlt⟩ := h
  simpa [limit, hf] using hlt

theorem Inverted.advance (h : Inverted c) (hn : n ≤ 1) {ix : Nat} {adv : Bool} (ho : c.advance p n = some ((ix, adv), c')) :
    adv = false := by
  have hl := Inverted.limit_lt h
  have hs := h.1
  cases adv with
  | false => rfl
  | true =>
    obtain ⟨_, h2⟩ := advance_some ho
    obtain ⟨t, ht, hle, _⟩ := h2 rfl
    have hm := usizeMod_eq
    rcases uadd_le ht with rfl | ⟨hw, _, _⟩ <;> omega

theorem Inverted.setFit {u : Unit} (hi : Inverted c) (h : c.setFit p n = .ok u c') : Inverted c' := by
  obtain ⟨hs, t, fs, hf, hlt⟩ := hi
  unfold ContextOffset.setFit at h
  split at h
  · cases h
  · split at h
    · split at h <;> cases h
    · rename_i t' _ _
      unfold pushFrame at h
      split at h
      · rename_i hd
        cases h
        refine ⟨hs, t', t :: fs, by simp [hf], ?_⟩
        simp only [hf, List.head?_cons, detectError] at hd
        split at hd
        · cases hd
        · show t' < c.cur
          omega
      · cases h

theorem Inverted.enforce {u : Unit} (hi : Inverted c) (h : c.enforceTarget = .ok u c') : False := by
  obtain ⟨hs, t, fs, hf, hlt⟩ := hi
  unfold enforceTarget at h
  rw [hf] at h
  have hne : ¬ t = c.index := by simp only [index]; omega
  simp only [if_neg hne] at h
  split at h <;> cases h

theorem Inverted.remainder (hi : Inverted c) {n : Nat} (h : usub p c.limit c.cur = some n) : n ≠ 0 := by
  have hl := Inverted.limit_lt hi
  have hs := hi.1
  unfold usub at h
  split at h
  · omega
  · cases p with
    | debug => cases h
    | release =>
      have := Option.some.inj h
      have hm := usizeMod_eq
      by_cases hc : c.cur ≤ usizeMod + c.limit
      · rw [Nat.mod_eq_of_lt (by omega)] at this
        omega
      · omega

end ContextOffset

open ContextOffset in
theorem byteWraps (p : Profile) (buf : Bytes) : Wraps (ByteParser.ops p) (ByteR buf) (fun s => Inverted s.off) where
  openOver := by
    rintro v vs s n u s' ⟨pos, rfl, hi, ha⟩ hn hn' ho
    obtain ⟨o, h1, rfl⟩ := ByteParser.liftOff_ok ho
    exact setFit_inverts hi (by rw [ha]; exact hn) hn' h1
  remainder := by
    intro s n s' hi ho
    simp only [ByteParser.ops, ByteParser.remainder] at ho
    split at ho
    · rename_i h
      cases ho
      exact ⟨Inverted.remainder hi h, rfl⟩
    · cases ho
  consumeByte := by
    intro s b s' hi ho
    simp only [ByteParser.ops, ByteParser.consumeByte] at ho
    split at ho
    · cases ho
    · rename_i ix adv o h
      rw [Inverted.advance hi (Nat.le_refl _) h] at ho
      cases ho
  consume := by
    intro s n b s' hi ho
    obtain ⟨t, _, h1, h2, _⟩ := ByteParser.consume_some ho
    have := Inverted.limit_lt hi
    omega
  setFit := by
    intro s n u s' hi ho
    obtain ⟨o, h1, rfl⟩ := ByteParser.liftOff_ok ho
    exact Inverted.setFit hi h1
  enforce := by
    intro s u s' hi ho
    obtain ⟨o, h1, rfl⟩ := ByteParser.liftOff_ok ho
    exact Inverted.enforce hi h1

open ContextOffset in
theorem memoWraps (p : Profile) (buf : Bytes) : Wraps (MemoParser.ops p) (MemoR buf) (fun s => Inverted s.off) where
  openOver := by
    rintro v vs s n u s' ⟨pos, hm, ha⟩ hn hn' ho
    have hi := hm.off
    obtain rfl := hm.buf_eq
    obtain ⟨o, h1, rfl⟩ := MemoParser.liftOff_ok ho
    exact setFit_inverts hi (by rw [ha]; exact hn) hn' h1
  remainder := by
    intro s n s' hi ho
    simp only [MemoParser.ops, MemoParser.remainder] at ho
    split at ho
    · rename_i h
      cases ho
      exact ⟨Inverted.remainder hi h, rfl⟩
    · cases ho
  consumeByte := by
    intro s b s' hi ho
    simp only [MemoParser.ops, MemoParser.consumeByte] at ho
    split at ho
    · cases ho
    · rename_i ix adv o h
      rw [Inverted.advance hi (Nat.le_refl _) h] at ho
      simp only [Bool.false_eq_true, if_false, MemoParser.failDump] at ho
      split at ho <;> cases ho
  consume := by
    intro s n b s' hi ho
    obtain ⟨t, _, h1, h2, _⟩ := MemoParser.consume_some ho
    have := Inverted.limit_lt hi
    omega
  setFit := by
    intro s n u s' hi ho
    obtain ⟨o, h1, rfl⟩ := MemoParser.liftOff_ok ho
    exact Inverted.setFit hi h1
  enforce := by
    intro s u s' hi ho
    obtain ⟨o, h1, rfl⟩ := MemoParser.liftOff_ok ho
    exact Inverted.enforce hi h1

theorem Wraps.exists_ {σ ι : Type} {P : ParserOps σ} {R : ι → Bytes → List Bytes → σ → Prop}
    {Z : σ → Prop} (h : ∀ i, Wraps P (R i) Z) (i₀ : ι) : Wraps P (fun v vs s => ∃ i, R i v vs s) Z where
  openOver := fun ⟨i, r⟩ => (h i).openOver r
  remainder := (h i₀).remainder
  consumeByte := (h i₀).consumeByte
  consume := (h i₀).consume
  setFit := (h i₀).setFit
  enforce := (h i₀).enforce

theorem Backend.wraps (p : Profile) : (k : Backend) → ∃ Z, Wraps (k.ops p) k.Holds Z
  | .byte => ⟨_, Wraps.exists_ (fun buf => byteWraps p buf) []⟩
  | .memo => ⟨_, Wraps.exists_ (fun buf => memoWraps p buf) []⟩
  | .slice => ⟨_, sliceWraps⟩

/-! ### what is run there -/

/-- Where nothing can be read, `f` makes at most `c` calls, and if it returns (which it does not if `ne`) it has changed
nothing. -/
def Idle {σ α : Type} (Z : σ → Prop) (c : Nat) (ne : Bool) (f : PM (σ × Nat) α) : Prop :=
  ∀ s k, Z s → match f (s, k) with
    | .ok _ st => ne = false ∧ st.1 = s ∧ st.2 ≤ k + c
    | .err _ st => st.2 ≤ k + c
    | _ => True

namespace Idle

variable {σ α β : Type} {Z : σ → Prop} {c c' c1 c2 : Nat} {ne ne' : Bool}

theorem mono {f : PM (σ × Nat) α} (h : Idle Z c ne f) (hc : c ≤ c') (hn : ne' = true → ne = true) : Idle Z c' ne' f := by
  intro s k hz
  have := h s k hz
  revert this
  cases f (s, k) with
  | ok a st =>
    rintro ⟨h1, h2, h3⟩
    refine ⟨?_, h2, by omega⟩
    cases ne' with
    | false => rfl
    | true => rw [hn rfl] at h1; cases h1
  | err e st => intro h; dsimp only at h ⊢; omega
  | _ => exact fun _ => trivial

theorem pure (a : α) : Idle Z 0 false (Pure.pure a) := fun _ _ _ => ⟨rfl, rfl, Nat.le_refl _⟩
theorem throw (e : ParseError) : Idle Z 0 ne (M.throw e : PM (σ × Nat) α) := fun _ _ _ => Nat.le_refl _
theorem panic : Idle Z c ne (M.panic : PM (σ × Nat) α) := fun _ _ _ => trivial
theorem diverge : Idle Z c ne (fun _ => .diverge : PM (σ × Nat) α) := fun _ _ _ => trivial

theorem ite {q : Prop} [Decidable q] {f g : PM (σ × Nat) α} (hf : Idle Z c ne f) (hg : Idle Z c ne g) :
    Idle Z c ne (if q then f else g) := by
  split
  · exact hf
  · exact hg

/-- What follows code that does not return is of no importance. -/
theorem stop {f : PM (σ × Nat) α} {g : α → PM (σ × Nat) β} (hf : Idle Z c true f) : Idle Z c ne (f >>= g) := by
  intro s k hz
  have := hf s k hz
  rw [M.bind_run]
  revert this
  cases f (s, k) with
  | ok a st => exact fun h => nomatch h.1
  | err e st => exact fun h => h
  | _ => exact fun _ => trivial

theorem bind {f : PM (σ × Nat) α} {g : α → PM (σ × Nat) β} (hf : Idle Z c1 ne f) (hg : ∀ a, Idle Z c2 ne' (g a)) :
    Idle Z (c1 + c2) (ne || ne') (f >>= g) := by
  intro s k hz
  have hf := hf s k hz
  rw [M.bind_run]
  revert hf
  cases f (s, k) with
  | ok a st =>
    rintro ⟨rfl, h2, h3⟩
    have hg := hg a st.1 st.2 (h2 ▸ hz)
    rw [Out.bind_ok]
    generalize hgo : g a st = o
    have e : (st.1, st.2) = st := rfl
    rw [e, hgo] at hg
    cases o with
    | ok b st' =>
      obtain ⟨g1, g2, g3⟩ := hg
      exact ⟨by simp [g1], by rw [g2, h2], by omega⟩
    | err e st' => dsimp only at hg ⊢; omega
    | _ => trivial
  | err e st => intro h; dsimp only at h; show st.2 ≤ _; omega
  | _ => exact fun _ => trivial

theorem then_ {f : PM (σ × Nat) α} {g : α → PM (σ × Nat) β} (hf : Idle Z c ne f) (hg : ∀ a, Idle Z 0 false (g a)) :
    Idle Z c ne (f >>= g) := (bind hf hg).mono (Nat.le_refl _) (by simp)

/-! ### parser calls -/

variable {P : ParserOps σ} {R : Bytes → List Bytes → σ → Prop} (W : Wraps P R Z)
include W

omit W in
theorem of_metered {f : PM σ α} (h : ∀ s a s', Z s → f s ≠ .ok a s') : Idle Z 1 true (M.metered f) := by
  intro s k hz
  have := h s
  unfold M.metered
  revert this
  dsimp only
  cases f s with
  | ok a s' => exact fun h => (h a s' hz rfl).elim
  | err e s' => exact fun _ => Nat.le_refl _
  | _ => exact fun _ => trivial

theorem remainder {f : Nat → PM (σ × Nat) α} (hf : ∀ n, n ≠ 0 → Idle Z c ne (f n)) :
    Idle Z (c + 1) ne (P.metered.remainder >>= f) := by
  intro s k hz
  have h := @W.remainder s
  have e : P.metered.remainder = M.metered P.remainder := rfl
  rw [M.bind_run, e]
  unfold M.metered
  revert h
  dsimp only
  cases P.remainder s with
  | ok n s' =>
    intro h
    obtain ⟨h1, rfl⟩ := h hz rfl
    have := hf n h1 s' (k + 1) hz
    revert this
    rw [Out.bind_ok]
    cases f n (s', k + 1) with
    | ok a st => rintro ⟨h1, h2, h3⟩; exact ⟨h1, h2, by omega⟩
    | err e st => intro h; dsimp only at h ⊢; omega
    | _ => exact fun _ => trivial
  | err e s' => intro _; show k + 1 ≤ _; omega
  | _ => exact fun _ => trivial

theorem byte : Idle Z 1 true P.metered.consumeByte := of_metered fun _ _ _ hz => W.consumeByte hz
theorem take (n : Nat) : Idle Z 1 true (P.metered.consume n) := of_metered fun _ _ _ hz => W.consume hz
theorem takeFixed (n : Nat) : Idle Z 1 true (P.metered.takeFixed n) := stop (take W n)

theorem tag (w : TagWidth) (tags : List Nat) : Idle Z 1 true (ParserOps.takeTagword w (w.parse P.metered) tags) :=
  stop (stop (takeFixed W _))

theorem lenPref (S : LenPref) : Idle Z 1 true (S.parse P.metered) := by
  cases S
  · exact stop (stop (takeFixed W _))
  · exact stop (stop (takeFixed W _))
  · exact stop (stop (stop (takeFixed W _)))

theorem selfTerminating (f : Byte → Bool) : Idle Z 2 true (P.metered.takeSelfTerminating f) := by
  refine remainder (c := 1) W fun n _ => ite panic fun s k hz => ?_
  have h := @W.consumeByte s
  rw [iterM_unfold]
  have e : P.metered.consumeByte = M.metered P.consumeByte := rfl
  simp only [ParserOps.selfTermBody, e, M.metered]
  revert h
  cases P.consumeByte s with
  | ok b s' => exact fun h => (h hz rfl).elim
  | err e s' => exact fun _ => Nat.le_refl _
  | _ => exact fun _ => trivial

/-- A window opened there cannot be closed. -/
theorem window (n : Nat) {f : PM (σ × Nat) α} (hf : Idle Z c ne f) :
    Idle Z (c + 2) true (do P.metered.setFit n; let a ← f; P.metered.enforceTarget; Pure.pure a) := by
  intro s k hz
  have h := @W.setFit s n
  have e : P.metered.setFit n = M.metered (P.setFit n) := rfl
  rw [M.bind_run, e]
  unfold M.metered
  revert h
  dsimp only
  cases P.setFit n s with
  | ok u s' =>
    intro h
    have hz' := h hz rfl
    have := ((hf.bind fun a => (of_metered (f := P.enforceTarget) fun _ _ _ hz => W.enforce hz).stop (ne := true)
      (g := fun _ => Pure.pure a))) s' (k + 1) hz'
    rw [Bool.or_true] at this
    revert this
    rw [Out.bind_ok]
    show (match (f >>= fun a => P.metered.enforceTarget >>= fun _ => Pure.pure a) (s', k + 1) with
      | .ok _ st => true = false ∧ st.1 = s' ∧ st.2 ≤ k + 1 + (c + 1)
      | .err _ st => st.2 ≤ k + 1 + (c + 1)
      | _ => True) → _
    cases (f >>= fun a => P.metered.enforceTarget >>= fun _ => Pure.pure a) (s', k + 1) with
    | ok a st => exact fun h => nomatch h.1
    | err e st => intro h; dsimp only at h ⊢; omega
    | _ => exact fun _ => trivial
  | err e s' => intro _; show k + 1 ≤ _; omega
  | _ => exact fun _ => trivial

/-! ### loops -/

/-- An element that can be read there can be read again and again. -/
theorem seq {f : PM (σ × Nat) α} {f₀ : PM σ α} (he : Erases f f₀) (hf : Idle Z c ne f) :
    Idle Z (c + 1) true (iterM (Codec.seqBody P.metered f) []) := by
  intro s k hz
  have h1 : ∀ (acc : List α) k', Codec.seqBody P.metered f acc (s, k') =
      match P.remainder s with
      | .ok n s' => (f (s, k' + 1)).bind fun a st => .ok (.inl (acc ++ [a])) st
      | .err e s' => .err e (s', k' + 1)
      | .panic => .panic
      | .ub => .ub
      | .diverge => .diverge := by
    intro acc k'
    have h := @W.remainder s
    simp only [Codec.seqBody, M.bind_run]
    show (M.metered P.remainder (s, k')).bind _ = _
    unfold M.metered
    revert h
    dsimp only
    cases P.remainder s with
    | ok n s' =>
      intro h
      obtain ⟨hn, rfl⟩ := h hz rfl
      simp only [Out.bind_ok, ne_eq, hn, not_false_eq_true, if_true, M.bind_run]
      rfl
    | _ => exact fun _ => rfl
  cases h0 : f₀ s with
  | ok a s1 =>
    cases hr : P.remainder s with
    | ok n s' =>
      have hd : iterM (Codec.seqBody P.metered f) [] (s, k) = .diverge := by
        refine iterM_diverge_of_inv (fun _ (st : σ × Nat) => st.1 = s) ?_ rfl
        rintro acc ⟨s2, k2⟩ rfl
        have e := he s2 (k2 + 1)
        have hi := hf s2 (k2 + 1) hz
        rw [h1 acc k2, hr]
        rw [h0] at e
        revert e hi
        cases f (s2, k2 + 1) with
        | ok b st => rintro _ ⟨_, h, _⟩; exact ⟨_, _, rfl, h⟩
        | _ => exact fun e => nomatch e
      rw [hd]; trivial
    | err e s' =>
      rw [iterM_unfold, h1 [] k, hr]
      show k + 1 ≤ _
      omega
    | panic => rw [iterM_unfold, h1 [] k, hr]; trivial
    | ub => rw [iterM_unfold, h1 [] k, hr]; trivial
    | diverge => rw [iterM_unfold, h1 [] k, hr]; trivial
  | _ =>
    have e := he s (k + 1)
    have hi := hf s (k + 1) hz
    rw [iterM_unfold, h1 [] k]
    rw [h0] at e
    cases hr : P.remainder s with
    | ok n s' =>
      revert e hi
      cases f (s, k + 1) with
      | ok b st => exact fun e => nomatch e
      | err e' st => intro _ h; dsimp only at h; show st.2 ≤ _; omega
      | _ => exact fun _ _ => trivial
    | err e s' =>
      show k + 1 ≤ _
      omega
    | _ => trivial

omit W in
/-- Rounds in which elements are read. -/
theorem rounds {n : Nat} {body : List α → PM (σ × Nat) (List α ⊕ List α)} (hne : ne = true → 0 < n)
    (hb : ∀ acc s k, Z s → match body acc (s, k) with
      | .ok (.inl acc') st => ne = false ∧ st.1 = s ∧ st.2 ≤ k + (c + 1) ∧ acc'.length = acc.length + 1 ∧ acc.length < n
      | .ok (.inr _) st => st.1 = s ∧ st.2 ≤ k + 1 ∧ n ≤ acc.length
      | .err _ st => st.2 ≤ k + (c + 1)
      | _ => True) :
    Idle Z (if ne then c + 1 else (n + 1) * (c + 1)) ne (iterM body []) := by
  suffices H : ∀ (m : Nat) (acc : List α) s k, Z s → n ≤ acc.length + m →
      match iterM body acc (s, k) with
      | .ok _ st => (acc = [] → ne = false) ∧ st.1 = s ∧ st.2 ≤ k + (m + 1) * (c + 1)
      | .err _ st => st.2 ≤ k + (if ne then c + 1 else (m + 1) * (c + 1))
      | _ => True by
    intro s k hz
    have := H n [] s k hz (by simp)
    revert this
    cases iterM body [] (s, k) with
    | ok a st =>
      rintro ⟨h1, h2, h3⟩
      refine ⟨h1 rfl, h2, ?_⟩
      rw [h1 rfl]
      exact h3
    | err e st => exact fun h => h
    | _ => exact fun _ => trivial
  intro m
  induction m with
  | zero =>
    intro acc s k hz hl
    have h := hb acc s k hz
    rw [iterM_unfold]
    revert h
    cases body acc (s, k) with
    | ok r st =>
      cases r with
      | inl acc' => rintro ⟨_, _, _, _, h⟩; omega
      | inr xs =>
        rintro ⟨h1, h2, h3⟩
        refine ⟨fun ha => ?_, h1, by show st.2 ≤ _; omega⟩
        cases hn : ne with
        | false => rfl
        | true =>
          have := hne hn
          rw [ha] at h3
          simp at h3
          omega
    | err e st =>
      intro h
      dsimp only at h
      show st.2 ≤ _
      split <;> omega
    | _ => exact fun _ => trivial
  | succ m ih =>
    intro acc s k hz hl
    have h := hb acc s k hz
    have hm : (m + 1 + 1) * (c + 1) = (m + 1) * (c + 1) + (c + 1) := Nat.succ_mul _ _
    rw [iterM_unfold]
    revert h
    cases body acc (s, k) with
    | ok r st =>
      cases r with
      | inl acc' =>
        rintro ⟨h1, h2, h3, h4, h5⟩
        have := ih acc' st.1 st.2 (h2 ▸ hz) (by omega)
        rw [Out.bind_ok]
        revert this
        have e : (st.1, st.2) = st := rfl
        rw [e]
        dsimp only
        cases iterM body acc' st with
        | ok xs st' =>
          rintro ⟨_, g2, g3⟩
          exact ⟨fun _ => h1, by rw [g2, h2], by omega⟩
        | err e st' =>
          intro g
          rw [h1] at g ⊢
          simp only [Bool.false_eq_true, if_false] at g ⊢
          omega
        | _ => exact fun _ => trivial
      | inr xs =>
        rintro ⟨h1, h2, h3⟩
        refine ⟨fun ha => ?_, h1, by show st.2 ≤ _; omega⟩
        cases hn : ne with
        | false => rfl
        | true =>
          have := hne hn
          rw [ha] at h3
          simp at h3
          omega
    | err e st =>
      intro h
      dsimp only at h
      show st.2 ≤ _
      split <;> omega
    | _ => exact fun _ => trivial

end Idle
end Verif
