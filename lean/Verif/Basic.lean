/-
Outcome type, state monad, machine arithmetic and unbounded loops.
Everything here is the *meta-language* in which the Rust code is transcribed.
-/
namespace Verif

abbrev Byte := UInt8
abbrev Bytes := List UInt8

/-- Result of running a piece of Rust code on a mutable state of type `σ`.
* `ok a s`  : returned `a` (an `Ok(a)` for fallible functions) leaving state `s`;
* `err e s` : returned `Err(e)`; the state `s` survives because callers hold it behind `&mut`;
* `panic`   : unwinding (assertion, `expect`, overflow check);
* `ub`      : an unchecked memory access outside of its bounds was executed;
* `diverge` : the call never returns. -/
inductive Out (σ ε α : Type) where
  | ok (a : α) (s : σ)
  | err (e : ε) (s : σ)
  | panic
  | ub
  | diverge
  deriving Repr

namespace Out

variable {σ ε α β : Type}

/-- Sequencing: continue only on `ok` (the `?` operator). -/
def bind (x : Out σ ε α) (f : α → σ → Out σ ε β) : Out σ ε β :=
  match x with
  | .ok a s => f a s
  | .err e s => .err e s
  | .panic => .panic
  | .ub => .ub
  | .diverge => .diverge

@[simp] theorem bind_ok (a : α) (s : σ) (f : α → σ → Out σ ε β) : bind (.ok a s) f = f a s := rfl
@[simp] theorem bind_err (e : ε) (s : σ) (f : α → σ → Out σ ε β) : bind (.err e s) f = .err e s := rfl
@[simp] theorem bind_panic (f : α → σ → Out σ ε β) : bind .panic f = .panic := rfl
@[simp] theorem bind_ub (f : α → σ → Out σ ε β) : bind .ub f = .ub := rfl
@[simp] theorem bind_diverge (f : α → σ → Out σ ε β) : bind .diverge f = .diverge := rfl

end Out

/-- Code that runs on a parser state `σ`, may fail with `ε` and returns `α`. -/
def M (σ ε α : Type) : Type := σ → Out σ ε α

namespace M

variable {σ ε α β γ : Type}

protected def pure (a : α) : M σ ε α := fun s => .ok a s
protected def bind (x : M σ ε α) (f : α → M σ ε β) : M σ ε β := fun s => (x s).bind fun a s' => f a s'

instance : Monad (M σ ε) where
  pure := M.pure
  bind := M.bind

/-- `Err(e)` -/
def throw (e : ε) : M σ ε α := fun s => .err e s
/-- `panic!()` -/
def panic : M σ ε α := fun _ => .panic

@[simp] theorem pure_run (a : α) (s : σ) : (pure a : M σ ε α) s = .ok a s := rfl
@[simp] theorem bind_run (x : M σ ε α) (f : α → M σ ε β) (s : σ) :
    (x >>= f) s = (x s).bind fun a s' => f a s' := rfl
@[simp] theorem map_run (x : M σ ε α) (f : α → β) (s : σ) :
    (f <$> x) s = (x s).bind fun a s' => .ok (f a) s' := rfl
@[simp] theorem throw_run (e : ε) (s : σ) : (throw e : M σ ε α) s = .err e s := rfl
@[simp] theorem panic_run (s : σ) : (panic : M σ ε α) s = .panic := rfl

end M

/-! ### `usize` arithmetic -/

/-- Build profile: `debug` has overflow checks and `debug_assert!`, `release` has neither. -/
inductive Profile where
  | debug
  | release
  deriving DecidableEq, Repr

/-- Width of `usize` on the target the crate is built for.  Nothing is known of it but that it is one of the two widths
(every theorem holds for both). -/
opaque usizeBits : { n : Nat // n = 32 ∨ n = 64 } := ⟨64, .inr rfl⟩

/-- Largest allocation a Rust program can hold (`isize::MAX`). -/
def isizeMax : Nat := 2 ^ (usizeBits.1 - 1) - 1

/-- `usize::MAX + 1`. -/
def usizeMod : Nat := 2 ^ usizeBits.1

/-- `size_of::<usize>()`. -/
def usizeBytes : Nat := usizeBits.1 / 8

theorem isizeMax_cases : isizeMax = 2 ^ 31 - 1 ∨ isizeMax = 2 ^ 63 - 1 := by
  unfold isizeMax
  rcases usizeBits.2 with h | h <;> rw [h]
  · exact .inl rfl
  · exact .inr rfl

theorem usizeMod_eq : usizeMod = 2 * isizeMax + 2 := by
  unfold isizeMax usizeMod
  rcases usizeBits.2 with h | h <;> rw [h]

theorem usizeMod_bytes : usizeMod = 256 ^ usizeBytes := by
  unfold usizeMod usizeBytes
  rcases usizeBits.2 with h | h <;> rw [h]

theorem isizeMax_ge : 2 ^ 31 - 1 ≤ isizeMax := by
  rcases isizeMax_cases with h | h <;> rw [h] <;> decide

theorem usizeMod_ge : 2 ^ 32 ≤ usizeMod := by
  have := isizeMax_ge
  rw [usizeMod_eq]
  omega

/-! Numbers below the bounds of both widths are compared without knowing the width. -/

instance decLtUsizeMod (n : Nat) : Decidable (n < usizeMod) :=
  if h : n < 2 ^ 32 then .isTrue (Nat.lt_of_lt_of_le h usizeMod_ge) else Nat.decLt n usizeMod

instance decUsizeModLe (n : Nat) : Decidable (usizeMod ≤ n) :=
  if h : n < 2 ^ 32 then .isFalse (Nat.not_le.mpr (Nat.lt_of_lt_of_le h usizeMod_ge)) else Nat.decLe usizeMod n

instance decLeIsizeMax (n : Nat) : Decidable (n ≤ isizeMax) :=
  if h : n ≤ 2 ^ 31 - 1 then .isTrue (Nat.le_trans h isizeMax_ge) else Nat.decLe n isizeMax

instance decIsizeMaxLt (n : Nat) : Decidable (isizeMax < n) :=
  if h : n ≤ 2 ^ 31 - 1 then .isFalse (Nat.not_lt.mpr (Nat.le_trans h isizeMax_ge)) else Nat.decLt isizeMax n

instance decLtIsizeMax (n : Nat) : Decidable (n < isizeMax) :=
  if h : n < 2 ^ 31 - 1 then .isTrue (Nat.lt_of_lt_of_le h isizeMax_ge) else Nat.decLt n isizeMax

instance decLeIsizeMaxSucc (n : Nat) : Decidable (n ≤ isizeMax + 1) :=
  if h : n ≤ 2 ^ 31 then .isTrue (Nat.le_trans h (Nat.succ_le_succ isizeMax_ge)) else Nat.decLe n (isizeMax + 1)

/-- `a + b` on `usize`; `none` is the overflow panic of debug builds. -/
def uadd (p : Profile) (a b : Nat) : Option Nat :=
  if a + b < usizeMod then some (a + b)
  else match p with
    | .debug => none
    | .release => some ((a + b) % usizeMod)

/-- `a - b` on `usize`; `none` is the overflow panic of debug builds. -/
def usub (p : Profile) (a b : Nat) : Option Nat :=
  if b ≤ a then some (a - b)
  else match p with
    | .debug => none
    | .release => some ((a + usizeMod - b) % usizeMod)

theorem uadd_of_lt {p : Profile} {a b : Nat} (h : a + b < usizeMod) : uadd p a b = some (a + b) := by
  simp [uadd, h]

theorem usub_of_le {p : Profile} {a b : Nat} (h : b ≤ a) : usub p a b = some (a - b) := by
  simp [usub, h]

/-! ### Unbounded loops -/

section Loop

variable {σ ε α β : Type}

/-- `n` rounds of `loop { match body(b)? { inl b' => b = b', inr a => break a } }`;
`none` means that more than `n` rounds are needed. -/
def iterN (body : β → M σ ε (β ⊕ α)) : Nat → β → σ → Option (Out σ ε α)
  | 0, _, _ => none
  | n + 1, b, s =>
    match body b s with
    | .ok (.inl b') s' => iterN body n b' s'
    | .ok (.inr a) s' => some (.ok a s')
    | .err e s' => some (.err e s')
    | .panic => some .panic
    | .ub => some .ub
    | .diverge => some .diverge

open Classical in
/-- The loop itself: the result reached after finitely many rounds, or `diverge` if there is none. -/
noncomputable def iterM (body : β → M σ ε (β ⊕ α)) (b : β) : M σ ε α := fun s =>
  if h : ∃ n o, iterN body n b s = some o then h.choose_spec.choose else .diverge

theorem iterN_mono {body : β → M σ ε (β ⊕ α)} {n : Nat} {b : β} {s : σ} {o : Out σ ε α}
    (h : iterN body n b s = some o) (k : Nat) : iterN body (n + k) b s = some o := by
  induction n generalizing b s with
  | zero => simp [iterN] at h
  | succ n ih =>
    rw [Nat.succ_add]
    simp only [iterN] at h ⊢
    split at h <;> simp_all

theorem iterN_unique {body : β → M σ ε (β ⊕ α)} {n m : Nat} {b : β} {s : σ} {o o' : Out σ ε α}
    (h : iterN body n b s = some o) (h' : iterN body m b s = some o') : o = o' := by
  have h1 := iterN_mono h m
  have h2 := iterN_mono h' n
  rw [Nat.add_comm] at h2
  rw [h1] at h2
  exact Option.some.inj h2

theorem iterM_of_iterN {body : β → M σ ε (β ⊕ α)} {n : Nat} {b : β} {s : σ} {o : Out σ ε α}
    (h : iterN body n b s = some o) : iterM body b s = o := by
  have hex : ∃ n o, iterN body n b s = some o := ⟨n, o, h⟩
  unfold iterM
  rw [dif_pos hex]
  exact iterN_unique hex.choose_spec.choose_spec h

theorem iterM_eq_diverge {body : β → M σ ε (β ⊕ α)} {b : β} {s : σ}
    (h : ∀ n, iterN body n b s = none) : iterM body b s = .diverge := by
  have hex : ¬ ∃ n o, iterN body n b s = some o := by
    rintro ⟨n, o, ho⟩
    rw [h n] at ho
    cases ho
  unfold iterM
  rw [dif_neg hex]

/-- One-step unfolding of the loop. -/
theorem iterM_unfold (body : β → M σ ε (β ⊕ α)) (b : β) (s : σ) :
    iterM body b s =
      (body b s).bind fun r s' => match r with
        | .inl b' => iterM body b' s'
        | .inr a => .ok a s' := by
  cases hb : body b s with
  | ok r s' =>
    cases r with
    | inl b' =>
      simp only [Out.bind_ok]
      by_cases hex : ∃ n o, iterN body n b' s' = some o
      · obtain ⟨n, o, ho⟩ := hex
        rw [iterM_of_iterN ho]
        apply iterM_of_iterN (n := n + 1)
        simp [iterN, hb, ho]
      · have hn : ∀ n, iterN body n b' s' = none := by
          intro n
          cases h : iterN body n b' s' with
          | none => rfl
          | some o => exact absurd ⟨n, o, h⟩ hex
        rw [iterM_eq_diverge hn]
        apply iterM_eq_diverge
        intro n
        cases n with
        | zero => rfl
        | succ n => simp [iterN, hb, hn]
    | inr a => exact iterM_of_iterN (n := 1) (by simp [iterN, hb])
  | err e s' => exact iterM_of_iterN (n := 1) (by simp [iterN, hb])
  | panic => exact iterM_of_iterN (n := 1) (by simp [iterN, hb])
  | ub => exact iterM_of_iterN (n := 1) (by simp [iterN, hb])
  | diverge => exact iterM_of_iterN (n := 1) (by simp [iterN, hb])

/-- A loop whose body always continues from states satisfying an invariant never returns. -/
theorem iterM_diverge_of_inv {body : β → M σ ε (β ⊕ α)} (P : β → σ → Prop)
    (hP : ∀ b s, P b s → ∃ b' s', body b s = .ok (.inl b') s' ∧ P b' s')
    {b : β} {s : σ} (h : P b s) : iterM body b s = .diverge := by
  apply iterM_eq_diverge
  intro n
  induction n generalizing b s with
  | zero => rfl
  | succ n ih =>
    obtain ⟨b', s', hb, h'⟩ := hP b s h
    simp only [iterN, hb]
    exact ih h'

/-- What a loop returns satisfies whatever holds of every value a round may return. -/
theorem iterM_ok_of_inv {body : β → M σ ε (β ⊕ α)} (P : β → Prop) (Q : α → Prop)
    (hP : ∀ b s r s', P b → body b s = .ok r s' → match r with
      | .inl b' => P b'
      | .inr a => Q a)
    {b : β} {s s' : σ} {a : α} (h : P b) (ho : iterM body b s = .ok a s') : Q a := by
  by_cases hex : ∃ n o, iterN body n b s = some o
  · obtain ⟨n, o, hn⟩ := hex
    rw [iterM_of_iterN hn] at ho
    subst ho
    induction n generalizing b s with
    | zero => simp [iterN] at hn
    | succ n ih =>
      simp only [iterN] at hn
      split at hn
      · rename_i b' s1 hb
        exact ih (hP _ _ _ _ h hb) hn
      · rename_i a' s1 hb
        have := hP _ _ _ _ h hb
        cases hn
        exact this
      all_goals cases hn
  · have hn : ∀ n, iterN body n b s = none := by
      intro n
      cases h : iterN body n b s with
      | none => rfl
      | some o => exact absurd ⟨n, o, h⟩ hex
    rw [iterM_eq_diverge hn] at ho
    cases ho

end Loop

end Verif
