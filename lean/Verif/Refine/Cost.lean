import Verif.Refine.Meter
/-
How many parser calls decoders make, compared with how much they read.
-/
namespace Verif

section
variable {σ α β : Type}

/-- The outcome of a run on `v` begun with `k` calls counted: if nothing was read, at most `A` calls were made; if `c`
bytes were read, at most `X - Y + B * c`; if the run failed, at most `A`, or at most `X - Y` and `B` per readable byte. -/
def Within (A X Y B : Nat) (R : Bytes → List Bytes → σ → Prop) (v : Bytes) (vs : List Bytes) (k : Nat) :
    Out (σ × Nat) ParseError α → Prop
  | .ok _ s => ∃ v', R v' vs s.1 ∧ ((v'.length = v.length ∧ s.2 ≤ k + A) ∨
      (v'.length < v.length ∧ s.2 + Y + B * v'.length ≤ k + X + B * v.length))
  | .err _ s => s.2 ≤ k + A ∨ (0 < v.length ∧ s.2 + Y ≤ k + X + B * v.length)
  | _ => True

/-- Every run of `f` is as `Within` says. -/
def Cost (R : Bytes → List Bytes → σ → Prop) (B A X Y : Nat) (f : PM (σ × Nat) α) : Prop :=
  ∀ v vs s k, R v vs s → Within A X Y B R v vs k (f (s, k))

/-- `f` returns only after reading something. -/
def Reads (R : Bytes → List Bytes → σ → Prop) (f : PM (σ × Nat) α) : Prop :=
  ∀ v vs s k a st v', R v vs s → f (s, k) = .ok a st → R v' vs st.1 → v'.length < v.length

theorem mul_le (B : Nat) {a b : Nat} (h : a ≤ b) : B * a ≤ B * b := Nat.mul_le_mul_left B h
theorem mul_lt (B : Nat) {a b : Nat} (h : a < b) : B * a + B ≤ B * b := by
  rw [← Nat.mul_succ]; exact Nat.mul_le_mul_left B h

variable {R : Bytes → List Bytes → σ → Prop} {B A X Y A' X' Y' A1 X1 Y1 A2 X2 Y2 : Nat}

theorem Within.mono {v : Bytes} {vs : List Bytes} {k : Nat} {o : Out (σ × Nat) ParseError α} (h : Within A X Y B R v vs k o)
    (hA : A ≤ A') (hX : X + Y' ≤ X' + Y) : Within A' X' Y' B R v vs k o := by
  cases o with
  | ok a s =>
    obtain ⟨v', h1, h2⟩ := h
    exact ⟨v', h1, h2.imp (fun ⟨h3, h4⟩ => ⟨h3, by omega⟩) fun ⟨h3, h4⟩ => ⟨h3, by omega⟩⟩
  | err e s => exact h.imp (fun h => by omega) fun ⟨h3, h4⟩ => ⟨h3, by omega⟩
  | _ => trivial

theorem Cost.mono {f : PM (σ × Nat) α} (h : Cost R B A X Y f) (hA : A ≤ A') (hX : X + Y' ≤ X' + Y) : Cost R B A' X' Y' f :=
  fun v vs s k hr => (h v vs s k hr).mono hA hX

theorem Cost.pure (a : α) : Cost R B 0 X Y (Pure.pure a) := fun v _ _ _ h => ⟨v, h, .inl ⟨rfl, Nat.le_refl _⟩⟩
theorem Cost.throw (e : ParseError) : Cost R B 0 X Y (M.throw e : PM (σ × Nat) α) := fun _ _ _ _ _ => .inl (Nat.le_refl _)
theorem Cost.panic : Cost R B 0 X Y (M.panic : PM (σ × Nat) α) := fun _ _ _ _ _ => trivial
theorem Cost.diverge : Cost R B 0 X Y (fun _ => .diverge : PM (σ × Nat) α) := fun _ _ _ _ _ => trivial

theorem Cost.ite {c : Prop} [Decidable c] {f g : PM (σ × Nat) α} (hf : Cost R B A X Y f) (hg : Cost R B A X Y g) :
    Cost R B A X Y (if c then f else g) := by
  split
  · exact hf
  · exact hg

theorem Cost.dite {c : Prop} [Decidable c] {f : c → PM (σ × Nat) α} {g : ¬ c → PM (σ × Nat) α} (hf : ∀ h, Cost R B A X Y (f h))
    (hg : ∀ h, Cost R B A X Y (g h)) : Cost R B A X Y (if h : c then f h else g h) := by
  split
  · exact hf _
  · exact hg _

theorem Cost.ofExcept {ε : Type} (r : Except ε α) (f : ε → ParseError) : Cost R B 0 X Y (M.ofExcept r f) := by
  cases r
  · exact .throw _
  · exact .pure _

theorem Cost.ofOption (r : Option α) : Cost R B 0 X Y (M.ofOption r) := by
  cases r
  · exact .panic
  · exact .pure _

/-- One thing after the other. -/
theorem Cost.bind {f : PM (σ × Nat) α} {g : α → PM (σ × Nat) β} (hf : Cost R B A1 X1 Y1 f) (hg : ∀ a, Cost R B A2 X2 Y2 (g a))
    (h1 : A1 + A2 ≤ A) (h2 : A1 + X2 + Y ≤ X + Y2) (h3 : X1 + A2 + Y ≤ X + Y1) (h4 : X1 + X2 + Y ≤ X + Y1 + Y2) :
    Cost R B A X Y (f >>= g) := by
  intro v vs s k hr
  have hf := hf v vs s k hr
  rw [M.bind_run]
  generalize f (s, k) = o at hf
  cases o with
  | ok a s1 =>
    obtain ⟨v1, hr1, hc⟩ := hf
    have hg := hg a v1 vs s1.1 s1.2 hr1
    rw [Out.bind_ok]
    generalize hgo : g a s1 = o
    have e : (s1.1, s1.2) = s1 := rfl
    rw [e, hgo] at hg
    cases o with
    | ok b s2 =>
      obtain ⟨v2, hr2, hc2⟩ := hg
      refine ⟨v2, hr2, ?_⟩
      rcases hc with ⟨l1, c1⟩ | ⟨l1, c1⟩ <;> rcases hc2 with ⟨l2, c2⟩ | ⟨l2, c2⟩
      · exact .inl ⟨by omega, by omega⟩
      · rw [l1] at l2 c2
        exact .inr ⟨by omega, by omega⟩
      · rw [l2]
        exact .inr ⟨by omega, by omega⟩
      · exact .inr ⟨by omega, by omega⟩
    | err e s2 =>
      rcases hc with ⟨l1, c1⟩ | ⟨l1, c1⟩ <;> rcases hg with c2 | ⟨l2, c2⟩
      · exact .inl (by omega)
      · rw [l1] at l2 c2
        exact .inr ⟨by omega, by omega⟩
      · exact .inr ⟨by omega, by omega⟩
      · exact .inr ⟨by omega, by omega⟩
    | _ => trivial
  | err e s1 =>
    rcases hf with h | ⟨h, h'⟩
    · exact .inl (by omega)
    · exact .inr ⟨h, by omega⟩
  | _ => trivial

/-- One thing after the other, if the first reads something. -/
theorem Cost.bind_reads {f : PM (σ × Nat) α} {g : α → PM (σ × Nat) β} (hf : Cost R B A1 X1 Y1 f) (hr : Reads R f)
    (hg : ∀ a, (∃ s st, f s = .ok a st) → Cost R B A2 X2 Y2 (g a)) (h1 : A1 ≤ A) (h3 : X1 + A2 + Y ≤ X + Y1) (h4 : X1 + X2 + Y ≤ X + Y1 + Y2) :
    Cost R B A X Y (f >>= g) := by
  intro v vs s k hs
  have hf := hf v vs s k hs
  have hr := fun a st v' => hr v vs s k a st v' hs
  rw [M.bind_run]
  generalize ho : f (s, k) = o at hf hr
  cases o with
  | ok a s1 =>
    obtain ⟨v1, hr1, hc⟩ := hf
    have hlt := hr a s1 v1 rfl hr1
    have hc : s1.2 + Y1 + B * v1.length ≤ k + X1 + B * v.length := by
      rcases hc with ⟨l, _⟩ | ⟨_, c⟩
      · omega
      · exact c
    have hg := hg a ⟨_, _, ho⟩ v1 vs s1.1 s1.2 hr1
    rw [Out.bind_ok]
    generalize hgo : g a s1 = o
    have e : (s1.1, s1.2) = s1 := rfl
    rw [e, hgo] at hg
    cases o with
    | ok b s2 =>
      obtain ⟨v2, hr2, hc2⟩ := hg
      refine ⟨v2, hr2, ?_⟩
      rcases hc2 with ⟨l2, c2⟩ | ⟨l2, c2⟩
      · rw [l2]
        exact .inr ⟨by omega, by omega⟩
      · exact .inr ⟨by omega, by omega⟩
    | err e s2 =>
      rcases hg with c2 | ⟨l2, c2⟩
      · exact .inr ⟨by omega, by omega⟩
      · exact .inr ⟨by omega, by omega⟩
    | _ => trivial
  | err e s1 =>
    rcases hf with h | ⟨h, h'⟩
    · exact .inl (by omega)
    · exact .inr ⟨h, by omega⟩
  | _ => trivial

/-- What follows makes no calls. -/
theorem Cost.then {f : PM (σ × Nat) α} {g : α → PM (σ × Nat) β} (hf : Cost R B A X Y f) (hg : ∀ a, Cost R B 0 0 (A + Y) (g a)) :
    Cost R B A X Y (f >>= g) := .bind hf hg (Nat.le_refl _) (by omega) (by omega) (by omega)

theorem Cost.map {f : PM (σ × Nat) α} (g : α → β) (h : Cost R B A X Y f) : Cost R B A X Y (g <$> f) := .then h fun _ => .pure _

/-! ### parser calls -/

variable {P : ParserOps σ} {pan : Prop} (L : Lawful P pan R)
include L

/-- Code that begins by asking how much there is to read. -/
theorem Cost.remainder {f : Nat → PM (σ × Nat) α}
    (h : ∀ v vs s k, R v vs s → Within A X Y B R v vs k (f v.length (s, k))) :
    Cost R B (A + 1) (X + 1) Y (P.metered.remainder >>= f) := by
  intro v vs s k hr
  obtain ⟨s', h1, h2⟩ := L.remainder hr
  have h3 := h v vs s' (k + 1) h2
  have e : P.metered.remainder (s, k) = .ok v.length (s', k + 1) := M.metered_ok k h1
  rw [M.bind_run, e, Out.bind_ok]
  revert h3
  cases f v.length (s', k + 1) with
  | ok a s =>
    rintro ⟨v', h1, h2⟩
    exact ⟨v', h1, h2.imp (fun ⟨h3, h4⟩ => ⟨h3, by omega⟩) fun ⟨h3, h4⟩ => ⟨h3, by omega⟩⟩
  | err e s => exact fun h => h.imp (fun h => by omega) fun ⟨h3, h4⟩ => ⟨h3, by omega⟩
  | _ => exact fun _ => trivial

theorem Cost.consumeByte (hB : Y ≤ B) : Cost R B 1 1 Y P.metered.consumeByte := by
  intro v vs s k hr
  cases v with
  | nil =>
    obtain ⟨e, s', h1, _, _⟩ := L.consumeByte_err hr
    have e : P.metered.consumeByte (s, k) = .err e (s', k + 1) := M.metered_err k h1
    rw [e]
    exact .inl (Nat.le_refl _)
  | cons b v =>
    obtain ⟨s', h1, h2⟩ := L.consumeByte_ok hr
    have e : P.metered.consumeByte (s, k) = .ok b (s', k + 1) := M.metered_ok k h1
    rw [e]
    refine ⟨v, h2, .inr ⟨by simp, ?_⟩⟩
    have := mul_lt B (show v.length < (b :: v).length by simp)
    show k + 1 + Y + _ ≤ _
    omega

theorem Cost.consume_le (hB : Y ≤ B) {n : Nat} {v : Bytes} {vs : List Bytes} {s : σ} {k : Nat} (hr : R v vs s) (hn : n ≤ v.length) :
    Within 1 1 Y B R v vs k (P.metered.consume n (s, k)) := by
  obtain ⟨s', h1, h2⟩ := L.consume_ok n hr hn
  have e : P.metered.consume n (s, k) = .ok (v.take n) (s', k + 1) := M.metered_ok k h1
  rw [e]
  refine ⟨v.drop n, h2, ?_⟩
  by_cases h0 : n = 0
  · exact .inl ⟨by simp [h0], Nat.le_refl _⟩
  · have hl : (v.drop n).length < v.length := by rw [List.length_drop]; omega
    have := mul_lt B hl
    refine .inr ⟨hl, ?_⟩
    show k + 1 + Y + _ ≤ _
    omega

theorem Cost.consume (hB : Y ≤ B) {n : Nat} (hn : n ≤ isizeMax + 1) : Cost R B 1 1 Y (P.metered.consume n) := by
  intro v vs s k hr
  by_cases hl : n ≤ v.length
  · exact consume_le L hB hr hl
  · obtain ⟨e, s', h1, _, _⟩ := L.consume_err n hr (by omega) hn
    have e : P.metered.consume n (s, k) = .err e (s', k + 1) := M.metered_err k h1
    rw [e]
    exact .inl (Nat.le_refl _)

theorem Cost.takeFixed (hB : Y ≤ B) {n : Nat} (hn : n ≤ isizeMax + 1) : Cost R B 1 1 Y (P.metered.takeFixed n) :=
  .then (.consume L hB hn) fun _ => .ite (.pure _) (.throw _)

theorem Cost.window {n : Nat} (hn : n ≤ isizeMax + 1) {f : PM (σ × Nat) α} (h : Cost R B A X Y f) :
    Cost R B (A + 2) (X + 2) Y (do P.metered.setFit n; let a ← f; P.metered.enforceTarget; Pure.pure a) := by
  intro v vs s k hr
  simp only [M.bind_run]
  by_cases hl : n ≤ v.length
  · obtain ⟨s1, h1, h2⟩ := L.setFit_ok n hr hl
    have e : P.metered.setFit n (s, k) = .ok () (s1, k + 1) := M.metered_ok k h1
    rw [e, Out.bind_ok]
    have h3 := h _ _ s1 (k + 1) h2
    have ht : (v.take n).length ≤ v.length := by rw [List.length_take]; omega
    have hm := mul_le B ht
    revert h3
    cases f (s1, k + 1) with
    | ok a s2 =>
      rintro ⟨v2, hr2, hc⟩
      rw [Out.bind_ok]
      cases v2 with
      | nil =>
        obtain ⟨s3, h4, h5⟩ := L.enforce_ok hr2
        have e : P.metered.enforceTarget s2 = .ok () (s3, s2.2 + 1) := M.metered_ok s2.2 h4
        rw [e, Out.bind_ok]
        refine ⟨v.drop n, h5, ?_⟩
        rw [List.length_take] at hc
        rw [List.length_drop]
        rcases hc with ⟨l, c⟩ | ⟨l, c⟩
        · simp only [List.length_nil] at l
          exact .inl ⟨by omega, by show s2.2 + 1 ≤ _; omega⟩
        · simp only [List.length_nil] at l c
          refine .inr ⟨by omega, ?_⟩
          have hs : B * (v.length - n) + B * min n v.length = B * v.length := by
            rw [← Nat.mul_add]
            congr 1
            omega
          show s2.2 + 1 + Y + _ ≤ _
          omega
      | cons b v2 =>
        obtain ⟨s3, h4⟩ := L.enforce_err hr2 (by simp)
        have e : P.metered.enforceTarget s2 = .err _ (s3, s2.2 + 1) := M.metered_err s2.2 h4
        rw [e]
        rcases hc with ⟨l, c⟩ | ⟨l, c⟩
        · exact .inl (by show s2.2 + 1 ≤ _; omega)
        · exact .inr ⟨by omega, by show s2.2 + 1 + Y ≤ _; omega⟩
    | err e s2 =>
      rintro (h | ⟨h, h'⟩)
      · exact .inl (by omega)
      · exact .inr ⟨by omega, by omega⟩
    | _ => exact fun _ => trivial
  · rcases L.setFit_err n hr (by omega) hn with ⟨e, s', h1, _, _⟩ | ⟨_, h1⟩
    · have e : P.metered.setFit n (s, k) = .err e (s', k + 1) := M.metered_err k h1
      rw [e]
      exact .inl (by show k + 1 ≤ _; omega)
    · have e : P.metered.setFit n (s, k) = .panic := by show M.metered _ _ = _; simp [M.metered, h1]
      rw [e]
      trivial

/-! ### loops -/

/-- Reading up to a terminator: one call per byte. -/
theorem Cost.selfTermLoop (f : Byte → Bool) : ∀ (v ret : Bytes) (vs : List Bytes) (s : σ) (k : Nat), R v vs s →
    match iterM (P.metered.selfTermBody f) ret (s, k) with
    | .ok _ s' => ∃ v', R v' vs s'.1 ∧ v'.length < v.length ∧ s'.2 + v'.length = k + v.length
    | .err _ s' => s'.2 ≤ k + v.length + 1
    | _ => True
  | [], ret, vs, s, k, hr => by
    obtain ⟨e, s', h1, _, _⟩ := L.consumeByte_err hr
    have e : P.metered.consumeByte (s, k) = .err e (s', k + 1) := M.metered_err k h1
    rw [iterM_unfold]
    simp only [ParserOps.selfTermBody, e, Out.bind]
    exact Nat.le_refl _
  | b :: v, ret, vs, s, k, hr => by
    obtain ⟨s', h1, h2⟩ := L.consumeByte_ok hr
    have e : P.metered.consumeByte (s, k) = .ok b (s', k + 1) := M.metered_ok k h1
    rw [iterM_unfold]
    simp only [ParserOps.selfTermBody, e]
    cases hb : f b with
    | true =>
      rw [if_pos rfl, Out.bind_ok]
      exact ⟨v, h2, by simp, by simp; omega⟩
    | false =>
      rw [if_neg (by simp), Out.bind_ok]
      have ih := selfTermLoop f v (ret ++ [b]) vs s' (k + 1) h2
      revert ih
      dsimp only
      cases iterM (P.metered.selfTermBody f) (ret ++ [b]) (s', k + 1) with
      | ok a s2 =>
        rintro ⟨v', h3, h4, h5⟩
        exact ⟨v', h3, by simp; omega, by simp; omega⟩
      | err e s2 => intro h; simp only [List.length_cons]; omega
      | _ => exact fun _ => trivial

theorem Cost.selfTerminating (hB : Y + 1 ≤ B) (f : Byte → Bool) : Cost R B 2 2 Y (P.metered.takeSelfTerminating f) := by
  refine (Cost.remainder (A := 1) (X := 1) (Y := Y) L fun v vs s k hr => ?_)
  rw [if_neg (Nat.not_lt.mpr (L.small hr))]
  have h := Cost.selfTermLoop L f v [] vs s k hr
  revert h
  have hm : ∀ n m : Nat, n < m → B * n + Y + m ≤ B * m + n := by
    intro n m hlt
    obtain ⟨d, rfl⟩ : ∃ d, m = n + d := ⟨m - n, by omega⟩
    rw [Nat.mul_add]
    have : (Y + 1) * d ≤ B * d := Nat.mul_le_mul_right d hB
    rw [Nat.add_mul] at this
    have : Y * 1 ≤ Y * d := Nat.mul_le_mul_left Y (by omega)
    omega
  cases iterM (P.metered.selfTermBody f) [] (s, k) with
  | ok a s' =>
    rintro ⟨v', h1, h2, h3⟩
    have := hm _ _ h2
    exact ⟨v', h1, .inr ⟨h2, by omega⟩⟩
  | err e s' =>
    intro h
    by_cases h0 : v.length = 0
    · exact .inl (by omega)
    · have := hm 0 v.length (by omega)
      exact .inr ⟨by omega, by omega⟩
  | _ => exact fun _ => trivial

omit L in
/-- `body` is a loop that reads elements with `elem` while something is left (and fewer than the permitted number have
been read: `go`). -/
def Rounds (R : Bytes → List Bytes → σ → Prop) (go : List α → Prop) (elem : PM (σ × Nat) α)
    (body : List α → PM (σ × Nat) (List α ⊕ List α)) : Prop :=
  ∀ acc v vs s k, R v vs s →
    (∃ s', body acc (s, k) = .ok (.inr acc) (s', k + 1) ∧ R v vs s') ∨
    (∃ s', v ≠ [] ∧ R v vs s' ∧ match elem (s', k + 1) with
      | .ok a st => (go acc ∧ body acc (s, k) = .ok (.inl (acc ++ [a])) st) ∨ ∃ e, body acc (s, k) = .err e st
      | .err e st => body acc (s, k) = .err e st
      | .panic => body acc (s, k) = .panic
      | .ub => body acc (s, k) = .ub
      | .diverge => body acc (s, k) = .diverge)

theorem Rounds.seq (elem : PM (σ × Nat) α) : Rounds R (fun _ => True) elem (Codec.seqBody P.metered elem) := by
  intro acc v vs s k hr
  obtain ⟨s', h1, h2⟩ := L.remainder hr
  have e : P.metered.remainder (s, k) = .ok v.length (s', k + 1) := M.metered_ok k h1
  by_cases hv : v = []
  · subst hv
    exact .inl ⟨s', by simp [Codec.seqBody, e], h2⟩
  · refine .inr ⟨s', hv, h2, ?_⟩
    simp only [Codec.seqBody, M.bind_run, e, Out.bind_ok, ne_eq, List.length_eq_zero_iff, hv, not_false_eq_true, if_true]
    cases elem (s', k + 1) with
    | ok a st => exact .inl ⟨trivial, rfl⟩
    | _ => rfl

theorem Rounds.fix (n : Nat) (elem : PM (σ × Nat) α) :
    Rounds R (fun acc => acc.length < n) elem (Codec.fixBody n P.metered elem) := by
  intro acc v vs s k hr
  obtain ⟨s', h1, h2⟩ := L.remainder hr
  have e : P.metered.remainder (s, k) = .ok v.length (s', k + 1) := M.metered_ok k h1
  by_cases hv : v ≠ [] ∧ acc.length < n
  · refine .inr ⟨s', hv.1, h2, ?_⟩
    simp only [Codec.fixBody, M.bind_run, e, Out.bind_ok, ne_eq, List.length_eq_zero_iff, hv.1, not_false_eq_true, hv.2,
      and_self, if_true]
    cases elem (s', k + 1) with
    | ok a st => exact .inl ⟨trivial, by simp [Codec.tryPush, hv.2]⟩
    | _ => rfl
  · exact .inl ⟨s', by simp [Codec.fixBody, e, hv], h2⟩

theorem Rounds.lim (n : Nat) (elem : PM (σ × Nat) α) :
    Rounds R (fun acc => acc.length < n) elem (Codec.limBody n P.metered elem) := by
  intro acc v vs s k hr
  obtain ⟨s', h1, h2⟩ := L.remainder hr
  have e : P.metered.remainder (s, k) = .ok v.length (s', k + 1) := M.metered_ok k h1
  by_cases hv : v = []
  · subst hv
    exact .inl ⟨s', by simp [Codec.limBody, e], h2⟩
  · refine .inr ⟨s', hv, h2, ?_⟩
    simp only [Codec.limBody, M.bind_run, e, Out.bind_ok, ne_eq, List.length_eq_zero_iff, hv, not_false_eq_true, if_true]
    cases elem (s', k + 1) with
    | ok a st =>
      by_cases hl : acc.length < n
      · exact .inl ⟨hl, by simp [Codec.tryPush, hl]⟩
      · exact .inr ⟨_, by simp only [Out.bind_ok, Codec.tryPush, if_neg hl]; rfl⟩
    | _ => rfl

omit L
variable {go : List α → Prop} {elem : PM (σ × Nat) α} {body : List α → PM (σ × Nat) (List α ⊕ List α)} {a E : Nat}

/-- Whenever an element has been read without reading anything, the loop never ends. -/
def Rounds.Moves (R : Bytes → List Bytes → σ → Prop) (elem : PM (σ × Nat) α)
    (body : List α → PM (σ × Nat) (List α ⊕ List α)) : Prop :=
  ∀ acc v vs s s' k x st v', R v vs s → R v vs s' → v ≠ [] → elem (s', k + 1) = .ok x st → R v' vs st.1 →
    v'.length < v.length ∨ iterM body acc (s, k) = .diverge

theorem Rounds.moves_of_reads (h : Reads R elem) : Rounds.Moves R elem body :=
  fun _ v vs _ s' k x st v' _ hs _ he hr => .inl (h v vs s' (k + 1) x st v' hs he hr)

/-- Elements that are never empty pay for their rounds. -/
theorem Rounds.later (hb : Rounds R go elem body) (he : Cost R B a a E elem) (hr : Rounds.Moves R elem body) (hE : a + 1 ≤ E)
    (hB : a + 1 ≤ B) : ∀ (fuel : Nat) (acc : List α) v vs s k o, R v vs s → iterN body fuel acc (s, k) = some o → match o with
    | .ok _ st => ∃ v', R v' vs st.1 ∧ v'.length ≤ v.length ∧ st.2 + B * v'.length ≤ k + 1 + B * v.length
    | .err _ st => st.2 ≤ k + B * v.length
    | _ => True
  | 0, _, _, _, _, _, _, _, h => nomatch h
  | fuel + 1, acc, v, vs, s, k, o, hs, h => by
    have h' := h
    simp only [iterN] at h
    rcases hb acc v vs s k hs with ⟨s', h1, h2⟩ | ⟨s', hv, h2, h3⟩
    · rw [h1] at h
      cases h
      exact ⟨v, h2, Nat.le_refl _, Nat.le_refl _⟩
    · have hc := he v vs s' (k + 1) h2
      have hl := fun a st v' => hr acc v vs s s' k a st v' hs h2 hv
      have hdiv : iterM body acc (s, k) = .diverge → o = .diverge := fun hd => by
        rw [← hd, iterM_of_iterN h']
      generalize elem (s', k + 1) = r at h3 hc hl
      have h0 : 0 < v.length := List.length_pos_iff.mpr hv
      have hm := mul_lt B h0
      cases r with
      | ok x st =>
        obtain ⟨v1, hr1, hc⟩ := hc
        rcases hl x st v1 rfl hr1 with hlt | hlt
        case inr => rw [hdiv hlt]; trivial
        have hc : st.2 + E + B * v1.length ≤ k + 1 + a + B * v.length := by
          rcases hc with ⟨l, _⟩ | ⟨_, c⟩
          · omega
          · exact c
        rcases h3 with ⟨_, h3⟩ | ⟨e, h3⟩
        · rw [h3] at h
          have ih := later hb he hr hE hB fuel _ v1 vs st.1 st.2 o hr1 h
          revert ih
          cases o with
          | ok x st' =>
            rintro ⟨v', i1, i2, i3⟩
            exact ⟨v', i1, by omega, by omega⟩
          | err e st' => intro i; dsimp only at i ⊢; omega
          | _ => exact fun _ => trivial
        · rw [h3] at h
          cases h
          dsimp only
          omega
      | err e st =>
        rw [h3] at h
        cases h
        dsimp only
        rcases hc with hc | ⟨_, hc⟩ <;> omega
      | _ => rw [h3] at h; cases h; trivial

/-- … so a list of them costs little more than its first element. -/
theorem Rounds.cost (hb : Rounds R go elem body) (h1 : Cost R B A X Y elem) (he : Cost R B a a E elem)
    (hr : Rounds.Moves R elem body)
    (hE : a + 1 ≤ E) (hB : a + 1 ≤ B) (acc : List α) : Cost R B (A + 2) (X + 2) Y (iterM body acc) := by
  intro v vs s k hs
  by_cases hd : iterM body acc (s, k) = .diverge
  · rw [hd]; trivial
  obtain ⟨n, hn⟩ := iterM_ok_iterN rfl hd
  generalize ho : iterM body acc (s, k) = o at hn
  cases n with
  | zero => cases hn
  | succ n =>
    simp only [iterN] at hn
    rcases hb acc v vs s k hs with ⟨s', h3, h2⟩ | ⟨s', hv, h2, h3⟩
    · rw [h3] at hn
      cases hn
      exact ⟨v, h2, .inl ⟨rfl, by show k + 1 ≤ _; omega⟩⟩
    · have hc := h1 v vs s' (k + 1) h2
      have hl := fun a st v' => hr acc v vs s s' k a st v' hs h2 hv
      generalize elem (s', k + 1) = r at h3 hc hl
      cases r with
      | ok x st =>
        obtain ⟨v1, hr1, hc⟩ := hc
        rcases hl x st v1 rfl hr1 with hlt | hlt
        case inr => exact absurd hlt hd
        have hc : st.2 + Y + B * v1.length ≤ k + 1 + X + B * v.length := by
          rcases hc with ⟨l, _⟩ | ⟨_, c⟩
          · omega
          · exact c
        rcases h3 with ⟨_, h3⟩ | ⟨e, h3⟩
        · rw [h3] at hn
          have ih := later hb he hr hE hB n _ v1 vs st.1 st.2 o hr1 hn
          revert ih
          cases o with
          | ok x st' =>
            rintro ⟨v', i1, i2, i3⟩
            exact ⟨v', i1, .inr ⟨by omega, by omega⟩⟩
          | err e st' => intro i; dsimp only at i; exact .inr ⟨by omega, by omega⟩
          | _ => exact fun _ => trivial
        · rw [h3] at hn
          cases hn
          exact .inr ⟨by omega, by omega⟩
      | err e st =>
        rw [h3] at hn
        cases hn
        rcases hc with hc | ⟨hc', hc⟩
        · exact .inl (by omega)
        · exact .inr ⟨by omega, by omega⟩
      | _ => rw [h3] at hn; cases hn; trivial

/-- A bounded number of rounds. -/
theorem Rounds.laterMax {n : Nat} (hb : Rounds R (fun acc => acc.length < n) elem body) (he : Cost R B a a 0 elem) :
    ∀ (fuel m : Nat) (acc : List α) v vs s k o, n ≤ acc.length + m → R v vs s → iterN body fuel acc (s, k) = some o → match o with
    | .ok _ st => ∃ v', R v' vs st.1 ∧ v'.length ≤ v.length ∧ st.2 + B * v'.length ≤ k + (m + 1) * (a + 1) + B * v.length
    | .err _ st => st.2 ≤ k + (m + 1) * (a + 1) + B * v.length
    | _ => True
  | 0, _, _, _, _, _, _, _, _, _, h => nomatch h
  | fuel + 1, m, acc, v, vs, s, k, o, hl, hs, h => by
    simp only [iterN] at h
    have hma : (m + 1) * (a + 1) = m * (a + 1) + (a + 1) := Nat.succ_mul _ _
    rcases hb acc v vs s k hs with ⟨s', h1, h2⟩ | ⟨s', hv, h2, h3⟩
    · rw [h1] at h
      cases h
      exact ⟨v, h2, Nat.le_refl _, by dsimp only; omega⟩
    · have hc := he v vs s' (k + 1) h2
      generalize elem (s', k + 1) = r at h3 hc
      cases r with
      | ok x st =>
        obtain ⟨v1, hr1, hc⟩ := hc
        have hc : v1.length ≤ v.length ∧ st.2 + B * v1.length ≤ k + 1 + a + B * v.length := by
          rcases hc with ⟨l, c⟩ | ⟨l, c⟩
          · rw [l]; omega
          · omega
        rcases h3 with ⟨hg, h3⟩ | ⟨e, h3⟩
        · rw [h3] at h
          cases m with
          | zero => omega
          | succ m =>
            have ih := laterMax hb he fuel m (acc ++ [x]) v1 vs st.1 st.2 o (by simp; omega) hr1 h
            revert ih
            cases o with
            | ok x st' =>
              rintro ⟨v', i1, i2, i3⟩
              exact ⟨v', i1, by omega, by omega⟩
            | err e st' => intro i; dsimp only at i ⊢; omega
            | _ => exact fun _ => trivial
        · rw [h3] at h
          cases h
          dsimp only
          omega
      | err e st =>
        rw [h3] at h
        cases h
        dsimp only
        rcases hc with hc | ⟨_, hc⟩ <;> omega
      | _ => rw [h3] at h; cases h; trivial

theorem Rounds.costMaxN {n : Nat} (hb : Rounds R (fun acc => acc.length < n) elem body) (h1 : Cost R B A X Y elem)
    (he : Cost R B a a 0 elem) (hX : X ≤ A + a) :
    ∀ (fuel m : Nat) (acc : List α) v vs s k o, n ≤ acc.length + m → R v vs s → iterN body fuel acc (s, k) = some o →
      Within ((m + 1) * (A + 1)) ((m + 1) * (A + 1) + (m + 1) * (a + 1)) Y B R v vs k o
  | 0, _, _, _, _, _, _, _, _, _, h => nomatch h
  | fuel + 1, m, acc, v, vs, s, k, o, hl, hs, h => by
    simp only [iterN] at h
    have hma : (m + 1) * (a + 1) = m * (a + 1) + (a + 1) := Nat.succ_mul _ _
    have hmA : (m + 1) * (A + 1) = m * (A + 1) + (A + 1) := Nat.succ_mul _ _
    rcases hb acc v vs s k hs with ⟨s', h1, h2⟩ | ⟨s', hv, h2, h3⟩
    · rw [h1] at h
      cases h
      exact ⟨v, h2, .inl ⟨rfl, by dsimp only; omega⟩⟩
    · have hc := h1 v vs s' (k + 1) h2
      generalize elem (s', k + 1) = r at h3 hc
      cases r with
      | ok x st =>
        obtain ⟨v1, hr1, hc⟩ := hc
        rcases h3 with ⟨hg, h3⟩ | ⟨e, h3⟩
        · rw [h3] at h
          cases m with
          | zero => omega
          | succ m =>
            rcases hc with ⟨l, c⟩ | ⟨l, c⟩
            · have ih := costMaxN hb h1 he hX fuel m (acc ++ [x]) v1 vs st.1 st.2 o (by simp; omega) hr1 h
              revert ih
              cases o with
              | ok x st' =>
                rintro ⟨v', i1, i2⟩
                rw [l] at i2
                exact ⟨v', i1, i2.imp (fun ⟨i, j⟩ => ⟨i, by omega⟩) fun ⟨i, j⟩ => ⟨i, by omega⟩⟩
              | err e st' =>
                intro i
                simp only [Within, l] at i
                exact i.imp (fun i => by omega) fun ⟨i, j⟩ => ⟨i, by omega⟩
              | _ => exact fun _ => trivial
            · have ih := laterMax hb he fuel m (acc ++ [x]) v1 vs st.1 st.2 o (by simp; omega) hr1 h
              revert ih
              cases o with
              | ok x st' =>
                rintro ⟨v', i1, i2, i3⟩
                exact ⟨v', i1, .inr ⟨by omega, by omega⟩⟩
              | err e st' => intro i; dsimp only at i; exact .inr ⟨by omega, by omega⟩
              | _ => exact fun _ => trivial
        · rw [h3] at h
          cases h
          rcases hc with ⟨l, c⟩ | ⟨l, c⟩
          · exact .inl (by omega)
          · exact .inr ⟨by omega, by omega⟩
      | err e st =>
        rw [h3] at h
        cases h
        rcases hc with hc | ⟨hc', hc⟩
        · exact .inl (by omega)
        · exact .inr ⟨hc', by omega⟩
      | _ => rw [h3] at h; cases h; trivial

theorem Rounds.costMax {n : Nat} (hb : Rounds R (fun acc => acc.length < n) elem body) (h1 : Cost R B A X Y elem)
    (he : Cost R B a a 0 elem) (hX : X ≤ A + a) :
    Cost R B ((n + 1) * (A + 1)) ((n + 1) * (A + 1) + (n + 1) * (a + 1)) Y (iterM body []) := by
  intro v vs s k hs
  by_cases hd : iterM body [] (s, k) = .diverge
  · rw [hd]; trivial
  obtain ⟨fuel, hn⟩ := iterM_ok_iterN rfl hd
  exact costMaxN hb h1 he hX fuel n [] v vs s k _ (by simp) hs hn

end
end Verif
