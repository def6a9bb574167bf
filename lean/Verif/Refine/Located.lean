import Verif.Lemmas.HandWritten
import Verif.Refine.Exact
import Verif.Refine.Slice
/-
`ByteParser` and `MemoParser` side by side with `SliceParser`, to the letter: what they report when decoding fails.
-/
namespace Verif

/-- The errors of a parser that knows its position and of `SliceParser`, for the same failure; `c` is where decoding stopped. -/
inductive Told (p : Profile) (len : Nat) (c : Cursor) : ParseError → ParseError → Prop
  /-- a read of `n` bytes where there are fewer -/
  | short (n : Nat) (h : c.top.length < n) : Told p len c (.window (.consumeWouldExceedLimit c.pos n (c.pos + c.top.length)))
      (.window (.consumeWouldExceedLimit 0 n c.top.length))
  /-- a window that does not fit into the input -/
  | buffer (n : Nat) (h : len < c.pos + n) (hp : p = .debug → n ≤ len) :
      Told p len c (.window (.openWouldExceedBuffer ((len + usizeMod - n) % usizeMod) n))
        (.window (.openWouldExceedWindow c.top.length n))
  /-- a window that does not fit into the one that is open -/
  | window (n : Nat) (h : c.top.length < n) (h' : c.pos + n ≤ len) :
      Told p len c (.window (.openWouldExceedWindow (c.pos + c.top.length) (c.pos + n)))
        (.window (.openWouldExceedWindow c.top.length n))
  /-- a window with `k` bytes left; it has been closed -/
  | residue (k : Nat) (h0 : 0 < k) (h : k ≤ c.top.length) :
      Told p len c (.window (.closeWithResidue k)) (.window (.closeWithResidue k))

variable {α β σ : Type}

/-- Two runs of the same code that started at `c`, with a parser that knows its position and with `SliceParser`. -/
inductive Lock (A : σ → Cursor → Prop) (p : Profile) (len : Nat) (E : ParseError → Prop) (Q : α → Prop) (c : Cursor) :
    Out σ ParseError α → Out SliceParser ParseError α → Prop
  | ok (a : α) (s' : σ) (t' : SliceParser) (c' : Cursor) (q : Q a) (ha : A s' c') (ht : SliceRep t' c')
      (ho : c'.outer = c.outer) (hp : c.pos ≤ c'.pos) : Lock A p len E Q c (.ok a s') (.ok a t')
  | own (e : ParseError) (s' : σ) (t' : SliceParser) (c' : Cursor) (h : E e ∨ e.isWindow = false) (ha : A s' c')
      (hp : c.pos ≤ c'.pos) : Lock A p len E Q c (.err e s') (.err e t')
  | told (e e' : ParseError) (s' : σ) (t' : SliceParser) (c' : Cursor) (ha : A s' c') (hp : c.pos ≤ c'.pos)
      (h : Told p len c' e e') : Lock A p len E Q c (.err e s') (.err e' t')
  | panic : Lock A p len E Q c .panic .panic
  | oversized (l n : Nat) (t' : SliceParser) (hp : p = .debug) (hl : l < n) (h : len < n) :
      Lock A p len E Q c .panic (.err (.window (.openWouldExceedWindow l n)) t')
  | diverge : Lock A p len E Q c .diverge .diverge

theorem bind_of_ok {m : PM σ α} {f : α → PM σ β} {s s' : σ} {a : α} (h : m s = .ok a s') : (m >>= f) s = f a s' := by
  show (m s).bind _ = _
  rw [h]
  rfl

theorem bind_of_err {m : PM σ α} {f : α → PM σ β} {s s' : σ} {e : ParseError} (h : m s = .err e s') : (m >>= f) s = .err e s' := by
  show (m s).bind _ = _
  rw [h]
  rfl

/-- A parser whose answers are those of the exact cursor. -/
structure Exactly (P : ParserOps σ) (p : Profile) (len : Nat) (A : σ → Cursor → Prop) : Prop where
  gives : ∀ {s c} (op : Op), A s c → (p = .debug ∨ ¬ c.Overflows op) → Gives A (P.run op s) (c.step op).2 (c.answer p len op)
  bound : ∀ {s c}, A s c → c.pos + c.top.length ≤ len
  small : len ≤ isizeMax

def Locks (P : ParserOps σ) (A : σ → Cursor → Prop) (p : Profile) (len : Nat) (E : ParseError → Prop) (f : ParseFn α)
    (Q : α → Prop) : Prop :=
  ∀ c s t, A s c → SliceRep t c → Lock A p len E Q c (f σ P s) (f SliceParser SliceParser.ops t)

variable {P : ParserOps σ} {A : σ → Cursor → Prop} {p : Profile} {len : Nat} {E : ParseError → Prop}

theorem Lock.shift {Q : α → Prop} {c c' : Cursor} (ho : c'.outer = c.outer) (hp : c.pos ≤ c'.pos)
    {x : Out σ ParseError α} {y : Out SliceParser ParseError α} (h : Lock A p len E Q c' x y) : Lock A p len E Q c x y := by
  cases h with
  | ok a s' t' c'' q ha ht ho' hp' => exact .ok a s' t' c'' q ha ht (ho'.trans ho) (Nat.le_trans hp hp')
  | own e s' t' c'' h ha hp' => exact .own e s' t' c'' h ha (Nat.le_trans hp hp')
  | told e e' s' t' c'' ha hp' h => exact .told e e' s' t' c'' ha (Nat.le_trans hp hp') h
  | panic => exact .panic
  | oversized l n t' hp hl h => exact .oversized l n t' hp hl h
  | diverge => exact .diverge

theorem Lock.weaken {Q Q' : α → Prop} (h : ∀ a, Q a → Q' a) {c : Cursor} {x : Out σ ParseError α}
    {y : Out SliceParser ParseError α} (hl : Lock A p len E Q c x y) : Lock A p len E Q' c x y := by
  cases hl with
  | ok a s' t' c' q ha ht ho hp => exact .ok a s' t' c' (h a q) ha ht ho hp
  | own e s' t' c' h ha hp => exact .own e s' t' c' h ha hp
  | told e e' s' t' c' ha hp h => exact .told e e' s' t' c' ha hp h
  | panic => exact .panic
  | oversized l n t' hp hl h => exact .oversized l n t' hp hl h
  | diverge => exact .diverge

theorem Locks.bind {Q : α → Prop} {Q' : β → Prop} {f : ParseFn α} {g : α → ParseFn β} (hf : Locks P A p len E f Q)
    (hg : ∀ a, Q a → Locks P A p len E (g a) Q') : Locks P A p len E (fun σ P => f σ P >>= fun a => g a σ P) Q' := by
  intro c s t ha ht
  have h := hf c s t ha ht
  show Lock A p len E Q' c ((f σ P s).bind _) ((f SliceParser SliceParser.ops t).bind _)
  generalize f σ P s = x at h
  generalize f SliceParser SliceParser.ops t = y at h
  cases h with
  | ok a s' t' c' q ha ht ho hp => exact (hg a q c' s' t' ha ht).shift ho hp
  | own e s' t' c' h ha hp => exact .own e s' t' c' h ha hp
  | told e e' s' t' c' ha hp h => exact .told e e' s' t' c' ha hp h
  | panic => exact .panic
  | oversized l n t' hp hl h => exact .oversized l n t' hp hl h
  | diverge => exact .diverge

theorem Locks.iterN {I : β → Prop} {Q : α → Prop} {body : β → ParseFn (β ⊕ α)}
    (h : ∀ b, I b → Locks P A p len E (body b) (Sum.elim I Q)) : ∀ (n : Nat) (b : β), I b → ∀ c s t, A s c → SliceRep t c →
      (Verif.iterN (fun b => body b σ P) n b s = none ∧
        Verif.iterN (fun b => body b SliceParser SliceParser.ops) n b t = none) ∨
      ∃ x y, Verif.iterN (fun b => body b σ P) n b s = some x ∧
        Verif.iterN (fun b => body b SliceParser SliceParser.ops) n b t = some y ∧ Lock A p len E Q c x y
  | 0, _, _, _, _, _, _, _ => .inl ⟨rfl, rfl⟩
  | n + 1, b, hb, c, s, t, ha, ht => by
    have hl := h b hb c s t ha ht
    simp only [Verif.iterN]
    generalize body b σ P s = x at hl
    generalize body b SliceParser SliceParser.ops t = y at hl
    cases hl with
    | ok r s' t' c' q ha' ht' ho hp =>
      cases r with
      | inl b' =>
        rcases Locks.iterN h n b' q c' s' t' ha' ht' with h' | ⟨x, y, hx, hy, hl⟩
        · exact .inl h'
        · exact .inr ⟨x, y, hx, hy, hl.shift ho hp⟩
      | inr a => exact .inr ⟨_, _, rfl, rfl, .ok a s' t' c' q ha' ht' ho hp⟩
    | own e s' t' c' h ha hp => exact .inr ⟨_, _, rfl, rfl, .own e s' t' c' h ha hp⟩
    | told e e' s' t' c' ha hp h => exact .inr ⟨_, _, rfl, rfl, .told e e' s' t' c' ha hp h⟩
    | panic => exact .inr ⟨_, _, rfl, rfl, .panic⟩
    | oversized l n t' hp hl h => exact .inr ⟨_, _, rfl, rfl, .oversized l n t' hp hl h⟩
    | diverge => exact .inr ⟨_, _, rfl, rfl, .diverge⟩

theorem Locks.loop {I : β → Prop} {Q : α → Prop} {body : β → ParseFn (β ⊕ α)} (b : β) (hb : I b)
    (h : ∀ b, I b → Locks P A p len E (body b) (Sum.elim I Q)) :
    Locks P A p len E (fun σ P => iterM (fun b => body b σ P) b) Q := by
  intro c s t ha ht
  by_cases hn : ∀ n, Verif.iterN (fun b => body b σ P) n b s = none
  · have hn' : ∀ n, Verif.iterN (fun b => body b SliceParser SliceParser.ops) n b t = none := by
      intro n
      rcases Locks.iterN h n b hb c s t ha ht with h' | ⟨x, y, hx, _⟩
      · exact h'.2
      · rw [hn n] at hx; cases hx
    simp only [iterM_eq_diverge hn, iterM_eq_diverge hn']
    exact .diverge
  · obtain ⟨n, hn⟩ := Classical.not_forall.mp hn
    rcases Locks.iterN h n b hb c s t ha ht with h' | ⟨x, y, hx, hy, hl⟩
    · exact absurd h'.1 hn
    · simp only [iterM_of_iterN hx, iterM_of_iterN hy]
      exact hl

/-! ### single operations -/

section
variable (X : Exactly P p len A)
include X

theorem Exactly.fits {s : σ} {c : Cursor} (ha : A s c) {op : Op} (h : op.arg ≤ isizeMax + 1) : ¬ c.Overflows op := by
  have h1 := X.bound ha
  have h2 := X.small
  unfold Cursor.Overflows
  rw [usizeMod_eq]
  omega

theorem Exactly.remainder {s : σ} {c : Cursor} (ha : A s c) : ∃ s', P.remainder s = .ok c.top.length s' ∧ A s' c := by
  have hf : ¬ c.Overflows .remainder := X.fits ha (op := .remainder) (Nat.zero_le _)
  have h := X.gives .remainder ha (.inr hf)
  simp only [Cursor.answer, if_neg hf, Cursor.step, Gives] at h
  obtain ⟨s', h, ha'⟩ := h
  obtain ⟨n, h1, h2⟩ := run_ok_of_map h
  cases h2
  exact ⟨s', h1, ha'⟩

theorem Exactly.byte {s : σ} {c : Cursor} (ha : A s c) :
    (∃ b v s', c.top = b :: v ∧ P.consumeByte s = .ok b s' ∧ A s' (c.adv 1)) ∨
    ∃ s', c.top = [] ∧ P.consumeByte s = .err (c.shortErr 1) s' ∧ A s' c := by
  have hf : ¬ c.Overflows .consumeByte := X.fits ha (op := .consumeByte) (Nat.zero_le _)
  have h := X.gives .consumeByte ha (.inr hf)
  simp only [Cursor.answer, if_neg hf, Cursor.step] at h
  cases ht : c.top with
  | nil =>
    rw [ht] at h
    obtain ⟨s', h, ha'⟩ := h
    exact .inr ⟨s', rfl, run_err_of_map h, ha'⟩
  | cons b v =>
    rw [ht] at h
    obtain ⟨s', h, ha'⟩ := h
    obtain ⟨n, h1, h2⟩ := run_ok_of_map h
    cases h2
    exact .inl ⟨b, v, s', rfl, h1, ha'⟩

theorem Exactly.consume {s : σ} {c : Cursor} (ha : A s c) {n : Nat} (hn : n ≤ isizeMax + 1) :
    (∃ s', n ≤ c.top.length ∧ P.consume n s = .ok (c.top.take n) s' ∧ A s' (c.adv n)) ∨
    ∃ s', c.top.length < n ∧ P.consume n s = .err (c.shortErr n) s' ∧ A s' c := by
  have hf : ¬ c.Overflows (.consume n) := X.fits ha (op := .consume n) hn
  have h := X.gives (.consume n) ha (.inr hf)
  simp only [Cursor.answer, if_neg hf, Cursor.step] at h
  by_cases hl : n ≤ c.top.length
  · simp only [if_pos hl] at h
    obtain ⟨s', h, ha'⟩ := h
    obtain ⟨n, h1, h2⟩ := run_ok_of_map h
    cases h2
    exact .inl ⟨s', hl, h1, ha'⟩
  · simp only [if_neg hl] at h
    obtain ⟨s', h, ha'⟩ := h
    exact .inr ⟨s', by omega, run_err_of_map h, ha'⟩

theorem Exactly.skipExactly {s : σ} {c : Cursor} (ha : A s c) {n : Nat} (hn : n ≤ isizeMax + 1) :
    (∃ s', n ≤ c.top.length ∧ P.skipExactly n s = .ok () s' ∧ A s' (c.adv n)) ∨
    ∃ s', c.top.length < n ∧ P.skipExactly n s = .err (c.shortErr n) s' ∧ A s' c := by
  have hf : ¬ c.Overflows (.skipExactly n) := X.fits ha (op := .skipExactly n) hn
  have h := X.gives (.skipExactly n) ha (.inr hf)
  simp only [Cursor.answer, if_neg hf, Cursor.step] at h
  by_cases hl : n ≤ c.top.length
  · simp only [if_pos hl] at h
    obtain ⟨s', h, ha'⟩ := h
    obtain ⟨n, h1, h2⟩ := run_ok_of_map h
    exact .inl ⟨s', hl, h1, ha'⟩
  · simp only [if_neg hl] at h
    obtain ⟨s', h, ha'⟩ := h
    exact .inr ⟨s', by omega, run_err_of_map h, ha'⟩

theorem Exactly.skip {s : σ} {c : Cursor} (ha : A s c) (n : Nat) :
    ∃ s', P.skip n s = .ok (min c.top.length n) s' ∧ A s' (c.adv (min c.top.length n)) := by
  have hf : ¬ c.Overflows (.skip n) := X.fits ha (op := .skip n) (Nat.zero_le _)
  have h := X.gives (.skip n) ha (.inr hf)
  simp only [Cursor.answer, if_neg hf, Cursor.step, Gives] at h
  obtain ⟨s', h, ha'⟩ := h
  obtain ⟨m, h1, h2⟩ := run_ok_of_map h
  cases h2
  exact ⟨s', h1, ha'⟩

theorem Exactly.setFit {s : σ} {c : Cursor} (ha : A s c) {n : Nat} (hn : n ≤ isizeMax + 1) :
    (∃ s', n ≤ c.top.length ∧ P.setFit n s = .ok () s' ∧ A s' { c with top := c.top.take n, outer := c.top.drop n :: c.outer }) ∨
    (∃ e s', c.top.length < n ∧ P.setFit n s = .err e s' ∧ A s' c ∧ Told p len c e (.window (.openWouldExceedWindow c.top.length n))) ∨
    (p = .debug ∧ len < n ∧ P.setFit n s = .panic) := by
  have hb := X.bound ha
  have hf : ¬ c.Overflows (.setFit n) := X.fits ha (op := .setFit n) hn
  have h := X.gives (.setFit n) ha (.inr hf)
  simp only [Cursor.answer, if_neg hf, Cursor.step] at h
  by_cases hl : n ≤ c.top.length
  · simp only [if_pos hl] at h
    obtain ⟨s', h, ha'⟩ := h
    obtain ⟨n, h1, h2⟩ := run_ok_of_map h
    exact .inl ⟨s', hl, h1, ha'⟩
  · simp only [if_neg hl] at h
    refine .inr ?_
    by_cases hlen : len < c.pos + n
    · simp only [if_pos hlen] at h
      by_cases hd : p = .debug ∧ len < n
      · rw [if_pos hd] at h
        exact .inr ⟨hd.1, hd.2, run_panic_of_map h⟩
      · rw [if_neg hd] at h
        obtain ⟨s', h, ha'⟩ := h
        exact .inl ⟨_, s', by omega, run_err_of_map h, ha', .buffer n hlen fun hp => Nat.le_of_not_lt fun h => hd ⟨hp, h⟩⟩
    · simp only [if_neg hlen] at h
      obtain ⟨s', h, ha'⟩ := h
      exact .inl ⟨_, s', by omega, run_err_of_map h, ha', .window n (by omega) (by omega)⟩

theorem Exactly.enforce {s : σ} {c : Cursor} (ha : A s c) {v : Bytes} {vs : List Bytes} (ho : c.outer = v :: vs) :
    (∃ s', c.top = [] ∧ P.enforceTarget s = .ok () s' ∧ A s' { c with top := c.top ++ v, outer := vs }) ∨
    ∃ s', c.top ≠ [] ∧ P.enforceTarget s = .err (.window (.closeWithResidue c.top.length)) s' ∧
      A s' { c with top := c.top ++ v, outer := vs } := by
  have hf : ¬ c.Overflows .enforceTarget := X.fits ha (op := .enforceTarget) (Nat.zero_le _)
  have h := X.gives .enforceTarget ha (.inr hf)
  simp only [Cursor.answer, if_neg hf, Cursor.step, ho] at h
  by_cases ht : c.top = []
  · simp only [if_pos ht] at h
    obtain ⟨s', h, ha'⟩ := h
    obtain ⟨n, h1, h2⟩ := run_ok_of_map h
    exact .inl ⟨s', ht, h1, ha'⟩
  · simp only [if_neg ht] at h
    obtain ⟨s', h, ha'⟩ := h
    exact .inr ⟨s', ht, run_err_of_map h, ha'⟩

end

theorem SliceRep.adv {t : SliceParser} {c : Cursor} {n : Nat} : SliceRep { views := c.top.drop n :: c.outer } (c.adv n) := rfl

theorem SliceRep.eq {t : SliceParser} {c : Cursor} (h : SliceRep t c) : t = ⟨c.top :: c.outer⟩ := by
  cases t
  cases h
  rfl

theorem Told.byte {c : Cursor} (h : c.top = []) : Told p len c (c.shortErr 1) (.window (.consumeWouldExceedLimit 0 1 0)) := by
  have := Told.short (p := p) (len := len) (c := c) 1 (by rw [h]; exact Nat.one_pos)
  rw [h] at this
  rw [Cursor.shortErr, h]
  exact this

theorem Locks.consumeByte (X : Exactly P p len A) : Locks P A p len E (fun _ P => P.consumeByte) (fun _ => True) := by
  intro c s t ha ht
  cases SliceRep.eq ht
  rcases X.byte ha with ⟨b, v, s', h1, h2, h3⟩ | ⟨s', h1, h2, h3⟩
  · simp only [h2, SliceParser.ops, SliceParser.consumeByte, h1]
    exact .ok b s' _ (c.adv 1) trivial h3 (by simp [SliceRep, Cursor.adv, h1]) rfl (Nat.le_succ _)
  · simp only [h2, SliceParser.ops, SliceParser.consumeByte, h1]
    exact .told _ _ s' _ c h3 (Nat.le_refl _) (Told.byte h1)

theorem Locks.selfTerm (X : Exactly P p len A) (f : Byte → Bool) (ret : Bytes) :
    Locks P A p len E (fun _ P => P.selfTermBody f ret) (Sum.elim (fun _ => True) fun _ => True) := by
  intro c s t ha ht
  cases SliceRep.eq ht
  rcases X.byte ha with ⟨b, v, s', h1, h2, h3⟩ | ⟨s', h1, h2, h3⟩
  · simp only [ParserOps.selfTermBody, h2, SliceParser.ops, SliceParser.consumeByte, h1]
    split
    · exact .ok _ s' _ (c.adv 1) trivial h3 (by simp [SliceRep, Cursor.adv, h1]) rfl (Nat.le_succ _)
    · exact .ok _ s' _ (c.adv 1) trivial h3 (by simp [SliceRep, Cursor.adv, h1]) rfl (Nat.le_succ _)
  · simp only [ParserOps.selfTermBody, h2, SliceParser.ops, SliceParser.consumeByte, h1]
    exact .own _ s' _ c (.inr rfl) h3 (Nat.le_refl _)

theorem Locks.remainder (X : Exactly P p len A) : Locks P A p len E (fun _ P => P.remainder) (· ≤ isizeMax) := by
  intro c s t ha ht
  cases SliceRep.eq ht
  have hb := X.bound ha
  have hs := X.small
  obtain ⟨s', h1, h2⟩ := X.remainder ha
  simp only [h1]
  exact .ok _ s' _ c (by omega) h2 rfl rfl (Nat.le_refl _)

/-- What is composed of parser calls runs in step. -/
theorem Composed.locks (X : Exactly P p len A) {f : ParseFn α} {Q : α → Prop} (h : Composed E f Q) : Locks P A p len E f Q := by
  induction h with
  | pure a h => exact fun c s t ha ht => .ok a s t c h ha ht rfl (Nat.le_refl _)
  | bind _ _ ihf ihg => exact Locks.bind ihf ihg
  | weaken h _ ih => exact fun c s t ha ht => (ih c s t ha ht).weaken h
  | throw e h => exact fun c s t ha ht => .own e s t c (.inl h) ha (Nat.le_refl _)
  | panic => exact fun _ _ _ _ _ => .panic
  | loop b hb _ ih => exact Locks.loop b hb ih
  | @recur α Q f _ hs ih =>
    intro c s t ha ht
    show Lock A p len E Q c (recM (fun n => f n σ P) s) (recM (fun n => f n SliceParser SliceParser.ops) t)
    rcases recM_cases (f := fun n => f n σ P) (fun n s => hs n σ P s) s with ⟨n, h1, h2⟩ | ⟨h1, h2⟩
    · have hl := ih n c s t ha ht
      rw [h2, recM_eq (f := fun n => f n SliceParser SliceParser.ops) (fun n s => hs n _ _ s) (n := n)]
      · exact hl
      · intro e
        rw [e] at hl
        revert h1 hl
        generalize f n σ P s = x
        intro h1 hl
        cases hl
        exact h1 rfl
    · rcases recM_cases (f := fun n => f n SliceParser SliceParser.ops) (fun n s => hs n _ _ s) t with ⟨n, h3, _⟩ | ⟨_, h3⟩
      · have hl := ih n c s t ha ht
        rw [h1 n] at hl
        revert h3 hl
        generalize f n SliceParser SliceParser.ops t = x
        intro h3 hl
        cases hl
        exact absurd rfl h3
      · rw [h2, h3]
        exact .diverge
  | remainder => exact Locks.remainder X
  | consumeByte => exact Locks.consumeByte X
  | next =>
    intro c s t ha ht
    cases SliceRep.eq ht
    rcases X.byte ha with ⟨b, v, s', h1, h2, h3⟩ | ⟨s', h1, h2, h3⟩
    · simp only [ParserOps.iterNext, h2, SliceParser.ops, SliceParser.consumeByte, h1]
      exact .ok _ s' _ (c.adv 1) trivial h3 (by simp [SliceRep, Cursor.adv, h1]) rfl (Nat.le_succ _)
    · simp only [ParserOps.iterNext, h2, SliceParser.ops, SliceParser.consumeByte, h1]
      exact .ok _ s' _ c trivial h3 (by simp [SliceRep, h1]) rfl (Nat.le_refl _)
  | consume n hn =>
    intro c s t ha ht
    cases SliceRep.eq ht
    rcases X.consume ha hn with ⟨s', h1, h2, h3⟩ | ⟨s', h1, h2, h3⟩
    · simp only [h2, SliceParser.ops, SliceParser.consume, SliceParser.splitUnchecked, ge_iff_le, if_pos h1]
      exact .ok _ s' _ (c.adv n) (by rw [List.length_take]; omega) h3 rfl rfl (Nat.le_add_right _ _)
    · simp only [h2, SliceParser.ops, SliceParser.consume, ge_iff_le, if_neg (Nat.not_le.mpr h1)]
      exact .told _ _ s' _ c h3 (Nat.le_refl _) (.short n h1)
  | selfTerminating f =>
    refine Locks.bind (Locks.remainder X) fun n hn => ?_
    intro c s t ha ht
    simp only [if_neg (Nat.not_lt.mpr hn)]
    exact Locks.loop (I := fun _ => True) [] trivial (fun b _ => Locks.selfTerm X f b) c s t ha ht
  | skip n =>
    intro c s t ha ht
    cases SliceRep.eq ht
    have hb := X.bound ha
    have hs := X.small
    obtain ⟨s', h1, h2⟩ := X.skip ha n
    simp only [h1, SliceParser.ops, SliceParser.skip, SliceParser.splitUnchecked, if_pos (Nat.min_le_left _ _)]
    exact .ok _ s' _ (c.adv _) ⟨by omega, Nat.min_le_right _ _⟩ h2 rfl rfl (Nat.le_add_right _ _)
  | skipExactly n hn =>
    intro c s t ha ht
    cases SliceRep.eq ht
    rcases X.skipExactly ha hn with ⟨s', h1, h2, h3⟩ | ⟨s', h1, h2, h3⟩
    · simp only [h2, SliceParser.ops, SliceParser.skipExactly, SliceParser.splitUnchecked, ge_iff_le, if_pos h1]
      exact .ok _ s' _ (c.adv n) trivial h3 rfl rfl (Nat.le_add_right _ _)
    · simp only [h2, SliceParser.ops, SliceParser.skipExactly, ge_iff_le, if_neg (Nat.not_le.mpr h1)]
      exact .told _ _ s' _ c h3 (Nat.le_refl _) (.short n h1)
  | caught h =>
    cases h with
    | remainder =>
      intro c s t ha ht
      cases SliceRep.eq ht
      have hb := X.bound ha
      have hs := X.small
      obtain ⟨s', h1, h2⟩ := X.remainder ha
      simp only [M.caught, h1, SliceParser.ops, SliceParser.remainder]
      exact .ok _ s' _ c (fun a h => by cases h; omega) h2 rfl rfl (Nat.le_refl _)
    | consumeByte =>
      intro c s t ha ht
      cases SliceRep.eq ht
      rcases X.byte ha with ⟨b, v, s', h1, h2, h3⟩ | ⟨s', h1, h2, h3⟩
      · simp only [M.caught, h2, SliceParser.ops, SliceParser.consumeByte, h1]
        exact .ok _ s' _ (c.adv 1) (fun _ _ => trivial) h3 (by simp [SliceRep, Cursor.adv, h1]) rfl (Nat.le_succ _)
      · simp only [M.caught, h2, SliceParser.ops, SliceParser.consumeByte, h1]
        exact .ok _ s' _ c nofun h3 (by simp [SliceRep, h1]) rfl (Nat.le_refl _)
    | skip n =>
      intro c s t ha ht
      cases SliceRep.eq ht
      have hb := X.bound ha
      have hs := X.small
      obtain ⟨s', h1, h2⟩ := X.skip ha n
      simp only [M.caught, h1, SliceParser.ops, SliceParser.skip, SliceParser.splitUnchecked, if_pos (Nat.min_le_left _ _)]
      exact .ok _ s' _ (c.adv _) (fun a h => by cases h; exact ⟨by omega, Nat.min_le_right _ _⟩) h2 rfl rfl (Nat.le_add_right _ _)
    | consume n hn =>
      intro c s t ha ht
      cases SliceRep.eq ht
      rcases X.consume ha hn with ⟨s', h1, h2, h3⟩ | ⟨s', h1, h2, h3⟩
      · simp only [M.caught, h2, SliceParser.ops, SliceParser.consume, SliceParser.splitUnchecked, ge_iff_le, if_pos h1]
        refine .ok _ s' _ (c.adv n) (fun bs hb => ?_) h3 rfl rfl (Nat.le_add_right _ _)
        cases hb
        rw [List.length_take]; omega
      · simp only [M.caught, h2, SliceParser.ops, SliceParser.consume, ge_iff_le, if_neg (Nat.not_le.mpr h1)]
        exact .ok _ s' _ c nofun h3 rfl rfl (Nat.le_refl _)
    | skipExactly n hn =>
      intro c s t ha ht
      cases SliceRep.eq ht
      rcases X.skipExactly ha hn with ⟨s', h1, h2, h3⟩ | ⟨s', h1, h2, h3⟩
      · simp only [M.caught, h2, SliceParser.ops, SliceParser.skipExactly, SliceParser.splitUnchecked, ge_iff_le, if_pos h1]
        exact .ok _ s' _ (c.adv n) (fun _ _ => trivial) h3 rfl rfl (Nat.le_add_right _ _)
      · simp only [M.caught, h2, SliceParser.ops, SliceParser.skipExactly, ge_iff_le, if_neg (Nat.not_le.mpr h1)]
        exact .ok _ s' _ c nofun h3 rfl rfl (Nat.le_refl _)
  | @window α Q f n hn hf ih =>
    intro c s t ha ht
    cases SliceRep.eq ht
    dsimp only
    rcases X.setFit ha hn with ⟨s', h1, h2, h3⟩ | ⟨e, s', h1, h2, h3, h4⟩ | ⟨h1, h2, h3⟩
    · have e1 : SliceParser.ops.setFit n ⟨c.top :: c.outer⟩ = .ok () ⟨c.top.take n :: c.top.drop n :: c.outer⟩ := by
        simp only [SliceParser.ops, SliceParser.setFit, SliceParser.splitUnchecked, ge_iff_le, if_pos h1]
      rw [bind_of_ok h2, bind_of_ok e1]
      have hl := ih _ s' ⟨c.top.take n :: c.top.drop n :: c.outer⟩ h3 rfl
      show Lock A p len E Q c ((f σ P s').bind _) ((f SliceParser SliceParser.ops _).bind _)
      generalize f σ P s' = x at hl
      generalize f SliceParser SliceParser.ops _ = y at hl
      cases hl with
      | ok a s2 t2 c2 q ha2 ht2 ho2 hp2 =>
        cases SliceRep.eq ht2
        simp only [Out.bind_ok]
        have ho2 : c2.outer = c.top.drop n :: c.outer := ho2
        rcases X.enforce ha2 ho2 with ⟨s3, h4, h5, h6⟩ | ⟨s3, h4, h5, h6⟩
        · have e2 : SliceParser.ops.enforceTarget ⟨c2.top :: c2.outer⟩ = .ok () ⟨c.top.drop n :: c.outer⟩ := by
            simp [SliceParser.ops, SliceParser.enforceTarget, h4, ho2]
          rw [bind_of_ok h5, bind_of_ok e2]
          exact .ok a s3 _ _ q h6 (by simp [SliceRep, h4]) rfl hp2
        · have e2 : SliceParser.ops.enforceTarget ⟨c2.top :: c2.outer⟩ =
              .err (.window (.closeWithResidue c2.top.length)) ⟨c.top.drop n :: c.outer⟩ := by
            simp only [SliceParser.ops, SliceParser.enforceTarget, ho2]
            cases hk : c2.top.length with
            | zero => exact absurd (List.eq_nil_of_length_eq_zero hk) h4
            | succ k => rfl
          rw [bind_of_err h5, bind_of_err e2]
          exact .told _ _ s3 _ _ h6 hp2 (.residue _ (List.length_pos_iff.mpr h4) (by simp))
      | own e s' t' c' h ha hp => exact .own e s' t' c' h ha hp
      | told e e' s' t' c' ha hp h => exact .told e e' s' t' c' ha hp h
      | panic => exact .panic
      | oversized l n t' hp hl h => exact .oversized l n t' hp hl h
      | diverge => exact .diverge
    · have e1 : SliceParser.ops.setFit n ⟨c.top :: c.outer⟩ = .err (.window (.openWouldExceedWindow c.top.length n)) ⟨c.top :: c.outer⟩ := by
        simp only [SliceParser.ops, SliceParser.setFit, ge_iff_le, if_neg (Nat.not_le.mpr h1)]
      rw [bind_of_err h2, bind_of_err e1]
      exact .told _ _ s' _ c h3 (Nat.le_refl _) h4
    · have hb := X.bound ha
      have hl : c.top.length < n := by omega
      have e1 : SliceParser.ops.setFit n ⟨c.top :: c.outer⟩ = .err (.window (.openWouldExceedWindow c.top.length n)) ⟨c.top :: c.outer⟩ := by
        simp only [SliceParser.ops, SliceParser.setFit, ge_iff_le, if_neg (Nat.not_le.mpr hl)]
      rw [bind_of_err e1]
      show Lock A p len E Q c ((P.setFit n s).bind _) _
      rw [h3]
      exact .oversized _ n _ h1 hl h2

theorem byte_exactly (p : Profile) {buf : Bytes} (hb : buf.length ≤ isizeMax) :
    Exactly (ByteParser.ops p) p buf.length (ByteRep buf) where
  gives op ha ho := byte_gives p ha op ho
  bound := by
    rintro s c ⟨rfl, hi, rfl⟩
    have := hi.viewLen
    have := hi.limit_le
    have := hi.length_top
    have := hi.cur_le_limit
    show s.off.cur + _ ≤ _
    omega
  small := hb

theorem memo_exactly (p : Profile) {buf : Bytes} (hb : buf.length ≤ isizeMax) :
    Exactly (MemoParser.ops p) p buf.length (MemoRep buf) where
  gives op ha ho := memo_gives p ha op ho
  bound ha := (byte_exactly p hb).bound ha.toByte
  small := hb

end Verif
