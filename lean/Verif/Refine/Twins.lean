import Verif.Refine.Located
import Verif.Lemmas.Recursive
/-
The same code in two states that differ in bytes it does not come to.
-/
namespace Verif

/-- The same position and windows, possibly over other bytes. -/
structure Alike (c c' : Cursor) : Prop where
  pos : c.pos = c'.pos
  top : c.top.length = c'.top.length
  outer : c.outer.map List.length = c'.outer.map List.length

/-- `c1` is further on in the bytes of `c`. -/
structure Follows (c c1 : Cursor) : Prop where
  pos : c.pos ≤ c1.pos
  unread : c1.unread = c.unread.drop (c1.pos - c.pos)
  depth : c1.outer.length = c.outer.length

/-- As `Follows`; windows may have been left open. -/
structure Arrives (c c1 : Cursor) : Prop where
  pos : c.pos ≤ c1.pos
  unread : c1.unread = c.unread.drop (c1.pos - c.pos)

/-- The first `n` unread bytes are the same. -/
def Agree (c c' : Cursor) (n : Nat) : Prop := c.unread.take n = c'.unread.take n

theorem Follows.refl (c : Cursor) : Follows c c := ⟨Nat.le_refl _, by simp, rfl⟩
theorem Arrives.refl (c : Cursor) : Arrives c c := ⟨Nat.le_refl _, by simp⟩
theorem Follows.reaches {c c1 : Cursor} (h : Follows c c1) : Arrives c c1 := ⟨h.pos, h.unread⟩

theorem Arrives.trans {c c1 c2 : Cursor} (h : Arrives c c1) (h' : Arrives c1 c2) : Arrives c c2 where
  pos := Nat.le_trans h.pos h'.pos
  unread := by
    have := h.pos
    have := h'.pos
    rw [h'.unread, h.unread, List.drop_drop]
    congr 1
    omega

theorem Follows.trans {c c1 c2 : Cursor} (h : Follows c c1) (h' : Follows c1 c2) : Follows c c2 :=
  ⟨(h.reaches.trans h'.reaches).pos, (h.reaches.trans h'.reaches).unread, h'.depth.trans h.depth⟩

theorem Agree.mono {c c' : Cursor} {m n : Nat} (h : Agree c c' n) (hm : m ≤ n) : Agree c c' m := by
  unfold Agree at *
  have := congrArg (List.take m) h
  rwa [List.take_take, List.take_take, Nat.min_eq_left hm] at this

theorem Agree.rest {c c' c1 c1' : Cursor} {n : Nat} (hp : c.pos = c'.pos) (hp1 : c1.pos = c1'.pos) (h1 : Arrives c c1)
    (h1' : Arrives c' c1') (h : Agree c c' (n - c.pos)) : Agree c1 c1' (n - c1.pos) := by
  have := h1.pos
  unfold Agree at *
  rw [h1.unread, h1'.unread, ← hp1, ← hp, List.take_drop, List.take_drop]
  have e : c1.pos - c.pos + (n - c1.pos) = n - c.pos ∨ n - c1.pos = 0 := by omega
  rcases e with e | e
  · rw [e, h]
  · rw [e, Nat.add_zero, List.drop_take, List.drop_take]
    simp

variable {α β σ σ' : Type}

/-- What `f` does from `c`, and that it does the same from every state that agrees with it up to where it stops. -/
def Twin (A : σ → Cursor → Prop) (A' : σ' → Cursor → Prop) (Q : α → Prop) (c : Cursor) (g : σ' → Out σ' ParseError α) :
    Out σ ParseError α → Prop
  | .ok a s1 => Q a ∧ ∃ c1, A s1 c1 ∧ Follows c c1 ∧ ∀ c' s', A' s' c' → Alike c c' → Agree c c' (c1.pos - c.pos) →
      ∃ s1' c1', g s' = .ok a s1' ∧ A' s1' c1' ∧ Alike c1 c1' ∧ Follows c' c1'
  | .err e s1 => ∃ c1, A s1 c1 ∧ Arrives c c1 ∧ ∀ c' s', A' s' c' → Alike c c' → Agree c c' (c1.pos - c.pos) →
      ∃ s1' c1', g s' = .err e s1' ∧ A' s1' c1' ∧ Alike c1 c1'
  | _ => True

def Twins (P : ParserOps σ) (P' : ParserOps σ') (A : σ → Cursor → Prop) (A' : σ' → Cursor → Prop) (f : ParseFn α)
    (Q : α → Prop) : Prop := ∀ c s, A s c → Twin A A' Q c (f σ' P') (f σ P s)

variable {P : ParserOps σ} {P' : ParserOps σ'} {A : σ → Cursor → Prop} {A' : σ' → Cursor → Prop} {p : Profile} {len : Nat}
  {E : ParseError → Prop}

theorem Twin.weaken {Q Q' : α → Prop} (h : ∀ a, Q a → Q' a) {c : Cursor} {g : σ' → Out σ' ParseError α}
    {x : Out σ ParseError α} (ht : Twin A A' Q c g x) : Twin A A' Q' c g x := by
  cases x with
  | ok a s => exact ⟨h a ht.1, ht.2⟩
  | _ => exact ht

/-- Going on after something that succeeded. -/
theorem Twin.next {Q : α → Prop} {Q' : β → Prop} {c : Cursor} {a : α} {s1 : σ} {g : σ' → Out σ' ParseError α}
    (h : Twin A A' Q c g (.ok a s1)) {k : σ' → Out σ' ParseError β} {y : Out σ ParseError β}
    (hk : ∀ c1, A s1 c1 → Twin A A' Q' c1 k y) {g' : σ' → Out σ' ParseError β}
    (hg : ∀ s' s1', g s' = .ok a s1' → g' s' = k s1') : Twin A A' Q' c g' y := by
  obtain ⟨_, c1, h1, h2, h3⟩ := h
  have hy := hk c1 h1
  have hp := h2.pos
  cases y with
  | ok b s2 =>
    obtain ⟨hq, c2, h4, h5, h6⟩ := hy
    have hp' := h5.pos
    refine ⟨hq, c2, h4, h2.trans h5, fun c' s' ha' hal hag => ?_⟩
    obtain ⟨s1', c1', e, h7, h8, h9⟩ := h3 c' s' ha' hal (hag.mono (by omega))
    obtain ⟨s2', c2', e', h10, h11, h12⟩ := h6 c1' s1' h7 h8 (Agree.rest hal.pos h8.pos h2.reaches h9.reaches hag)
    exact ⟨s2', c2', by rw [hg s' s1' e, e'], h10, h11, h9.trans h12⟩
  | err e s2 =>
    obtain ⟨c2, h4, h5, h6⟩ := hy
    have hp' := h5.pos
    refine ⟨c2, h4, h2.reaches.trans h5, fun c' s' ha' hal hag => ?_⟩
    obtain ⟨s1', c1', e, h7, h8, h9⟩ := h3 c' s' ha' hal (hag.mono (by omega))
    obtain ⟨s2', c2', e', h10, h11⟩ := h6 c1' s1' h7 h8 (Agree.rest hal.pos h8.pos h2.reaches h9.reaches hag)
    exact ⟨s2', c2', by rw [hg s' s1' e, e'], h10, h11⟩
  | _ => trivial

/-- An error ends it. -/
theorem Twin.stop {Q : α → Prop} {Q' : β → Prop} {c : Cursor} {e : ParseError} {s1 : σ} {g : σ' → Out σ' ParseError α}
    (h : Twin A A' Q c g (.err e s1)) {g' : σ' → Out σ' ParseError β} (hg : ∀ s' s1', g s' = .err e s1' → g' s' = .err e s1') :
    Twin A A' Q' c g' (.err e s1) := by
  obtain ⟨c1, h1, h2, h3⟩ := h
  refine ⟨c1, h1, h2, fun c' s' ha' hal hag => ?_⟩
  obtain ⟨s1', c1', e, h4⟩ := h3 c' s' ha' hal hag
  exact ⟨s1', c1', hg s' s1' e, h4⟩

theorem Twins.bind {Q : α → Prop} {Q' : β → Prop} {f : ParseFn α} {g : α → ParseFn β} (hf : Twins P P' A A' f Q)
    (hg : ∀ a, Q a → Twins P P' A A' (g a) Q') : Twins P P' A A' (fun σ P => f σ P >>= fun a => g a σ P) Q' := by
  intro c s ha
  have h := hf c s ha
  show Twin A A' Q' c _ ((f σ P s).bind _)
  generalize f σ P s = x at h
  cases x with
  | ok a s1 => exact h.next (fun c1 h1 => hg a h.1 c1 s1 h1) fun s' s1' e => bind_of_ok e
  | err e s1 => exact h.stop fun s' s1' e => bind_of_err e
  | _ => trivial

theorem Twins.iterN {I : β → Prop} {Q : α → Prop} {body : β → ParseFn (β ⊕ α)}
    (h : ∀ b, I b → Twins P P' A A' (body b) (Sum.elim I Q)) : ∀ (n : Nat) (b : β), I b → ∀ c s x, A s c →
      Verif.iterN (fun b => body b σ P) n b s = some x → Twin A A' Q c (iterM (fun b => body b σ' P') b) x
  | 0, _, _, _, _, _, _, hx => by cases hx
  | n + 1, b, hb, c, s, x, ha, hx => by
    have ht := h b hb c s ha
    simp only [Verif.iterN] at hx
    generalize body b σ P s = y at ht hx
    cases y with
    | ok r s1 =>
      cases r with
      | inl b' =>
        exact ht.next (fun c1 h1 => Twins.iterN h n b' ht.1 c1 s1 x h1 hx) fun s' s1' e => by rw [iterM_unfold, e]; rfl
      | inr a =>
        cases hx
        obtain ⟨h0, c1, h1, h2, h3⟩ := ht
        refine ⟨h0, c1, h1, h2, fun c' s' ha' hal hag => ?_⟩
        obtain ⟨s1', c1', e, h4⟩ := h3 c' s' ha' hal hag
        exact ⟨s1', c1', by rw [iterM_unfold, e]; rfl, h4⟩
    | err e s1 =>
      cases hx
      exact ht.stop fun s' s1' e => by rw [iterM_unfold, e]; rfl
    | panic => cases hx; trivial
    | ub => cases hx; trivial
    | diverge => cases hx; trivial

theorem Twins.loop {I : β → Prop} {Q : α → Prop} {body : β → ParseFn (β ⊕ α)} (b : β) (hb : I b)
    (h : ∀ b, I b → Twins P P' A A' (body b) (Sum.elim I Q)) :
    Twins P P' A A' (fun σ P => iterM (fun b => body b σ P) b) Q := by
  intro c s ha
  by_cases hn : ∀ n, Verif.iterN (fun b => body b σ P) n b s = none
  · simp only [iterM_eq_diverge hn]
    trivial
  · obtain ⟨n, hn⟩ := Classical.not_forall.mp hn
    obtain ⟨x, hx⟩ := Option.ne_none_iff_exists'.mp hn
    simp only [iterM_of_iterN hx]
    exact Twins.iterN h n b hb c s x ha hx

/-! ### single operations -/

theorem Follows.adv {c : Cursor} {n : Nat} (h : n ≤ c.top.length) : Follows c (c.adv n) where
  pos := Nat.le_add_right _ _
  unread := by
    simp only [Cursor.adv, Cursor.unread, Nat.add_sub_cancel_left]
    rw [List.drop_append_of_le_length h]
  depth := rfl

theorem Alike.adv {c c' : Cursor} (h : Alike c c') (n : Nat) : Alike (c.adv n) (c'.adv n) where
  pos := congrArg (· + n) h.pos
  top := by simp only [Cursor.adv, List.length_drop, h.top]
  outer := h.outer

theorem Agree.take {c c' : Cursor} {n : Nat} (hal : Alike c c') (hn : n ≤ c.top.length) (h : Agree c c' ((c.adv n).pos - c.pos)) :
    c.top.take n = c'.top.take n := by
  simp only [Agree, Cursor.adv, Cursor.unread, Nat.add_sub_cancel_left] at h
  rwa [List.take_append_of_le_length hn, List.take_append_of_le_length (hal.top ▸ hn)] at h

theorem Alike.nil {c c' : Cursor} (h : Alike c c') (ht : c.top = []) : c'.top = [] := by
  have := h.top
  rw [ht] at this
  exact List.eq_nil_of_length_eq_zero this.symm

theorem Alike.shortErr {c c' : Cursor} (h : Alike c c') (n : Nat) : c'.shortErr n = c.shortErr n := by
  simp only [Cursor.shortErr, h.pos, h.top]

theorem Told.same {c c' : Cursor} (h : Alike c c') {e e' : ParseError} {l l' n : Nat}
    (ht : Told p len c e (.window (.openWouldExceedWindow l n))) (ht' : Told p len c' e' (.window (.openWouldExceedWindow l' n))) :
    e' = e := by
  have hp := h.pos
  have hl := h.top
  cases ht with
  | buffer _ h1 _ =>
    cases ht' with
    | buffer _ h2 _ => rfl
    | window _ _ h2 => omega
  | window _ _ h1 =>
    cases ht' with
    | buffer _ h2 _ => omega
    | window _ _ h2 => rw [hp, hl]

section
variable (X : Exactly P p len A) (X' : Exactly P' p len A')
include X X'

theorem Twins.consumeByte : Twins P P' A A' (fun _ P => P.consumeByte) (fun _ => True) := by
  intro c s ha
  rcases X.byte ha with ⟨b, v, s1, h1, h2, h3⟩ | ⟨s1, h1, h2, h3⟩
  · simp only [h2]
    have hl : 1 ≤ c.top.length := by rw [h1]; exact Nat.succ_le_succ (Nat.zero_le _)
    refine ⟨trivial, c.adv 1, h3, Follows.adv hl, fun c' s' ha' hal hag => ?_⟩
    have ht := hag.take hal hl
    rcases X'.byte ha' with ⟨b', v', s1', h1', h2', h3'⟩ | ⟨s1', h1', h2', h3'⟩
    · rw [h1, h1'] at ht
      cases ht
      exact ⟨s1', _, h2', h3', hal.adv 1, Follows.adv (by rw [h1']; exact Nat.succ_le_succ (Nat.zero_le _))⟩
    · rw [h1, h1'] at ht
      cases ht
  · simp only [h2]
    refine ⟨c, h3, Arrives.refl c, fun c' s' ha' hal hag => ?_⟩
    rcases X'.byte ha' with ⟨b', v', s1', h1', h2', h3'⟩ | ⟨s1', h1', h2', h3'⟩
    · rw [hal.nil h1] at h1'; cases h1'
    · exact ⟨s1', c', by rw [h2', hal.shortErr], h3', hal⟩

theorem Twins.remainder : Twins P P' A A' (fun _ P => P.remainder) (· ≤ isizeMax) := by
  intro c s ha
  have hb := X.bound ha
  have hs := X.small
  obtain ⟨s1, h1, h2⟩ := X.remainder ha
  simp only [h1]
  refine ⟨by omega, c, h2, Follows.refl c, fun c' s' ha' hal hag => ?_⟩
  obtain ⟨s1', h1', h2'⟩ := X'.remainder ha'
  exact ⟨s1', c', by rw [h1', hal.top], h2', hal, Follows.refl c'⟩

theorem Twins.next : Twins P P' A A' (fun _ P => P.iterNext) (fun _ => True) := by
  intro c s ha
  show Twin A A' _ c P'.iterNext (P.iterNext s)
  have h : Twin A A' _ c P'.consumeByte (P.consumeByte s) := Twins.consumeByte X X' c s ha
  rcases X.byte ha with ⟨b, v, s1, h1, h2, h3⟩ | ⟨s1, h1, h2, h3⟩
  · rw [h2] at h
    rw [show P.iterNext s = .ok (some b) s1 by simp only [ParserOps.iterNext, h2]]
    obtain ⟨_, c1, h4, h5, h6⟩ := h
    refine ⟨trivial, c1, h4, h5, fun c' s' ha' hal hag => ?_⟩
    obtain ⟨s1', c1', e, h7⟩ := h6 c' s' ha' hal hag
    exact ⟨s1', c1', by simp only [ParserOps.iterNext, e], h7⟩
  · rw [show P.iterNext s = .ok none s1 by simp only [ParserOps.iterNext, h2]]
    refine ⟨trivial, c, h3, Follows.refl c, fun c' s' ha' hal hag => ?_⟩
    rcases X'.byte ha' with ⟨b', v', s1', h1', h2', h3'⟩ | ⟨s1', h1', h2', h3'⟩
    · rw [hal.nil h1] at h1'; cases h1'
    · exact ⟨s1', c', by simp only [ParserOps.iterNext, h2'], h3', hal, Follows.refl c'⟩

theorem Twins.selfTerm (f : Byte → Bool) (ret : Bytes) :
    Twins P P' A A' (fun _ P => P.selfTermBody f ret) (Sum.elim (fun _ => True) fun _ => True) := by
  intro c s ha
  show Twin A A' _ c (P'.selfTermBody f ret) (P.selfTermBody f ret s)
  have h : Twin A A' _ c P'.consumeByte (P.consumeByte s) := Twins.consumeByte X X' c s ha
  rcases X.byte ha with ⟨b, v, s1, h1, h2, h3⟩ | ⟨s1, h1, h2, h3⟩
  · rw [h2] at h
    obtain ⟨_, c1, h4, h5, h6⟩ := h
    by_cases hb : f b = true
    · rw [show P.selfTermBody f ret s = .ok (.inr (ret ++ [b])) s1 by simp only [ParserOps.selfTermBody, h2, if_pos hb]]
      refine ⟨trivial, c1, h4, h5, fun c' s' ha' hal hag => ?_⟩
      obtain ⟨s1', c1', e, h7⟩ := h6 c' s' ha' hal hag
      exact ⟨s1', c1', by simp only [ParserOps.selfTermBody, e, if_pos hb], h7⟩
    · rw [show P.selfTermBody f ret s = .ok (.inl (ret ++ [b])) s1 by simp only [ParserOps.selfTermBody, h2, if_neg hb]]
      refine ⟨trivial, c1, h4, h5, fun c' s' ha' hal hag => ?_⟩
      obtain ⟨s1', c1', e, h7⟩ := h6 c' s' ha' hal hag
      exact ⟨s1', c1', by simp only [ParserOps.selfTermBody, e, if_neg hb], h7⟩
  · rw [h2] at h
    rw [show P.selfTermBody f ret s = .err (.token (.nonTerminating ret)) s1 by simp only [ParserOps.selfTermBody, h2]]
    obtain ⟨c1, h4, h5, h6⟩ := h
    refine ⟨c1, h4, h5, fun c' s' ha' hal hag => ?_⟩
    obtain ⟨s1', c1', e, h7⟩ := h6 c' s' ha' hal hag
    exact ⟨s1', c1', by simp only [ParserOps.selfTermBody, e], h7⟩

/-- What is composed of parser calls does not depend on bytes it does not come to. -/
theorem Composed.twins {f : ParseFn α} {Q : α → Prop} (h : Composed E f Q) : Twins P P' A A' f Q := by
  induction h with
  | pure a h => exact fun c s ha => ⟨h, c, ha, Follows.refl c, fun c' s' ha' hal _ => ⟨s', c', rfl, ha', hal, Follows.refl c'⟩⟩
  | bind _ _ ihf ihg => exact Twins.bind ihf ihg
  | weaken h _ ih => exact fun c s ha => (ih c s ha).weaken h
  | throw e h => exact fun c s ha => ⟨c, ha, Arrives.refl c, fun c' s' ha' hal _ => ⟨s', c', rfl, ha', hal⟩⟩
  | panic => exact fun _ _ _ => trivial
  | loop b hb _ ih => exact Twins.loop b hb ih
  | @recur α Q f _ hs ih =>
    intro c s ha
    show Twin A A' Q c (recM fun n => f n σ' P') (recM (fun n => f n σ P) s)
    rcases recM_cases (f := fun n => f n σ P) (fun n s => hs n σ P s) s with ⟨n, h1, h2⟩ | ⟨h1, h2⟩
    · have ht : Twin A A' Q c (f n σ' P') (f n σ P s) := ih n c s ha
      have e : ∀ s', f n σ' P' s' ≠ .diverge → recM (fun n => f n σ' P') s' = f n σ' P' s' := fun s' h =>
        recM_eq (f := fun n => f n σ' P') (fun n s => hs n σ' P' s) h
      rw [h2]
      revert ht
      generalize f n σ P s = x
      intro ht
      cases x with
      | ok a s1 =>
        obtain ⟨hq, c1, h3, h4, h5⟩ := ht
        refine ⟨hq, c1, h3, h4, fun c' s' ha' hal hag => ?_⟩
        obtain ⟨s1', c1', h6, h7⟩ := h5 c' s' ha' hal hag
        exact ⟨s1', c1', by rw [e s' (by rw [h6]; nofun), h6], h7⟩
      | err er s1 =>
        obtain ⟨c1, h3, h4, h5⟩ := ht
        refine ⟨c1, h3, h4, fun c' s' ha' hal hag => ?_⟩
        obtain ⟨s1', c1', h6, h7⟩ := h5 c' s' ha' hal hag
        exact ⟨s1', c1', by rw [e s' (by rw [h6]; nofun), h6], h7⟩
      | _ => trivial
    · rw [h2]
      trivial
  | remainder => exact Twins.remainder X X'
  | consumeByte => exact Twins.consumeByte X X'
  | next => exact Twins.next X X'
  | consume n hn =>
    intro c s ha
    rcases X.consume ha hn with ⟨s1, h1, h2, h3⟩ | ⟨s1, h1, h2, h3⟩
    · simp only [h2]
      refine ⟨by show (c.top.take n).length = n; rw [List.length_take]; omega, c.adv n, h3, Follows.adv h1, fun c' s' ha' hal hag => ?_⟩
      have ht := hag.take hal h1
      have hl := hal.top
      rcases X'.consume ha' hn with ⟨s1', h1', h2', h3'⟩ | ⟨s1', h1', _⟩
      · exact ⟨s1', _, by rw [h2', ht], h3', hal.adv n, Follows.adv h1'⟩
      · omega
    · simp only [h2]
      refine ⟨c, h3, Arrives.refl c, fun c' s' ha' hal hag => ?_⟩
      have hl := hal.top
      rcases X'.consume ha' hn with ⟨s1', h1', _⟩ | ⟨s1', h1', h2', h3'⟩
      · omega
      · exact ⟨s1', c', by rw [h2', hal.shortErr], h3', hal⟩
  | selfTerminating f =>
    refine Twins.bind (Twins.remainder X X') fun n hn => ?_
    intro c s ha
    simp only [if_neg (Nat.not_lt.mpr hn)]
    exact Twins.loop (I := fun _ => True) [] trivial (fun b _ => Twins.selfTerm X X' f b) c s ha
  | skip n =>
    intro c s ha
    have hb := X.bound ha
    have hs := X.small
    obtain ⟨s1, h1, h2⟩ := X.skip ha n
    simp only [h1]
    refine ⟨⟨by omega, Nat.min_le_right _ _⟩, _, h2, Follows.adv (Nat.min_le_left _ _), fun c' s' ha' hal hag => ?_⟩
    obtain ⟨s1', h1', h2'⟩ := X'.skip ha' n
    rw [← hal.top] at h1' h2'
    exact ⟨s1', _, h1', h2', hal.adv _, Follows.adv (hal.top ▸ Nat.min_le_left _ _)⟩
  | skipExactly n hn =>
    intro c s ha
    rcases X.skipExactly ha hn with ⟨s1, h1, h2, h3⟩ | ⟨s1, h1, h2, h3⟩
    · simp only [h2]
      refine ⟨trivial, c.adv n, h3, Follows.adv h1, fun c' s' ha' hal hag => ?_⟩
      have hl := hal.top
      rcases X'.skipExactly ha' hn with ⟨s1', h1', h2', h3'⟩ | ⟨s1', h1', _⟩
      · exact ⟨s1', _, h2', h3', hal.adv n, Follows.adv h1'⟩
      · omega
    · simp only [h2]
      refine ⟨c, h3, Arrives.refl c, fun c' s' ha' hal hag => ?_⟩
      have hl := hal.top
      rcases X'.skipExactly ha' hn with ⟨s1', h1', _⟩ | ⟨s1', h1', h2', h3'⟩
      · omega
      · exact ⟨s1', c', by rw [h2', hal.shortErr], h3', hal⟩
  | caught h =>
    cases h with
    | remainder =>
      intro c s ha
      have hb := X.bound ha
      have hs := X.small
      obtain ⟨s1, h1, h2⟩ := X.remainder ha
      simp only [M.caught, h1]
      refine ⟨fun a h => by cases h; omega, c, h2, Follows.refl c, fun c' s' ha' hal hag => ?_⟩
      obtain ⟨s1', h1', h2'⟩ := X'.remainder ha'
      exact ⟨s1', c', by simp only [M.caught, h1', hal.top], h2', hal, Follows.refl c'⟩
    | consumeByte =>
      intro c s ha
      have h : Twin A A' _ c P'.iterNext (P.iterNext s) := Twins.next X X' c s ha
      have e : P.iterNext s = M.caught P.consumeByte s := by
        simp only [M.caught, ParserOps.iterNext]; cases P.consumeByte s <;> rfl
      have e' : P'.iterNext = M.caught P'.consumeByte := by
        funext s; simp only [M.caught, ParserOps.iterNext]; cases P'.consumeByte s <;> rfl
      rw [e, e'] at h
      exact h.weaken fun _ _ _ _ => trivial
    | skip n =>
      intro c s ha
      have hb := X.bound ha
      have hs := X.small
      obtain ⟨s1, h1, h2⟩ := X.skip ha n
      simp only [M.caught, h1]
      refine ⟨fun a h => by cases h; exact ⟨by omega, Nat.min_le_right _ _⟩, _, h2, Follows.adv (Nat.min_le_left _ _), fun c' s' ha' hal hag => ?_⟩
      obtain ⟨s1', h1', h2'⟩ := X'.skip ha' n
      rw [← hal.top] at h1' h2'
      exact ⟨s1', _, by simp only [M.caught, h1'], h2', hal.adv _, Follows.adv (hal.top ▸ Nat.min_le_left _ _)⟩
    | consume n hn =>
      intro c s ha
      rcases X.consume ha hn with ⟨s1, h1, h2, h3⟩ | ⟨s1, h1, h2, h3⟩
      · simp only [M.caught, h2]
        refine ⟨fun bs hb => by cases hb; rw [List.length_take]; omega, c.adv n, h3, Follows.adv h1, fun c' s' ha' hal hag => ?_⟩
        have hl := hal.top
        rcases X'.consume ha' hn with ⟨s1', h1', h2', h3'⟩ | ⟨s1', h1', _⟩
        · exact ⟨s1', _, by simp only [M.caught, h2', hag.take hal h1], h3', hal.adv n, Follows.adv h1'⟩
        · omega
      · simp only [M.caught, h2]
        refine ⟨nofun, c, h3, Follows.refl c, fun c' s' ha' hal hag => ?_⟩
        have hl := hal.top
        rcases X'.consume ha' hn with ⟨s1', h1', _⟩ | ⟨s1', h1', h2', h3'⟩
        · omega
        · exact ⟨s1', c', by simp only [M.caught, h2'], h3', hal, Follows.refl c'⟩
    | skipExactly n hn =>
      intro c s ha
      rcases X.skipExactly ha hn with ⟨s1, h1, h2, h3⟩ | ⟨s1, h1, h2, h3⟩
      · simp only [M.caught, h2]
        refine ⟨(fun _ _ => trivial), c.adv n, h3, Follows.adv h1, fun c' s' ha' hal hag => ?_⟩
        have hl := hal.top
        rcases X'.skipExactly ha' hn with ⟨s1', h1', h2', h3'⟩ | ⟨s1', h1', _⟩
        · exact ⟨s1', _, by simp only [M.caught, h2'], h3', hal.adv n, Follows.adv h1'⟩
        · omega
      · simp only [M.caught, h2]
        refine ⟨nofun, c, h3, Follows.refl c, fun c' s' ha' hal hag => ?_⟩
        have hl := hal.top
        rcases X'.skipExactly ha' hn with ⟨s1', h1', _⟩ | ⟨s1', h1', h2', h3'⟩
        · omega
        · exact ⟨s1', c', by simp only [M.caught, h2'], h3', hal, Follows.refl c'⟩
  | @window α Q f n hn hf ih =>
    intro c s ha
    dsimp only
    rcases X.setFit ha hn with ⟨s1, h1, h2, h3⟩ | ⟨e, s1, h1, h2, h3, h4⟩ | ⟨h1, h2, h3⟩
    · rw [bind_of_ok h2]
      have hin := ih _ s1 h3
      show Twin A A' Q c _ ((f σ P s1).bind _)
      -- the twin opens its window as well
      have open' : ∀ c' s', A' s' c' → Alike c c' → ∃ s1', P'.setFit n s' = .ok () s1' ∧
          A' s1' { c' with top := c'.top.take n, outer := c'.top.drop n :: c'.outer } ∧
          Alike { c with top := c.top.take n, outer := c.top.drop n :: c.outer }
            { c' with top := c'.top.take n, outer := c'.top.drop n :: c'.outer } := by
        intro c' s' ha' hal
        have hl := hal.top
        rcases X'.setFit ha' hn with ⟨s1', h1', h2', h3'⟩ | ⟨e, s1', h1', _⟩ | ⟨_, h1', _⟩
        · refine ⟨s1', h2', h3', ⟨hal.pos, ?_, ?_⟩⟩
          · simp only [List.length_take, hl]
          · simp only [List.map_cons, List.length_drop, hl, hal.outer]
        · omega
        · have := X.bound ha
          omega
      have un : ∀ c : Cursor, Cursor.unread { c with top := c.top.take n, outer := c.top.drop n :: c.outer } = c.unread := by
        intro c
        simp only [Cursor.unread, List.flatten_cons]
        rw [← List.append_assoc, List.take_append_drop]
      generalize f σ P s1 = x at hin
      cases x with
      | ok a s2 =>
        obtain ⟨hq, c2, h4, h5, h6⟩ := hin
        have hd := h5.depth
        simp only [Out.bind_ok]
        obtain ⟨v, vs, ho⟩ : ∃ v vs, c2.outer = v :: vs := by
          cases h : c2.outer with
          | nil => rw [h] at hd; simp at hd
          | cons v vs => exact ⟨v, vs, rfl⟩
        have hvs : vs.length = c.outer.length := by rw [ho] at hd; simpa using hd
        have hun : Cursor.unread { c2 with top := c2.top ++ v, outer := vs } = c2.unread := by
          simp only [Cursor.unread, ho, List.flatten_cons, List.append_assoc]
        have hre : Arrives c { c2 with top := c2.top ++ v, outer := vs } := ⟨h5.pos, by rw [hun, h5.unread, un c]⟩
        -- the twin after the payload
        have close' : ∀ c' s', A' s' c' → Alike c c' → Agree c c' (c2.pos - c.pos) → ∃ s1' s2' c2' v' vs',
            P'.setFit n s' = .ok () s1' ∧ f σ' P' s1' = .ok a s2' ∧ A' s2' c2' ∧ Alike c2 c2' ∧ c2'.outer = v' :: vs' ∧
            Follows c' { c2' with top := c2'.top ++ v', outer := vs' } ∧
            Alike { c2 with top := c2.top ++ v, outer := vs } { c2' with top := c2'.top ++ v', outer := vs' } := by
          intro c' s' ha' hal hag
          obtain ⟨s1', h1', h2', h3'⟩ := open' c' s' ha' hal
          obtain ⟨s2', c2', e, h4', h5', h6'⟩ := h6 _ s1' h2' h3' (by unfold Agree; rw [un c, un c']; exact hag)
          have hm := h5'.outer
          rw [ho] at hm
          cases ho' : c2'.outer with
          | nil => rw [ho'] at hm; cases hm
          | cons v' vs' =>
            rw [ho'] at hm
            simp only [List.map_cons, List.cons.injEq] at hm
            have hun' : Cursor.unread { c2' with top := c2'.top ++ v', outer := vs' } = c2'.unread := by
              simp only [Cursor.unread, ho', List.flatten_cons, List.append_assoc]
            refine ⟨s1', s2', c2', v', vs', h1', e, h4', h5', ho', ⟨h6'.pos, ?_, ?_⟩, ⟨h5'.pos, ?_, hm.2⟩⟩
            · rw [hun', h6'.unread, un c']
            · have := h6'.depth
              rw [ho'] at this
              simpa using this
            · simp only [List.length_append, h5'.top, hm.1]
        rcases X.enforce h4 ho with ⟨s3, h7, h8, h9⟩ | ⟨s3, h7, h8, h9⟩
        · rw [bind_of_ok h8]
          refine ⟨hq, _, h9, ⟨hre.pos, hre.unread, hvs⟩, fun c' s' ha' hal hag => ?_⟩
          obtain ⟨s1', s2', c2', v', vs', e1, e2, h4', h5', ho', h6', h7'⟩ := close' c' s' ha' hal hag
          rcases X'.enforce h4' ho' with ⟨s3', _, h8', h9'⟩ | ⟨s3', h8', _⟩
          · exact ⟨s3', _, by rw [bind_of_ok e1, bind_of_ok e2, bind_of_ok h8']; rfl, h9', h7', h6'⟩
          · exact absurd (h5'.nil h7) h8'
        · rw [bind_of_err h8]
          refine ⟨_, h9, hre, fun c' s' ha' hal hag => ?_⟩
          obtain ⟨s1', s2', c2', v', vs', e1, e2, h4', h5', ho', h6', h7'⟩ := close' c' s' ha' hal hag
          rcases X'.enforce h4' ho' with ⟨s3', h8', _⟩ | ⟨s3', _, h8', h9'⟩
          · refine absurd (List.eq_nil_of_length_eq_zero ?_) h7
            rw [h5'.top, h8']
            rfl
          · exact ⟨s3', _, by rw [bind_of_ok e1, bind_of_ok e2, bind_of_err h8', h5'.top], h9', h7'⟩
      | err e s2 =>
        obtain ⟨c2, h4, h5, h6⟩ := hin
        refine ⟨c2, h4, ⟨h5.pos, by rw [h5.unread, un c]⟩, fun c' s' ha' hal hag => ?_⟩
        obtain ⟨s1', h1', h2', h3'⟩ := open' c' s' ha' hal
        obtain ⟨s2', c2', e, h4', h5'⟩ := h6 _ s1' h2' h3' (by unfold Agree; rw [un c, un c']; exact hag)
        exact ⟨s2', c2', by rw [bind_of_ok h1', bind_of_err e], h4', h5'⟩
      | _ => trivial
    · rw [bind_of_err h2]
      refine ⟨c, h3, Arrives.refl c, fun c' s' ha' hal hag => ?_⟩
      have hl := hal.top
      rcases X'.setFit ha' hn with ⟨s1', h1', _⟩ | ⟨e', s1', h1', h2', h3', h4'⟩ | ⟨hp, h1', _⟩
      · omega
      · exact ⟨s1', c', by rw [bind_of_err h2', h4.same hal h4'], h3', hal⟩
      · cases h4 with
        | buffer _ _ h5 => exact absurd (h5 hp) (by omega)
        | window _ _ h5 => omega
    · show Twin A A' Q c _ ((P.setFit n s).bind _)
      rw [h3]
      trivial

end

/-! ### recursive types -/

/-- A `parse` that runs in step with every parser and does not depend on bytes it does not come to. -/
structure Codec.Steady (c : Codec α) : Prop where
  locks : ∀ {σ : Type} {P : ParserOps σ} {A : σ → Cursor → Prop} {p : Profile} {len : Nat}, Exactly P p len A →
    Locks P A p len (fun e => e.isWindow = false) (fun _ P => c.parse P) fun _ => True
  twins : ∀ {σ σ' : Type} {P : ParserOps σ} {P' : ParserOps σ'} {A : σ → Cursor → Prop} {A' : σ' → Cursor → Prop} {p : Profile}
    {len : Nat}, Exactly P p len A → Exactly P' p len A' → Twins P P' A A' (fun _ P => c.parse P) fun _ => True

theorem Codec.Composed.steady {c : Codec α} (h : c.Composed fun e => e.isWindow = false) : c.Steady :=
  ⟨fun X => Verif.Composed.locks X h, fun X X' => Verif.Composed.twins X X' h⟩

theorem Lock.map {Q : α → Prop} {Q' : β → Prop} (g : α → β) (h : ∀ a, Q a → Q' (g a)) {c : Cursor} {f : PM σ α}
    {f' : PM SliceParser α} {s : σ} {t : SliceParser} (hl : Lock A p len E Q c (f s) (f' t)) :
    Lock A p len E Q' c ((g <$> f) s) ((g <$> f') t) := by
  rw [M.map_run, M.map_run]
  generalize f s = x at hl
  generalize f' t = y at hl
  cases hl with
  | ok a s' t' c' q ha ht ho hp => exact .ok (g a) s' t' c' (h a q) ha ht ho hp
  | own e s' t' c' h ha hp => exact .own e s' t' c' h ha hp
  | told e e' s' t' c' ha hp h => exact .told e e' s' t' c' ha hp h
  | panic => exact .panic
  | oversized l n t' hp hl h => exact .oversized l n t' hp hl h
  | diverge => exact .diverge

theorem Lock.diverges {Q : α → Prop} {c : Cursor} {x : Out σ ParseError α} {y : Out SliceParser ParseError α}
    (hl : Lock A p len E Q c x y) : x = .diverge ↔ y = .diverge := by
  cases hl <;> simp

theorem Decls.tame_unfold (d : Decls) {p : Profile} (ht : ∀ j, (d.body j).tame p = true) : ∀ n i, (d.unfold n i).tame p = true
  | 0, _ => rfl
  | n + 1, i => (d.body i).tame_fill p (fun j => Decls.tame_unfold d ht n j) (ht i)

theorem Decls.steady (cfg : Cfg) (d : Decls) (ht : ∀ j, (d.body j).tame cfg.prof = true) (i : Nat) : (d.codec cfg i).Steady where
  locks {σ P A p len} X c s t ha hs := by
    have hl : ∀ n, Lock A p len (fun e => e.isWindow = false) (fun _ => True) c (((d.unfold n i).codec cfg).parse P s)
        (((d.unfold n i).codec cfg).parse SliceParser.ops t) := fun n =>
      ((d.unfold n i).composed (E := fun e => e.isWindow = false) cfg (d.tame_unfold ht n i)).steady.locks X c s t ha hs
    show Lock A p len _ _ c ((d.codec cfg i).parse P s) ((d.codec cfg i).parse SliceParser.ops t)
    by_cases hex : ∃ n, ((d.unfold n i).codec cfg).parse P s ≠ .diverge
    · obtain ⟨n, hn⟩ := hex
      rw [d.parse_eq hn, d.parse_eq (mt (hl n).diverges.mpr hn)]
      exact (hl n).map _ fun _ _ => trivial
    · have hex' : ¬ ∃ n, ((d.unfold n i).codec cfg).parse SliceParser.ops t ≠ .diverge :=
        fun ⟨n, hn⟩ => hex ⟨n, mt (hl n).diverges.mp hn⟩
      rw [show (d.codec cfg i).parse P s = .diverge from dif_neg hex,
        show (d.codec cfg i).parse SliceParser.ops t = .diverge from dif_neg hex']
      exact .diverge
  twins {σ σ' P P' A A' p len} X X' c s ha := by
    show Twin A A' _ c ((d.codec cfg i).parse P') ((d.codec cfg i).parse P s)
    by_cases hex : ∃ n, ((d.unfold n i).codec cfg).parse P s ≠ .diverge
    · obtain ⟨n, hn⟩ := hex
      have ht : Twin A A' _ c (((d.unfold n i).codec cfg).parse P') (((d.unfold n i).codec cfg).parse P s) :=
        ((d.unfold n i).composed (E := fun e => e.isWindow = false) cfg (d.tame_unfold ht n i)).steady.twins X X' c s ha
      rw [d.parse_eq hn, M.map_run]
      generalize ((d.unfold n i).codec cfg).parse P s = x at ht
      cases x with
      | ok a s1 =>
        obtain ⟨_, c1, h1, h2, h3⟩ := ht
        refine ⟨trivial, c1, h1, h2, fun c' s' ha' hal hag => ?_⟩
        obtain ⟨s1', c1', e, h4⟩ := h3 c' s' ha' hal hag
        exact ⟨s1', c1', d.parse_ok e, h4⟩
      | err e s1 =>
        obtain ⟨c1, h1, h2, h3⟩ := ht
        refine ⟨c1, h1, h2, fun c' s' ha' hal hag => ?_⟩
        obtain ⟨s1', c1', e, h4⟩ := h3 c' s' ha' hal hag
        exact ⟨s1', c1', by rw [d.parse_eq (n := n) (by rw [e]; nofun), M.map_run, e]; rfl, h4⟩
      | _ => trivial
    · rw [show (d.codec cfg i).parse P s = .diverge from dif_neg hex]
      trivial

end Verif
