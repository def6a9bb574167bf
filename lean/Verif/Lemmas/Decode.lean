import Verif.Spec.Laws
/-
Structural laws of pure decoders: closure under the decoder primitives.
-/
namespace Verif

variable {α β : Type}

theorem DecRes.bind_eq_ok {x : DecRes α} {f : α → Bytes → DecRes β} {b : β} {r : Bytes} :
    x.bind f = .ok b r ↔ ∃ a r', x = .ok a r' ∧ f a r' = .ok b r := by
  cases x with
  | ok a r' =>
    simp only [DecRes.bind_ok, DecRes.ok.injEq]
    constructor
    · intro h; exact ⟨a, r', ⟨rfl, rfl⟩, h⟩
    · rintro ⟨_, _, ⟨rfl, rfl⟩, h⟩; exact h
  | err e => simp [DecRes.bind]
  | panic => simp [DecRes.bind]
  | diverge => simp [DecRes.bind]
  | wild => simp [DecRes.bind]

theorem D.map_eq_ok {d : D α} {f : α → β} {b : β} {v r : Bytes} :
    (f <$> d) v = .ok b r ↔ ∃ a, d v = .ok a r ∧ f a = b := by
  rw [D.map_run, DecRes.bind_eq_ok]
  constructor
  · rintro ⟨a, r', h, h'⟩; cases h'; exact ⟨a, h, rfl⟩
  · rintro ⟨a, h, rfl⟩; exact ⟨a, r, h, rfl⟩

theorem D.bind_eq_ok {d : D α} {f : α → D β} {b : β} {v r : Bytes} :
    (d >>= f) v = .ok b r ↔ ∃ a r', d v = .ok a r' ∧ f a r' = .ok b r := by
  rw [D.bind_run, DecRes.bind_eq_ok]

theorem D.take_append {a : Bytes} {n : Nat} (h : a.length = n) (t : Bytes) : D.take n (a ++ t) = .ok a t := by
  subst h
  simp [D.take]

theorem D.take_eq_ok {n : Nat} {v a r : Bytes} : D.take n v = .ok a r ↔ a.length = n ∧ v = a ++ r := by
  constructor
  · intro h
    simp only [D.take] at h
    split at h
    · rename_i hn
      cases h
      exact ⟨by simp [hn], (List.take_append_drop n v).symm⟩
    · simp only [D.short] at h
      split at h <;> cases h
  · rintro ⟨h, rfl⟩
    exact D.take_append h r

/-! ### reading a prefix -/

namespace ReadsPrefix

theorem pure (a : α) : ReadsPrefix (pure a : D α) := by
  intro v b r h
  cases h
  exact ⟨[], rfl⟩

theorem throw (e : ParseError) : ReadsPrefix (D.throw e : D α) := fun _ _ _ h => by cases h
theorem panic : ReadsPrefix (D.panic : D α) := fun _ _ _ h => by cases h

theorem bind {d : D α} {f : α → D β} (hd : ReadsPrefix d) (hf : ∀ a, ReadsPrefix (f a)) : ReadsPrefix (d >>= f) := by
  intro v b r h
  obtain ⟨a, r', h1, h2⟩ := D.bind_eq_ok.mp h
  obtain ⟨p, rfl⟩ := hd _ _ _ h1
  obtain ⟨q, rfl⟩ := hf _ _ _ _ h2
  exact ⟨p ++ q, by simp⟩

theorem map {d : D α} (f : α → β) (hd : ReadsPrefix d) : ReadsPrefix (f <$> d) := by
  intro v b r h
  obtain ⟨a, h1, rfl⟩ := D.map_eq_ok.mp h
  exact hd _ _ _ h1

theorem take (n : Nat) : ReadsPrefix (D.take n) := fun _ a _ h => ⟨a, (D.take_eq_ok.mp h).2⟩

theorem byte : ReadsPrefix D.byte := by
  intro v a r h
  cases v with
  | nil => cases h
  | cons b v => cases h; exact ⟨[a], rfl⟩

theorem rest : ReadsPrefix D.rest := by
  intro v a r h
  cases h
  exact ⟨v, by simp⟩

theorem ite {c : Prop} [Decidable c] {d e : D α} (hd : ReadsPrefix d) (he : ReadsPrefix e) :
    ReadsPrefix (if c then d else e) := by
  split
  · exact hd
  · exact he

theorem dite {c : Prop} [Decidable c] {d : c → D α} {e : ¬ c → D α} (hd : ∀ h, ReadsPrefix (d h))
    (he : ∀ h, ReadsPrefix (e h)) : ReadsPrefix (if h : c then d h else e h) := by
  split
  · exact hd _
  · exact he _

theorem ifEmpty {d e : D α} (hd : ReadsPrefix d) (he : ReadsPrefix e) : ReadsPrefix (D.ifEmpty d e) := by
  intro v a r h
  simp only [D.ifEmpty] at h
  split at h
  · exact hd _ _ _ h
  · exact he _ _ _ h

theorem window (n : Nat) (d : D α) : ReadsPrefix (D.window n d) := by
  intro v a r h
  simp only [D.window] at h
  split at h
  · obtain ⟨a', left, _, h2⟩ := DecRes.bind_eq_ok.mp h
    split at h2
    · cases h2
      exact ⟨v.take n, (List.take_append_drop n v).symm⟩
    · cases h2
  · simp only [D.short] at h
    split at h <;> cases h

theorem until_ (f : Byte → Bool) : ReadsPrefix (D.until_ f) := by
  have : ∀ v acc a r, D.until' f acc v = .ok a r → ∃ p, v = p ++ r := by
    intro v
    induction v with
    | nil => intro acc a r h; cases h
    | cons b v ih =>
      intro acc a r h
      simp only [D.until'] at h
      split at h
      · cases h; exact ⟨[b], rfl⟩
      · obtain ⟨p, rfl⟩ := ih _ _ _ h
        exact ⟨b :: p, rfl⟩
  exact fun v a r h => this v [] a r h

theorem many (d : D α) : ReadsPrefix (fun v => D.many d v) := by
  intro v
  induction hl : v.length using Nat.strongRecOn generalizing v with
  | _ n ih =>
    intro as r h
    simp only at h
    unfold D.many at h
    split at h
    · cases h; rename_i hv; exact ⟨[], by simp [hv]⟩
    · split at h
      · rename_i a rest hd
        split at h
        · rename_i hlt
          obtain ⟨as', r', h1, h2⟩ := DecRes.bind_eq_ok.mp h
          cases h2
          have : r = [] ∨ ∃ p, v = p ++ r := by
            obtain ⟨q, hq⟩ := ih _ (hl ▸ hlt) rest rfl _ _ h1
            clear ih
            left
            clear hd hlt h hq
            induction hl' : rest.length using Nat.strongRecOn generalizing rest as' with
            | _ n ih =>
              unfold D.many at h1
              split at h1
              · cases h1; rfl
              · split at h1
                · split at h1
                  · rename_i hlt
                    obtain ⟨as'', r'', h3, h4⟩ := DecRes.bind_eq_ok.mp h1
                    cases h4
                    exact ih _ (hl' ▸ hlt) _ _ h3 rfl
                  · split at h1 <;> cases h1
                all_goals cases h1
          rcases this with rfl | h
          · exact ⟨v, by simp⟩
          · exact h
        · split at h <;> cases h
      all_goals cases h

theorem manyMax (e : ParseError) {d : D α} (hd : ReadsPrefix d) : ∀ k, ReadsPrefix (D.manyMax e d k)
  | 0 => ifEmpty (pure _) (bind hd fun _ => throw _)
  | k + 1 => ifEmpty (pure _) (bind hd fun _ => bind (manyMax e hd k) fun _ => pure _)

theorem upTo {d : D α} (hd : ReadsPrefix d) : ∀ k, ReadsPrefix (D.upTo d k)
  | 0 => pure _
  | k + 1 => ifEmpty (pure _) (bind hd fun _ => bind (upTo hd k) fun _ => pure _)

end ReadsPrefix

/-! ### locality -/

namespace Local

theorem pure (a : α) : Local (pure a : D α) := by
  intro v b r t h
  cases h
  rfl

theorem throw (e : ParseError) : Local (D.throw e : D α) := fun _ _ _ _ h => by cases h
theorem panic : Local (D.panic : D α) := fun _ _ _ _ h => by cases h

theorem bind {d : D α} {f : α → D β} (hd : Local d) (hf : ∀ a, Local (f a)) : Local (d >>= f) := by
  intro v b r t h
  obtain ⟨a, r', h1, h2⟩ := D.bind_eq_ok.mp h
  exact D.bind_eq_ok.mpr ⟨a, _, hd _ _ _ t h1, hf _ _ _ _ t h2⟩

theorem map {d : D α} (f : α → β) (hd : Local d) : Local (f <$> d) := by
  intro v b r t h
  obtain ⟨a, h1, rfl⟩ := D.map_eq_ok.mp h
  exact D.map_eq_ok.mpr ⟨a, hd _ _ _ t h1, rfl⟩

theorem take (n : Nat) : Local (D.take n) := fun _ a _ t h => by
  obtain ⟨h1, rfl⟩ := D.take_eq_ok.mp h
  rw [List.append_assoc]
  exact D.take_append h1 _

theorem byte : Local D.byte := by
  intro v a r t h
  cases v with
  | nil => cases h
  | cons b v => cases h; rfl

theorem ite {c : Prop} [Decidable c] {d e : D α} (hd : Local d) (he : Local e) :
    Local (if c then d else e) := by
  split
  · exact hd
  · exact he

theorem dite {c : Prop} [Decidable c] {d : c → D α} {e : ¬ c → D α} (hd : ∀ h, Local (d h))
    (he : ∀ h, Local (e h)) : Local (if h : c then d h else e h) := by
  split
  · exact hd _
  · exact he _

theorem window (n : Nat) (d : D α) : Local (D.window n d) := by
  intro v a r t h
  simp only [D.window] at h ⊢
  split at h
  · rename_i hn
    rw [if_pos (by simp; omega), List.take_append_of_le_length hn, List.drop_append_of_le_length hn]
    obtain ⟨a', left, h1, h2⟩ := DecRes.bind_eq_ok.mp h
    rw [h1, DecRes.bind_ok]
    split at h2
    · rename_i hl
      cases h2
      rw [if_pos hl]
    · cases h2
  · simp only [D.short] at h
    split at h <;> cases h

theorem until_ (f : Byte → Bool) : Local (D.until_ f) := by
  have : ∀ v acc a r t, D.until' f acc v = .ok a r → D.until' f acc (v ++ t) = .ok a (r ++ t) := by
    intro v
    induction v with
    | nil => intro acc a r t h; cases h
    | cons b v ih =>
      intro acc a r t h
      simp only [D.until', List.cons_append] at h ⊢
      split at h
      · rename_i hb; cases h; rw [if_pos hb]
      · rename_i hb; rw [if_neg hb]; exact ih _ _ _ _ h
  exact fun v a r t h => this v [] a r t h

/-- Exactly `k` elements are read in the same way whatever follows. -/
theorem upTo_full {d : D α} (hd : Local d) : ∀ (k : Nat) (v : Bytes) (l : List α) (r t : Bytes),
    D.upTo d k v = .ok l r → l.length = k → D.upTo d k (v ++ t) = .ok l (r ++ t)
  | 0, v, l, r, t, h, _ => by cases h; rfl
  | k + 1, v, l, r, t, h, hl => by
    simp only [D.upTo, D.ifEmpty] at h ⊢
    split at h
    · cases h
      simp at hl
    · rename_i hv
      rw [if_neg (by simp [hv])]
      obtain ⟨a, r1, h1, h2⟩ := D.bind_eq_ok.mp h
      obtain ⟨as, r2, h3, h4⟩ := D.bind_eq_ok.mp h2
      cases h4
      refine D.bind_eq_ok.mpr ⟨a, _, hd _ _ _ t h1, D.bind_eq_ok.mpr ⟨as, _, ?_, rfl⟩⟩
      exact upTo_full hd k _ _ _ t h3 (by simpa using hl)

end Local

/-! ### totality -/

namespace Total

theorem pure (a : α) : Total (pure a : D α) := fun v => .inl ⟨a, v, rfl⟩
theorem throw (e : ParseError) : Total (D.throw e : D α) := fun _ => .inr ⟨e, rfl⟩

/-- Sequencing; what follows is only run on results of the first decoder. -/
theorem bind_of {d : D α} {f : α → D β} (hd : Total d) (hf : ∀ v a r, d v = .ok a r → Returns (f a r)) :
    Total (d >>= f) := by
  intro v
  rcases hd v with ⟨a, r, h⟩ | ⟨e, h⟩
  · simp only [D.bind_run, h, DecRes.bind_ok]
    exact hf v a r h
  · exact .inr ⟨e, by simp [h]⟩

theorem bind {d : D α} {f : α → D β} (hd : Total d) (hf : ∀ a, Total (f a)) : Total (d >>= f) :=
  bind_of hd fun _ a r _ => hf a r

theorem map {d : D α} (f : α → β) (hd : Total d) : Total (f <$> d) := by
  intro v
  rcases hd v with ⟨a, r, h⟩ | ⟨e, h⟩
  · exact .inl ⟨f a, r, by simp [h]⟩
  · exact .inr ⟨e, by simp [h]⟩

theorem take {n : Nat} (hn : n ≤ isizeMax + 1) : Total (D.take n) := by
  intro v
  simp only [D.take]
  split
  · exact .inl ⟨_, _, rfl⟩
  · exact .inr ⟨_, by simp only [D.short, if_pos hn]; rfl⟩

theorem byte : Total D.byte := by
  intro v
  cases v with
  | nil => exact .inr ⟨_, rfl⟩
  | cons b v => exact .inl ⟨_, _, rfl⟩

theorem rest : Total D.rest := fun v => .inl ⟨v, [], rfl⟩

theorem ite {c : Prop} [Decidable c] {d e : D α} (hd : Total d) (he : Total e) : Total (if c then d else e) := by
  split
  · exact hd
  · exact he

theorem ifEmpty {d e : D α} (hd : Total d) (he : Total e) : Total (D.ifEmpty d e) := by
  intro v
  simp only [D.ifEmpty]
  split
  · exact hd _
  · exact he _

theorem window {n : Nat} (hn : n ≤ isizeMax + 1) {d : D α} (hd : Total d) : Total (D.window n d) := by
  intro v
  simp only [D.window]
  split
  · rcases hd (v.take n) with ⟨a, r, h⟩ | ⟨e, h⟩
    · rw [h, DecRes.bind_ok]
      split
      · exact .inl ⟨_, _, rfl⟩
      · exact .inr ⟨_, rfl⟩
    · exact .inr ⟨e, by rw [h]; rfl⟩
  · exact .inr ⟨_, by simp only [D.short, if_pos hn]; rfl⟩

theorem until_ (f : Byte → Bool) : Total (D.until_ f) := by
  have : ∀ v acc, Returns (D.until' f acc v) := by
    intro v
    induction v with
    | nil => intro acc; exact .inr ⟨_, rfl⟩
    | cons b v ih =>
      intro acc
      simp only [D.until']
      split
      · exact .inl ⟨_, _, rfl⟩
      · exact ih _
  exact fun v => this v []

theorem many {d : D α} (hd : Total d) (hp : Progress d) : Total (fun v => D.many d v) := by
  intro v
  induction hl : v.length using Nat.strongRecOn generalizing v with
  | _ n ih =>
    simp only
    unfold D.many
    split
    · exact .inl ⟨_, _, rfl⟩
    · rcases hd v with ⟨a, r, h⟩ | ⟨e, h⟩
      · have hlt := hp _ _ _ h
        simp only [h, if_pos hlt]
        rcases ih _ (hl ▸ hlt) r rfl with ⟨as, r', h'⟩ | ⟨e, h'⟩
        · exact .inl ⟨_, _, by simp only at h'; rw [h']; rfl⟩
        · exact .inr ⟨_, by simp only at h'; rw [h']; rfl⟩
      · exact .inr ⟨e, by simp only [h]⟩

theorem manyMax (e : ParseError) {d : D α} (hd : Total d) : ∀ k, Total (D.manyMax e d k)
  | 0 => ifEmpty (pure _) (bind hd fun _ => throw _)
  | k + 1 => ifEmpty (pure _) (bind hd fun _ => bind (manyMax e hd k) fun _ => pure _)

theorem upTo {d : D α} (hd : Total d) : ∀ k, Total (D.upTo d k)
  | 0 => pure _
  | k + 1 => ifEmpty (pure _) (bind hd fun _ => bind (upTo hd k) fun _ => pure _)

end Total

/-! ### progress -/

namespace Progress

theorem of_bind_left {d : D α} {f : α → D β} (hd : Progress d) (hf : ∀ a, ReadsPrefix (f a)) :
    Progress (d >>= f) := by
  intro v b r h
  obtain ⟨a, r', h1, h2⟩ := D.bind_eq_ok.mp h
  have := hd _ _ _ h1
  obtain ⟨p, rfl⟩ := hf _ _ _ _ h2
  simp at this
  omega

theorem of_bind_right {d : D α} {f : α → D β} (hd : ReadsPrefix d) (hf : ∀ a, Progress (f a)) :
    Progress (d >>= f) := by
  intro v b r h
  obtain ⟨a, r', h1, h2⟩ := D.bind_eq_ok.mp h
  have := hf _ _ _ _ h2
  obtain ⟨p, rfl⟩ := hd _ _ _ h1
  simp
  omega

theorem map {d : D α} (f : α → β) (hd : Progress d) : Progress (f <$> d) := by
  intro v b r h
  obtain ⟨a, h1, rfl⟩ := D.map_eq_ok.mp h
  exact hd _ _ _ h1

theorem take {n : Nat} (hn : 0 < n) : Progress (D.take n) := by
  intro v a r h
  obtain ⟨h1, rfl⟩ := D.take_eq_ok.mp h
  simp
  omega

theorem byte : Progress D.byte := by
  intro v a r h
  cases v with
  | nil => cases h
  | cons b v => cases h; simp

theorem until_ (f : Byte → Bool) : Progress (D.until_ f) := by
  have : ∀ v acc a r, D.until' f acc v = .ok a r → r.length < v.length := by
    intro v
    induction v with
    | nil => intro acc a r h; cases h
    | cons b v ih =>
      intro acc a r h
      simp only [D.until'] at h
      split at h
      · cases h; simp
      · have := ih _ _ _ h
        simp
        omega
  exact fun v a r h => this v [] a r h

end Progress

end Verif
