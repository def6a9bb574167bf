import Verif.Lemmas.Structure
/-
What the errors of the decoders of the wire format quote occurs in the input.
-/
namespace Verif

variable {α β : Type}

/-- Whenever `d` fails, `F` says why: of a stretch of the input. -/
def Finds (F : Bytes → ParseError → Prop) (d : D α) : Prop := ∀ v e, d v = .err e → ∃ q, q <:+: v ∧ F q e

namespace Finds

variable {F G : Bytes → ParseError → Prop}

theorem mono {d : D α} (h : Finds F d) (hF : ∀ q e, F q e → G q e) : Finds G d := fun v e hd =>
  (h v e hd).imp fun q hq => ⟨hq.1, hF q e hq.2⟩

theorem pure (a : α) : Finds F (Pure.pure a : D α) := fun _ _ h => nomatch h
theorem panic : Finds F (D.panic : D α) := fun _ _ h => nomatch h
theorem rest : Finds F D.rest := fun _ _ h => nomatch h

theorem throw {e : ParseError} (h : F [] e) : Finds F (D.throw e : D α) := fun v _ he =>
  ⟨[], ⟨[], v, rfl⟩, by cases he; exact h⟩

theorem bind {d : D α} {f : α → D β} (hr : ReadsPrefix d) (h : Finds F d) (hf : ∀ a, Finds F (f a)) :
    Finds F (d >>= f) := by
  intro v e hd
  rw [D.bind_run] at hd
  cases h1 : d v with
  | ok a r =>
    rw [h1] at hd
    obtain ⟨p, rfl⟩ := hr v a r h1
    obtain ⟨q, hq, hF⟩ := hf a r e hd
    exact ⟨q, hq.trans ⟨p, [], by simp⟩, hF⟩
  | err e' =>
    rw [h1] at hd
    cases hd
    exact h v _ h1
  | _ => rw [h1] at hd; cases hd

theorem map {d : D α} (h : Finds F d) (f : α → β) : Finds F (f <$> d) := by
  intro v e hd
  rw [D.map_run] at hd
  cases h1 : d v with
  | err e' =>
    rw [h1] at hd
    cases hd
    exact h v _ h1
  | _ => rw [h1] at hd; cases hd

theorem ite {c : Prop} [Decidable c] {d e : D α} (h : Finds F d) (h' : Finds F e) : Finds F (if c then d else e) := by
  split
  · exact h
  · exact h'

theorem dite {c : Prop} [Decidable c] {d : c → D α} {e : ¬ c → D α} (h : ∀ hc, Finds F (d hc))
    (h' : ∀ hc, Finds F (e hc)) : Finds F (if hc : c then d hc else e hc) := by
  split
  · exact h _
  · exact h' _

theorem ifEmpty {d e : D α} (h : Finds F d) (h' : Finds F e) : Finds F (D.ifEmpty d e) := by
  intro v
  unfold D.ifEmpty
  split
  · exact h v
  · exact h' v

theorem take {n : Nat} (h : ∀ q : Bytes, q.length < n → F q (D.shortErr n q.length)) : Finds F (D.take n) := by
  intro v e hd
  unfold D.take at hd
  split at hd
  · cases hd
  · rename_i hl
    unfold D.short at hd
    split at hd <;> cases hd
    exact ⟨v, List.infix_rfl, h v (by omega)⟩

/-- The next `n` bytes, and a verdict on them. -/
theorem takeCheck {n : Nat} {f : Bytes → D α} (h : ∀ q : Bytes, q.length < n → F q (D.shortErr n q.length))
    (hf : ∀ q v e, q.length = n → f q v = .err e → F q e) : Finds F (D.take n >>= f) := by
  intro v e hd
  rw [D.bind_run] at hd
  cases h1 : D.take n v with
  | ok a r =>
    rw [h1] at hd
    unfold D.take at h1
    split at h1
    · cases h1
      refine ⟨v.take n, (List.take_prefix n v).isInfix, hf _ _ e ?_ hd⟩
      rw [List.length_take]
      omega
    · unfold D.short at h1; split at h1 <;> cases h1
  | err e' =>
    rw [h1] at hd
    cases hd
    exact take h v _ h1
  | _ => rw [h1] at hd; cases hd

theorem byteCheck {f : Byte → D α} (h : F [] (D.shortErr 1 0)) (hf : ∀ b v e, f b v = .err e → F [b] e) :
    Finds F (D.byte >>= f) := by
  intro v e hd
  cases v with
  | nil => cases hd; exact ⟨[], List.infix_rfl, h⟩
  | cons b v => exact ⟨[b], ⟨[], v, rfl⟩, hf b v e hd⟩

theorem until' {f : Byte → Bool} : ∀ (v acc : Bytes) (e : ParseError), D.until' f acc v = .err e →
    (∀ b ∈ v, f b = false) ∧ e = .token (.nonTerminating (acc ++ v))
  | [], acc, e, h => by
    cases h
    exact ⟨nofun, by rw [List.append_nil]⟩
  | b :: v, acc, e, h => by
    unfold D.until' at h
    split at h
    · cases h
    · rename_i hb
      obtain ⟨h1, h2⟩ := until' v _ e h
      refine ⟨fun c hc => ?_, by rw [h2, List.append_assoc]; rfl⟩
      cases hc with
      | head => simpa using hb
      | tail _ hc => exact h1 c hc

theorem until_ {f : Byte → Bool} (h : ∀ q : Bytes, (∀ b ∈ q, f b = false) → F q (.token (.nonTerminating q))) :
    Finds F (D.until_ f) := by
  intro v e hd
  obtain ⟨h1, rfl⟩ := until' v [] e hd
  exact ⟨v, List.infix_rfl, h v h1⟩

/-- The window fits. -/
theorem windowIn {n : Nat} {d : D α} (hr : ReadsPrefix d) (h : Finds F d)
    (hc : ∀ q : Bytes, q ≠ [] → F q (.window (.closeWithResidue q.length))) {v : Bytes} (hn : n ≤ v.length) {e : ParseError}
    (hd : D.window n d v = .err e) : ∃ q, q <:+: v ∧ F q e := by
  unfold D.window at hd
  rw [if_pos hn] at hd
  cases h1 : d (v.take n) with
  | ok a l =>
    rw [h1, DecRes.bind_ok] at hd
    split at hd
    · cases hd
    · rename_i hl
      cases hd
      obtain ⟨p, hp⟩ := hr _ _ _ h1
      exact ⟨l, List.IsInfix.trans ⟨p, [], by rw [hp]; simp⟩ (List.take_prefix n v).isInfix, hc l hl⟩
  | err e' =>
    rw [h1] at hd
    cases hd
    obtain ⟨q, hq, hF⟩ := h _ _ h1
    exact ⟨q, hq.trans (List.take_prefix n v).isInfix, hF⟩
  | _ => rw [h1] at hd; cases hd

theorem many {d : D α} (hr : ReadsPrefix d) (h : Finds F d) : Finds F (D.many d) := by
  intro v
  induction hn : v.length using Nat.strongRecOn generalizing v with
  | _ n ih =>
    intro e hd
    rw [D.many] at hd
    split at hd
    · cases hd
    · cases h1 : d v with
      | ok a r =>
        rw [h1] at hd
        dsimp only at hd
        split at hd
        · rename_i hl
          cases h2 : D.many d r with
          | err e' =>
            rw [h2] at hd
            cases hd
            obtain ⟨p, rfl⟩ := hr v a r h1
            obtain ⟨q, hq, hF⟩ := ih r.length (by omega) r rfl _ h2
            exact ⟨q, hq.trans ⟨p, [], by simp⟩, hF⟩
          | _ => rw [h2] at hd; cases hd
        · split at hd <;> cases hd
      | err e' =>
        rw [h1] at hd
        cases hd
        exact h v _ h1
      | _ => rw [h1] at hd; cases hd

theorem manyMax {d : D α} {e : ParseError} (hr : ReadsPrefix d) (h : Finds F d) (he : F [] e) : ∀ k, Finds F (D.manyMax e d k)
  | 0 => ifEmpty (pure _) (bind hr h fun _ => throw he)
  | k + 1 => ifEmpty (pure _) (bind hr h fun _ => bind (ReadsPrefix.manyMax e hr k) (manyMax hr h he k) fun _ => pure _)

theorem upTo {d : D α} (hr : ReadsPrefix d) (h : Finds F d) : ∀ k, Finds F (D.upTo d k)
  | 0 => pure _
  | k + 1 => ifEmpty (pure _) (bind hr h fun _ => bind (ReadsPrefix.upTo hr k) (upTo hr h k) fun _ => pure _)

theorem upTo_length {d : D α} : ∀ k v l r, D.upTo d k v = .ok l r → l.length ≤ k
  | 0, v, l, r, h => by cases h; exact Nat.le_refl 0
  | k + 1, v, l, r, h => by
    unfold D.upTo D.ifEmpty at h
    split at h
    · cases h; exact Nat.zero_le _
    · obtain ⟨a, r1, h1, h⟩ := D.bind_eq_ok.mp h
      obtain ⟨as, r2, h2, h⟩ := D.bind_eq_ok.mp h
      cases h
      exact Nat.succ_le_succ (upTo_length k r1 as _ h2)

theorem fixSeq {d : D α} {n : Nat} (hr : ReadsPrefix d) (h : Finds F d)
    (he : ∀ m, m < n → F [] (.external (.lengthViolation (.wrongLength n m)))) : Finds F (Dec.fixSeq n d) := by
  intro v e hd
  unfold Dec.fixSeq at hd
  rw [D.bind_run] at hd
  cases h1 : D.upTo d n v with
  | ok l r =>
    rw [h1, DecRes.bind_ok] at hd
    split at hd
    · cases hd
    · rename_i hl
      cases hd
      have := upTo_length n v l r h1
      exact ⟨[], ⟨[], v, rfl⟩, he _ (by omega)⟩
  | err e' =>
    rw [h1] at hd
    cases hd
    exact upTo hr h n v _ h1
  | _ => rw [h1] at hd; cases hd

end Finds

end Verif
