import Verif.Spec.Schema
import Verif.Codec.Comb
/-
Decoders are built from a handful of parser calls.  What those calls preserve, and sequencing and loops
preserve, holds of the decoder of every type.
-/
namespace Verif

/-- `Q` holds of the parser calls decoders make and is kept by the ways they are put together. -/
structure Closed {σ : Type} (P : ParserOps σ) (Q : (α : Type) → PM σ α → Prop) : Prop where
  pure : ∀ {α : Type} (a : α), Q α (Pure.pure a)
  bind : ∀ {α β : Type} {f : PM σ α} {g : α → PM σ β}, Q α f → (∀ a, Q β (g a)) → Q β (f >>= g)
  throw : ∀ {α : Type} (e : ParseError), Q α (M.throw e)
  panic : ∀ {α : Type}, Q α M.panic
  diverge : ∀ {α : Type}, Q α (fun _ => .diverge)
  loop : ∀ {α β : Type} {body : β → PM σ (β ⊕ α)} (b : β), (∀ b, Q (β ⊕ α) (body b)) → Q α (iterM body b)
  remainder : Q Nat P.remainder
  consumeByte : Q Byte P.consumeByte
  selfTerm : ∀ (f : Byte → Bool) (ret : Bytes), Q (Bytes ⊕ Bytes) (P.selfTermBody f ret)
  consume : ∀ n, Q Bytes (P.consume n)
  window : ∀ {α : Type} (n : Nat) {f : PM σ α}, Q α f →
    Q α (do P.setFit n; let a ← f; P.enforceTarget; Pure.pure a)

namespace Closed

variable {σ : Type} {P : ParserOps σ} {Q : (α : Type) → PM σ α → Prop} (C : Closed P Q)
include C
set_option linter.unusedSectionVars false

theorem map {α β : Type} (g : α → β) {f : PM σ α} (h : Q α f) : Q β (g <$> f) := C.bind h fun _ => C.pure _

theorem ite {α : Type} {c : Prop} [Decidable c] {f g : PM σ α} (hf : Q α f) (hg : Q α g) :
    Q α (if c then f else g) := by
  split
  · exact hf
  · exact hg

theorem dite {α : Type} {c : Prop} [Decidable c] {f : c → PM σ α} {g : ¬ c → PM σ α} (hf : ∀ h, Q α (f h))
    (hg : ∀ h, Q α (g h)) : Q α (if h : c then f h else g h) := by
  split
  · exact hf _
  · exact hg _

theorem takeFixed (n : Nat) : Q Bytes (P.takeFixed n) :=
  C.bind (C.consume n) fun _ => C.ite (C.pure _) (C.throw _)

theorem ofExcept {ε α : Type} (r : Except ε α) (f : ε → ParseError) : Q α (M.ofExcept r f) := by
  cases r
  · exact C.throw _
  · exact C.pure _

theorem ofOption {α : Type} (r : Option α) : Q α (M.ofOption r) := by
  cases r
  · exact C.panic
  · exact C.pure _

theorem selfTerminating (f : Byte → Bool) : Q Bytes (P.takeSelfTerminating f) :=
  C.bind C.remainder fun _ => C.ite C.panic (C.loop _ fun _ => C.selfTerm f _)

theorem tag (w : TagWidth) (tags : List Nat) : Q Nat (ParserOps.takeTagword w (w.parse P) tags) :=
  C.bind (C.map _ (C.takeFixed _)) fun _ => C.ite (C.pure _) (C.ite (C.throw _) (C.throw _))

theorem rangedInt (t : IntTy) (min max : Int) : Q t.Val ((Codec.rangedInt t min max).parse P) :=
  C.bind (C.map _ (C.takeFixed _)) fun _ => C.ofExcept _ _

theorem lenPref (S : LenPref) : Q Nat (S.parse P) := by
  cases S
  · exact C.map _ (C.map _ (C.takeFixed _))
  · exact C.map _ (C.map _ (C.takeFixed _))
  · exact C.map _ (C.rangedInt _ _ _)

theorem takeRest : Q Bytes (P.remainder >>= fun n => P.takeDynamic n) := C.bind C.remainder fun n => C.consume n

theorem tryPush {α : Type} (n : Nat) (acc : List α) (x : α) : Q (List α) (Codec.tryPush n acc x) :=
  C.ite (C.pure _) (C.throw _)

theorem vpadded {α : Type} (cfg : Cfg) (n : Nat) {c : Codec α} (h : Q α (c.parse P)) :
    Q α ((Codec.vpadded cfg n c).parse P) :=
  C.bind C.remainder fun r => C.ite C.panic (by
    cases usub cfg.prof r n with
    | none => exact C.panic
    | some k => exact C.window k h)

mutual
/-- … so it holds of the decoder of every type. -/
theorem schema (cfg : Cfg) : ∀ s : Schema, Q s.Val ((s.codec cfg).parse P)
  | .unit => C.pure _
  | .bool => C.bind C.consumeByte fun _ => C.ite (C.pure _) (C.ite (C.pure _) (C.throw _))
  | .int _ => C.map _ (C.takeFixed _)
  | .f64 => C.map _ (C.takeFixed _)
  | .rangedInt t min max => C.rangedInt t min max
  | .rangedFloat _ _ => C.bind (C.map _ (C.takeFixed _)) fun _ => C.ofExcept _ _
  | .zarithN => C.bind (C.selfTerminating _) fun _ => C.ofOption _
  | .zarithZ => C.bind (C.selfTerminating _) fun _ => C.ofOption _
  | .bytes => C.takeRest
  | .vecU8 => C.takeRest
  | .string => C.bind C.remainder fun _ => C.bind (C.consume _) fun _ => C.pure _
  | .fixedBytes n => C.bind (C.takeFixed n) fun _ => C.dite (fun _ => C.pure _) fun _ => C.panic
  | .fixedString n => C.bind (C.takeFixed n) fun _ => C.dite (fun _ => C.pure _) fun _ => C.panic
  | .option s => C.bind (C.tag _ _) fun _ => C.ite (C.bind (schema cfg s) fun _ => C.pure _) (C.ite (C.pure _) C.panic)
  | .nullable s => C.bind C.remainder fun _ => C.ite (C.bind (schema cfg s) fun _ => C.pure _) (C.pure _)
  | .dynamic S s => C.bind (C.lenPref S) fun n => C.window n (schema cfg s)
  | .vpadded n s => C.vpadded cfg n (schema cfg s)
  | .padded n s => C.bind (schema cfg s) fun _ => C.bind (C.consume n) fun _ => C.ite (C.throw _) (C.pure _)
  | .seq s => C.loop _ fun _ => C.bind C.remainder fun _ =>
      C.ite (C.bind (schema cfg s) fun _ => C.pure _) (C.pure _)
  | .fixSeq _ s => C.bind (C.loop _ fun _ => C.bind C.remainder fun _ =>
      C.ite (C.bind (schema cfg s) fun _ => C.bind (C.tryPush _ _ _) fun _ => C.pure _) (C.pure _)) fun _ =>
      C.ite (C.pure _) (C.throw _)
  | .limSeq _ s => C.loop _ fun _ => C.bind C.remainder fun _ =>
      C.ite (C.bind (schema cfg s) fun _ => C.bind (C.tryPush _ _ _) fun _ => C.pure _) (C.pure _)
  | .autobox s => schema cfg s
  | .hole _ => C.diverge
  | .cstyle w tags => C.bind (C.tag w tags) fun _ => C.dite (fun _ => C.pure _) fun _ => C.panic
  | .data w vs => C.bind (C.tag w _) fun t => variants cfg vs t
  | .record fs => fields cfg fs
theorem variants (cfg : Cfg) : ∀ (vs : Variants) (t : Nat), Q vs.Val ((vs.codec cfg).parse P t)
  | .nil, _ => C.panic
  | .cons _ s vs, t => C.ite (C.bind (schema cfg s) fun _ => C.pure _) (C.bind (variants cfg vs t) fun _ => C.pure _)
theorem fields (cfg : Cfg) : ∀ fs : Fields, Q fs.Val ((fs.codec cfg).parse P)
  | .nil => C.pure _
  | .cons s fs => C.bind (schema cfg s) fun _ => C.bind (fields cfg fs) fun _ => C.pure _
end

end Closed

/-! ### invariants of the parser state -/

/-- `f` returns only in states satisfying what held before. -/
def Keeps {σ α : Type} (I : Nat → σ → Prop) (f : PM σ α) : Prop := ∀ k s a s', I k s → f s = .ok a s' → I k s'

/-- Started in a state satisfying `I`, `f` does nothing undefined and `I` still holds when it returns or fails. -/
def Safe {σ α : Type} (I : σ → Prop) (f : PM σ α) : Prop := ∀ s, I s → match f s with
  | .ok _ s' => I s'
  | .err _ s' => I s'
  | .ub => False
  | _ => True

theorem iterM_ok_iterN {σ ε α β : Type} {body : β → M σ ε (β ⊕ α)} {b : β} {s : σ} {o : Out σ ε α}
    (h : iterM body b s = o) (ho : o ≠ .diverge) : ∃ n, iterN body n b s = some o := by
  by_cases hex : ∃ n o, iterN body n b s = some o
  · obtain ⟨n, o', hn⟩ := hex
    rw [iterM_of_iterN hn] at h
    exact ⟨n, h ▸ hn⟩
  · have hn : ∀ n, iterN body n b s = none := by
      intro n
      cases h : iterN body n b s with
      | none => rfl
      | some o => exact absurd ⟨n, o, h⟩ hex
    rw [iterM_eq_diverge hn] at h
    exact absurd h.symm ho

theorem Keeps.loop {σ α β : Type} {I : Nat → σ → Prop} {body : β → PM σ (β ⊕ α)} (h : ∀ b, Keeps I (body b)) (b : β) :
    Keeps I (iterM body b) := by
  intro k s a s' hi ho
  obtain ⟨n, hn⟩ := iterM_ok_iterN ho nofun
  clear ho
  induction n generalizing b s with
  | zero => simp [iterN] at hn
  | succ n ih =>
    simp only [iterN] at hn
    split at hn
    · rename_i b' s1 hb
      exact ih b' s1 (h b k _ _ _ hi hb) hn
    · rename_i a' s1 hb
      cases hn
      exact h b k _ _ _ hi hb
    all_goals cases hn

theorem Safe.loop {σ α β : Type} {I : σ → Prop} {body : β → PM σ (β ⊕ α)} (h : ∀ b, Safe I (body b)) (b : β) :
    Safe I (iterM body b) := by
  intro s hi
  by_cases hd : iterM body b s = .diverge
  · rw [hd]; trivial
  obtain ⟨n, hn⟩ := iterM_ok_iterN rfl hd
  clear hd
  generalize iterM body b s = o at hn
  induction n generalizing b s with
  | zero => simp [iterN] at hn
  | succ n ih =>
    have h1 := h b s hi
    simp only [iterN] at hn
    generalize body b s = r at h1 hn
    cases r with
    | ok r s1 =>
      cases r with
      | inl b' => exact ih b' s1 h1 hn
      | inr a => cases hn; exact h1
    | err e s1 => cases hn; exact h1
    | panic => cases hn; trivial
    | ub => exact h1.elim
    | diverge => cases hn; trivial

theorem Keeps.bind {σ α β : Type} {I : Nat → σ → Prop} {f : PM σ α} {g : α → PM σ β} (hf : Keeps I f)
    (hg : ∀ a, Keeps I (g a)) : Keeps I (f >>= g) := by
  intro k s b s' hi ho
  rw [M.bind_run] at ho
  cases h : f s with
  | ok a s1 => rw [h] at ho; exact hg a k _ _ _ (hf k _ _ _ hi h) ho
  | _ => rw [h] at ho; cases ho

theorem Safe.bind {σ α β : Type} {I : σ → Prop} {f : PM σ α} {g : α → PM σ β} (hf : Safe I f)
    (hg : ∀ a, Safe I (g a)) : Safe I (f >>= g) := by
  intro s hi
  have h := hf s hi
  rw [M.bind_run]
  generalize f s = r at h
  cases r with
  | ok a s1 => exact hg a s1 h
  | err e s1 => exact h
  | panic => trivial
  | ub => exact h.elim
  | diverge => trivial

/-- Parser calls that are safe make all decoders safe. -/
theorem Safe.closed {σ : Type} {P : ParserOps σ} {I : σ → Prop} (h1 : Safe I P.remainder) (h2 : Safe I P.consumeByte)
    (h3 : ∀ n, Safe I (P.consume n)) (h4 : ∀ n, Safe I (P.setFit n)) (h5 : Safe I P.enforceTarget) :
    Closed P (fun _ f => Safe I f) where
  pure _ := fun _ h => h
  bind := Safe.bind
  throw _ := fun _ h => h
  panic := fun _ _ => trivial
  diverge := fun _ _ => trivial
  loop b h := Safe.loop h b
  remainder := h1
  consumeByte := h2
  selfTerm f ret := by
    intro s hi
    have := h2 s hi
    unfold ParserOps.selfTermBody
    generalize P.consumeByte s = r at this
    cases r with
    | ok b s1 => cases hb : f b <;> simp only [hb, if_true, Bool.false_eq_true, if_false] <;> exact this
    | err e s1 => exact this
    | panic => trivial
    | ub => exact this.elim
    | diverge => trivial
  consume := h3
  window n f h := Safe.bind (h4 n) fun _ => Safe.bind h fun _ => Safe.bind h5 fun _ => fun _ h => h

theorem Keeps.closed {σ : Type} {P : ParserOps σ} {I : Nat → σ → Prop} (h1 : Keeps I P.remainder)
    (h2 : Keeps I P.consumeByte) (h3 : ∀ n, Keeps I (P.consume n))
    (h4 : ∀ n k s a s', I k s → P.setFit n s = .ok a s' → I (k + 1) s')
    (h5 : ∀ k s a s', I (k + 1) s → P.enforceTarget s = .ok a s' → I k s') :
    Closed P (fun _ f => Keeps I f) where
  pure _ := fun _ _ _ _ h ho => (Out.ok.inj ho).2 ▸ h
  bind := Keeps.bind
  throw _ := fun _ _ _ _ _ ho => nomatch ho
  panic := fun _ _ _ _ _ ho => nomatch ho
  diverge := fun _ _ _ _ _ ho => nomatch ho
  loop b h := Keeps.loop h b
  remainder := h1
  consumeByte := h2
  selfTerm f ret := by
    intro k s a s' hi ho
    unfold ParserOps.selfTermBody at ho
    cases hc : P.consumeByte s with
    | ok b s1 =>
      rw [hc] at ho
      have := h2 k _ _ _ hi hc
      dsimp only at ho
      split at ho <;> (cases ho; exact this)
    | _ => rw [hc] at ho; cases ho
  consume := h3
  window n f h := by
    intro k s a s' hi ho
    simp only [M.bind_run] at ho
    cases hc : P.setFit n s with
    | ok u s1 =>
      rw [hc, Out.bind_ok] at ho
      cases hf : f s1 with
      | ok b s2 =>
        rw [hf, Out.bind_ok] at ho
        cases he : P.enforceTarget s2 with
        | ok u s3 =>
          rw [he, Out.bind_ok] at ho
          cases ho
          exact h5 _ _ _ _ (h _ _ _ _ (h4 _ _ _ _ _ hi hc) hf) he
        | _ => rw [he] at ho; cases ho
      | _ => rw [hf] at ho; cases ho
    | _ => rw [hc] at ho; cases ho

end Verif
