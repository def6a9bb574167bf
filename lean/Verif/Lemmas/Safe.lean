import Verif.Lemmas.Sound
import Verif.Lemmas.Recursive
import Verif.Decode
/-
Decoders do nothing undefined if the parser calls they make do not.
-/
namespace Verif

/-- All calls of the parser are safe. -/
structure CallsSafe {σ : Type} (P : ParserOps σ) (I : σ → Prop) : Prop where
  remainder : Safe I P.remainder
  consumeByte : Safe I P.consumeByte
  consume : ∀ n, Safe I (P.consume n)
  setFit : ∀ n, Safe I (P.setFit n)
  enforce : Safe I P.enforceTarget

theorem Safe.of_map {σ α β : Type} {I : σ → Prop} {f : PM σ α} {g : α → β}
    (h : ∀ s, I s → (g <$> f) s ≠ .ub ∧ ((g <$> f) s).AllS I) : Safe I f := by
  intro s hi
  have h := h s hi
  rw [M.map_run] at h
  cases hf : f s with
  | ok a s' => rw [hf] at h; exact h.2
  | err e s' => rw [hf] at h; exact h.2
  | panic => trivial
  | ub => rw [hf] at h; exact (h.1 rfl).elim
  | diverge => trivial

theorem CallsSafe.of_run {σ : Type} {P : ParserOps σ} {I : σ → Prop}
    (h : ∀ op s, I s → P.run op s ≠ .ub ∧ (P.run op s).AllS I) : CallsSafe P I where
  remainder := Safe.of_map (h .remainder)
  consumeByte := Safe.of_map (h .consumeByte)
  consume n := Safe.of_map (h (.consume n))
  setFit n := Safe.of_map (h (.setFit n))
  enforce := Safe.of_map (h .enforceTarget)

section

variable {σ : Type} {P : ParserOps σ} {I : σ → Prop} (H : CallsSafe P I)
include H

theorem CallsSafe.closed : Closed P (fun _ f => Safe I f) :=
  Safe.closed H.remainder H.consumeByte H.consume H.setFit H.enforce

local macro "enforcing" h:term ", " s:ident : tactic => `(tactic| (
  have h2 := $h
  generalize ParserOps.enforceTarget _ $s = o at h2
  cases o with
  | ok u s' => exact h2
  | err e s' =>
    cases e with
    | window w => cases w <;> exact h2
    | _ => exact h2
  | panic => trivial
  | ub => exact h2.elim
  | diverge => trivial))

theorem CallsSafe.cleanup : Safe I P.cleanup := by
  refine Safe.loop (fun ret s hi => ?_) _
  unfold ParserOps.cleanupBody
  have h1 := H.remainder s hi
  cases hr : P.remainder s with
  | ok res s1 =>
    rw [hr] at h1
    dsimp only
    by_cases h0 : res ≠ 0
    · rw [if_pos h0]
      have h3 := H.consume res s1 h1
      unfold ParserOps.takeDynamic
      generalize P.consume res s1 = o at h3
      cases o with
      | ok tmp s2 => dsimp only; enforcing (H.enforce s2 h3), s2
      | err e s2 => exact h3
      | panic => trivial
      | ub => exact h3.elim
      | diverge => trivial
    · rw [if_neg h0]
      enforcing (H.enforce s1 h1), s1
  | err e s1 => rw [hr] at h1; exact h1
  | panic => trivial
  | ub => rw [hr] at h1; exact h1.elim
  | diverge => trivial

theorem CallsSafe.cleanupSlice : Safe I P.cleanupSlice := by
  refine Safe.loop (fun ret s hi => ?_) _
  unfold ParserOps.cleanupBodySlice
  have h1 := H.remainder s hi
  cases hr : P.remainder s with
  | ok res s1 =>
    rw [hr] at h1
    dsimp only
    by_cases h0 : res ≠ 0
    · rw [if_pos h0]
      have h3 := H.consume res s1 h1
      unfold ParserOps.takeDynamic
      generalize P.consume res s1 = o at h3
      cases o with
      | ok tmp s2 => dsimp only; enforcing (H.enforce s2 h3), s2
      | err e s2 => exact h3
      | panic => trivial
      | ub => exact h3.elim
      | diverge => trivial
    · rw [if_neg h0]
      enforcing (H.enforce s1 h1), s1
  | err e s1 => rw [hr] at h1; exact h1
  | panic => trivial
  | ub => rw [hr] at h1; exact h1.elim
  | diverge => trivial

end

theorem slice_callsSafe : CallsSafe SliceParser.ops (fun _ => True) := by
  refine CallsSafe.of_run fun op s _ => ⟨?_, ?_⟩
  · obtain ⟨views⟩ := s
    cases op <;> cases views with
    | nil => simp [ParserOps.run, SliceParser.ops, SliceParser.remainder, SliceParser.consumeByte,
        SliceParser.consume, SliceParser.setFit, SliceParser.testTarget, SliceParser.enforceTarget,
        SliceParser.skip, SliceParser.skipExactly] <;> try (split <;> simp)
    | cons v vs =>
      simp only [ParserOps.run, SliceParser.ops, SliceParser.remainder, SliceParser.consumeByte,
        SliceParser.consume, SliceParser.setFit, SliceParser.testTarget, SliceParser.enforceTarget,
        SliceParser.skip, SliceParser.skipExactly, SliceParser.splitUnchecked, M.map_run]
      first
        | simp; done
        | (repeat' split) <;> simp_all <;> omega
  · cases SliceParser.ops.run op s <;> trivial

theorem StepRefines.safe {σ : Type} {R : σ → Cursor → Prop} {er : ParseError → ParseError} {o : Out σ ParseError Obs}
    {r : Except ParseError Obs × Cursor} {q : Prop} (h : StepRefines R er q o r) : o ≠ .ub ∧ o.AllS (fun s => ∃ c, R s c) := by
  obtain ⟨r, c'⟩ := r
  cases r with
  | ok o' => obtain ⟨s', he, h⟩ := h; rw [he]; exact ⟨by simp, c', h⟩
  | error e =>
    rcases h with ⟨e', s', he, _, h⟩ | ⟨_, he⟩
    · rw [he]; exact ⟨by simp, c', h⟩
    · rw [he]; exact ⟨by simp, trivial⟩

theorem byte_callsSafe (buf : Bytes) : CallsSafe (ByteParser.ops .debug) (fun s => ∃ c, ByteRep buf s c) :=
  CallsSafe.of_run fun op _ ⟨_, hc⟩ => (byte_step .debug hc op (.inl rfl)).safe

theorem memo_callsSafe (buf : Bytes) : CallsSafe (MemoParser.ops .debug) (fun s => ∃ c, MemoRep buf s c) :=
  CallsSafe.of_run fun op _ ⟨_, hc⟩ => (memo_step .debug hc op (.inl rfl)).safe

/-- Parsers that check every request. -/
theorem Backend.callsSafe {p : Profile} {k : Backend} (h : p = .debug ∨ k = .slice) (buf : Bytes) (hb : k = .slice ∨ buf.length ≤ isizeMax) :
    ∃ I, CallsSafe (k.ops p) I ∧ I (k.init buf) ∧ Safe I (k.cleanup p) := by
  cases k with
  | slice => exact ⟨_, slice_callsSafe, trivial, slice_callsSafe.cleanupSlice⟩
  | byte =>
    obtain rfl : p = .debug := h.resolve_right nofun
    exact ⟨_, byte_callsSafe buf, ⟨_, ByteRep.start (hb.resolve_left nofun)⟩, (byte_callsSafe buf).cleanup⟩
  | memo =>
    obtain rfl : p = .debug := h.resolve_right nofun
    exact ⟨_, memo_callsSafe buf, ⟨_, MemoRep.start (hb.resolve_left nofun)⟩, (memo_callsSafe buf).cleanup⟩

/-- A decoder that is safe from the start is safe with what comes after it. -/
theorem tryDecode_safe {α : Type} {c : Codec α} {cfg : Cfg} {k : Backend} {I : k.State → Prop} {buf : Bytes}
    (hi : I (k.init buf)) (hc : Safe I (c.parse (k.ops cfg.prof))) (hf : Safe I (k.cleanup cfg.prof)) :
    c.tryDecode cfg k buf ≠ .ub := by
  unfold Codec.tryDecode
  have h1 := hc _ hi
  generalize c.parse (k.ops cfg.prof) (k.init buf) = o at h1
  cases o with
  | ok a s =>
    dsimp only
    unfold Backend.finish
    split
    · have h2 := hf s h1
      generalize k.cleanup cfg.prof s = r at h2
      cases r with
      | ok r s' =>
        cases r with
        | ok l => dsimp only; split <;> nofun
        | error e => nofun
      | ub => exact h2.elim
      | _ => nofun
    · nofun
  | ub => exact h1.elim
  | _ => nofun

/-- Unfoldings carry safety over to recursive types. -/
theorem Decls.safe {σ : Type} {P : ParserOps σ} {I : σ → Prop} (d : Decls) (cfg : Cfg) (i : Nat)
    (h : ∀ n, Safe I (((d.unfold n i).codec cfg).parse P)) : Safe I ((d.codec cfg i).parse P) := by
  intro s hi
  by_cases hex : ∃ n, ((d.unfold n i).codec cfg).parse P s ≠ .diverge
  · obtain ⟨n, hn⟩ := hex
    rw [d.parse_eq hn, M.map_run]
    have := h n s hi
    generalize ((d.unfold n i).codec cfg).parse P s = o at this
    cases o <;> exact this
  · have : (d.codec cfg i).parse P s = .diverge := dif_neg hex
    rw [this]
    trivial

end Verif
