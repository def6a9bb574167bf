import Verif.Spec.Sized
import Verif.Codec.Comb
import Verif.Refine.Program
import Verif.Decode
import Verif.Spec.Cursor
/-
Two builds of the same decoder: what relates the parser calls of one build to those of the other, and is kept by
sequencing and loops, relates the decoders of every type.
-/
namespace Verif

/-- What `VPadded` does once it knows how much input is left (src/dynamic.rs:476-487). -/
def ParserOps.vpTail {σ α : Type} (P : ParserOps σ) (p : Profile) (rem n : Nat) (f : PM σ α) : PM σ α :=
  if p = .debug ∧ ¬ rem ≥ n then M.panic
  else match usub p rem n with
    | none => M.panic
    | some k => do
      P.setFit k
      let ret ← f
      P.enforceTarget
      pure ret

/-- What `Padded` does behind its payload (src/schema.rs:217-230). -/
def ParserOps.padTail {σ α : Type} (P : ParserOps σ) (check : Bool) (n : Nat) (x : α) : PM σ α := do
  let padding ← P.consume n
  if check ∧ padding ≠ List.replicate n 0 then M.throw (.token (.nonNullPaddingByte padding))
  else pure x

/-- `Q` relates the parser calls decoders make and is kept by the ways they are put together; if
`small`, then for paddings whose width is a `usize`. -/
structure Related {σ : Type} (P P' : ParserOps σ) (cfg cfg' : Cfg) (small : Prop) (Q : (α : Type) → PM σ α → PM σ α → Prop) : Prop where
  refl : ∀ {α : Type} (f : PM σ α), Q α f f
  bind : ∀ {α β : Type} {f f' : PM σ α} {g g' : α → PM σ β}, Q α f f' → (∀ a, Q β (g a) (g' a)) →
    Q β (f >>= g) (f' >>= g')
  loop : ∀ {α β : Type} {body body' : β → PM σ (β ⊕ α)} (b : β), (∀ b, Q (β ⊕ α) (body b) (body' b)) →
    Q α (iterM body b) (iterM body' b)
  remainder : Q Nat P.remainder P'.remainder
  consumeByte : Q Byte P.consumeByte P'.consumeByte
  selfTerm : ∀ (f : Byte → Bool) (ret : Bytes), Q (Bytes ⊕ Bytes) (P.selfTermBody f ret) (P'.selfTermBody f ret)
  consume : ∀ n, Q Bytes (P.consume n) (P'.consume n)
  setFit : ∀ n, Q Unit (P.setFit n) (P'.setFit n)
  enforceTarget : Q Unit P.enforceTarget P'.enforceTarget
  vpTail : ∀ {α : Type} (r n : Nat) {f f' : PM σ α}, Q α f f' → Q α (P.vpTail cfg.prof r n f) (P'.vpTail cfg'.prof r n f')
  padTail : ∀ {α : Type} (n : Nat) (x : α), (small → n < usizeMod) →
    Q α (P.padTail cfg.checkPadding n x) (P'.padTail cfg'.checkPadding n x)

namespace Related

variable {σ : Type} {P P' : ParserOps σ} {cfg cfg' : Cfg} {small : Prop}
  {Q : (α : Type) → PM σ α → PM σ α → Prop} (C : Related P P' cfg cfg' small Q)
include C
set_option linter.unusedSectionVars false

theorem map {α β : Type} (g : α → β) {f f' : PM σ α} (h : Q α f f') : Q β (g <$> f) (g <$> f') :=
  C.bind h fun _ => C.refl _

theorem ite {α : Type} {c : Prop} [Decidable c] {f g f' g' : PM σ α} (hf : Q α f f') (hg : Q α g g') :
    Q α (if c then f else g) (if c then f' else g') := by
  split
  · exact hf
  · exact hg

theorem takeFixed (n : Nat) : Q Bytes (P.takeFixed n) (P'.takeFixed n) :=
  C.bind (C.consume n) fun _ => C.refl _

theorem selfTerminating (f : Byte → Bool) : Q Bytes (P.takeSelfTerminating f) (P'.takeSelfTerminating f) :=
  C.bind C.remainder fun _ => C.ite (C.refl _) (C.loop _ fun _ => C.selfTerm f _)

theorem tag (w : TagWidth) (tags : List Nat) :
    Q Nat (ParserOps.takeTagword w (w.parse P) tags) (ParserOps.takeTagword w (w.parse P') tags) :=
  C.bind (C.map _ (C.takeFixed _)) fun _ => C.refl _

theorem rangedInt (t : IntTy) (min max : Int) :
    Q t.Val ((Codec.rangedInt t min max).parse P) ((Codec.rangedInt t min max).parse P') :=
  C.bind (C.map _ (C.takeFixed _)) fun _ => C.refl _

theorem lenPref (S : LenPref) : Q Nat (S.parse P) (S.parse P') := by
  cases S
  · exact C.map _ (C.map _ (C.takeFixed _))
  · exact C.map _ (C.map _ (C.takeFixed _))
  · exact C.map _ (C.rangedInt _ _ _)

theorem takeRest : Q Bytes (P.remainder >>= fun n => P.takeDynamic n) (P'.remainder >>= fun n => P'.takeDynamic n) :=
  C.bind C.remainder fun n => C.consume n

theorem window {α : Type} (n : Nat) {f f' : PM σ α} (h : Q α f f') :
    Q α (do P.setFit n; let a ← f; P.enforceTarget; Pure.pure a)
      (do P'.setFit n; let a ← f'; P'.enforceTarget; Pure.pure a) :=
  C.bind (C.setFit n) fun _ => C.bind h fun _ => C.bind C.enforceTarget fun _ => C.refl _

omit C in
theorem tagsSame : ∀ vs : Variants, (vs.codec cfg').tags = (vs.codec cfg).tags
  | .nil => rfl
  | .cons t _ vs => congrArg (t :: ·) (tagsSame vs)

mutual
/-- … so it relates the decoders of every type. -/
theorem schema : ∀ s : Schema, (small → s.sized = true) → Q s.Val ((s.codec cfg).parse P) ((s.codec cfg').parse P')
  | .unit, _ => C.refl _
  | .bool, _ => C.bind C.consumeByte fun _ => C.refl _
  | .int _, _ => C.map _ (C.takeFixed _)
  | .f64, _ => C.map _ (C.takeFixed _)
  | .rangedInt t min max, _ => C.rangedInt t min max
  | .rangedFloat _ _, _ => C.bind (C.map _ (C.takeFixed _)) fun _ => C.refl _
  | .zarithN, _ => C.bind (C.selfTerminating _) fun _ => C.refl _
  | .zarithZ, _ => C.bind (C.selfTerminating _) fun _ => C.refl _
  | .bytes, _ => C.takeRest
  | .vecU8, _ => C.takeRest
  | .string, _ => C.bind C.remainder fun _ => C.bind (C.consume _) fun _ => C.refl _
  | .fixedBytes n, _ => C.bind (C.takeFixed n) fun _ => C.refl _
  | .fixedString n, _ => C.bind (C.takeFixed n) fun _ => C.refl _
  | .option s, h => C.bind (C.tag _ _) fun _ => C.ite (C.bind (schema s h) fun _ => C.refl _) (C.refl _)
  | .nullable s, h => C.bind C.remainder fun _ => C.ite (C.bind (schema s h) fun _ => C.refl _) (C.refl _)
  | .dynamic S s, h => C.bind (C.lenPref S) fun n => C.window n (schema s h)
  | .vpadded n s, h => C.bind C.remainder fun r => C.vpTail r n (schema s fun hs => by
      have := h hs
      simp only [Schema.sized, Bool.and_eq_true] at this
      exact this.2)
  | .padded n s, h => C.bind (schema s fun hs => by
      have := h hs
      simp only [Schema.sized, Bool.and_eq_true] at this
      exact this.2) fun x => C.padTail n x fun hs => by
      have := h hs
      simp only [Schema.sized, Bool.and_eq_true] at this
      exact of_decide_eq_true this.1
  | .seq s, h => C.loop _ fun _ => C.bind C.remainder fun _ =>
      C.ite (C.bind (schema s h) fun _ => C.refl _) (C.refl _)
  | .fixSeq _ s, h => C.bind (C.loop _ fun _ => C.bind C.remainder fun _ =>
      C.ite (C.bind (schema s h) fun _ => C.refl _) (C.refl _)) fun _ => C.refl _
  | .limSeq _ s, h => C.loop _ fun _ => C.bind C.remainder fun _ =>
      C.ite (C.bind (schema s h) fun _ => C.refl _) (C.refl _)
  | .autobox s, h => schema s h
  | .hole _, _ => C.refl _
  | .cstyle w tags, _ => C.bind (C.tag w tags) fun _ => C.refl _
  | .data w vs, h => by
      have e : (vs.codec cfg').tags = (vs.codec cfg).tags := tagsSame vs
      show Q _ (ParserOps.takeTagword w (w.parse P) (vs.codec cfg).tags >>= _)
        (ParserOps.takeTagword w (w.parse P') (vs.codec cfg').tags >>= _)
      rw [e]
      exact C.bind (C.tag w _) fun t => variants vs h t
  | .record fs, h => fields fs h
theorem variants : ∀ vs : Variants, (small → vs.sized = true) → ∀ t : Nat,
    Q vs.Val ((vs.codec cfg).parse P t) ((vs.codec cfg').parse P' t)
  | .nil, _, _ => C.refl _
  | .cons _ s vs, h, t => C.ite (C.bind (schema s fun hs => by
      have := h hs
      simp only [Variants.sized, Bool.and_eq_true] at this
      exact this.1) fun _ => C.refl _) (C.bind (variants vs (fun hs => by
      have := h hs
      simp only [Variants.sized, Bool.and_eq_true] at this
      exact this.2) t) fun _ => C.refl _)
theorem fields : ∀ fs : Fields, (small → fs.sized = true) → Q fs.Val ((fs.codec cfg).parse P) ((fs.codec cfg').parse P')
  | .nil, _ => C.refl _
  | .cons s fs, h => C.bind (schema s fun hs => by
      have := h hs
      simp only [Fields.sized, Bool.and_eq_true] at this
      exact this.1) fun _ => C.bind (fields fs fun hs => by
      have := h hs
      simp only [Fields.sized, Bool.and_eq_true] at this
      exact this.2) fun _ => C.refl _
end

end Related

/-! ### a build that only panics more often -/

/-- `f` does what `g` does, or panics. -/
def Stricter {σ ε α : Type} (f g : M σ ε α) : Prop := ∀ s, f s = .panic ∨ f s = g s

namespace Stricter

variable {σ α β : Type}

theorem refl {ε : Type} (f : M σ ε α) : Stricter f f := fun _ => .inr rfl

theorem bind {f f' : PM σ α} {g g' : α → PM σ β} (hf : Stricter f f') (hg : ∀ a, Stricter (g a) (g' a)) :
    Stricter (f >>= g) (f' >>= g') := by
  intro s
  rw [M.bind_run, M.bind_run]
  rcases hf s with h | h
  · rw [h]; exact .inl rfl
  · rw [← h]
    cases f s with
    | ok a s1 => exact hg a s1
    | _ => exact .inr rfl

theorem iterN {body body' : β → PM σ (β ⊕ α)} (h : ∀ b, Stricter (body b) (body' b)) : ∀ n b s,
    iterN body n b s = some .panic ∨ iterN body n b s = iterN body' n b s
  | 0, _, _ => .inr rfl
  | n + 1, b, s => by
    rw [Verif.iterN, Verif.iterN]
    rcases h b s with hb | hb
    · rw [hb]; exact .inl rfl
    · rw [← hb]
      cases body b s with
      | ok r s1 =>
        cases r with
        | inl b' => exact iterN h n b' s1
        | inr a => exact .inr rfl
      | _ => exact .inr rfl

theorem loop {body body' : β → PM σ (β ⊕ α)} (b : β) (h : ∀ b, Stricter (body b) (body' b)) :
    Stricter (iterM body b) (iterM body' b) := by
  intro s
  by_cases hex : ∃ n o, Verif.iterN body n b s = some o
  · obtain ⟨n, o, ho⟩ := hex
    rcases iterN h n b s with hp | he
    · exact .inl (iterM_of_iterN hp)
    · rw [iterM_of_iterN ho, iterM_of_iterN (he ▸ ho)]
      exact .inr rfl
  · have hn : ∀ n, Verif.iterN body n b s = none := by
      intro n
      cases h : Verif.iterN body n b s with
      | none => rfl
      | some o => exact absurd ⟨n, o, h⟩ hex
    have hn' : ∀ n, Verif.iterN body' n b s = none := by
      intro n
      rcases iterN h n b s with hp | he
      · rw [hn] at hp; cases hp
      · rw [← he, hn]
    rw [iterM_eq_diverge hn, iterM_eq_diverge hn']
    exact .inr rfl

theorem selfTerm {P P' : ParserOps σ} (h : Stricter P.consumeByte P'.consumeByte) (f : Byte → Bool) (ret : Bytes) :
    Stricter (P.selfTermBody f ret) (P'.selfTermBody f ret) := by
  intro s
  unfold ParserOps.selfTermBody
  rcases h s with h | h
  · rw [h]; exact .inl rfl
  · rw [h]; exact .inr rfl

theorem vpTail {P P' : ParserOps σ} {f f' : PM σ α} (hs : ∀ n, Stricter (P.setFit n) (P'.setFit n))
    (he : Stricter P.enforceTarget P'.enforceTarget) (hf : Stricter f f') (r n : Nat) :
    Stricter (P.vpTail .debug r n f) (P'.vpTail .release r n f') := by
  intro s
  unfold ParserOps.vpTail
  by_cases h : r ≥ n
  · rw [if_neg (by simp [h]), if_neg (by simp), usub_of_le h, usub_of_le h]
    exact bind (hs _) (fun _ => bind hf fun _ => bind he fun _ => refl _) s
  · rw [if_pos ⟨rfl, h⟩]
    exact .inl rfl

/-- Parser calls that only panic more often make decoders that only panic more often. -/
theorem related {P P' : ParserOps σ} (enc enc' pad c c' : Bool) (h1 : Stricter P.remainder P'.remainder)
    (h2 : Stricter P.consumeByte P'.consumeByte) (h3 : ∀ n, Stricter (P.consume n) (P'.consume n))
    (h4 : ∀ n, Stricter (P.setFit n) (P'.setFit n)) (h5 : Stricter P.enforceTarget P'.enforceTarget) :
    Related P P' ⟨.debug, enc, pad, c⟩ ⟨.release, enc', pad, c'⟩ False (fun _ f g => Stricter f g) where
  refl := refl
  bind := bind
  loop := loop
  remainder := h1
  consumeByte := h2
  selfTerm := selfTerm h2
  consume := h3
  setFit := h4
  enforceTarget := h5
  vpTail r n _ _ h := vpTail h4 h5 h r n
  padTail n x _ := bind (h3 n) fun _ => refl _

end Stricter

/-! ### debug and release builds of the parsers -/

theorem uadd_strict (a b : Nat) : uadd .debug a b = none ∨ uadd .debug a b = uadd .release a b := by
  unfold uadd; split
  · exact .inr rfl
  · exact .inl rfl

theorem usub_strict (a b : Nat) : usub .debug a b = none ∨ usub .debug a b = usub .release a b := by
  unfold usub; split
  · exact .inr rfl
  · exact .inl rfl

theorem ContextOffset.advance_debug (n : Nat) (c : ContextOffset) :
    c.advance .debug n = none ∨ c.advance .debug n = c.advance .release n := by
  unfold ContextOffset.advance
  rcases uadd_strict c.cur n with h | h <;> rw [h]
  · exact .inl rfl
  · exact .inr rfl

theorem ContextOffset.rem_debug (c : ContextOffset) : c.rem .debug = none ∨ c.rem .debug = c.rem .release := by
  unfold ContextOffset.rem
  simp only []
  split
  · exact usub_strict _ _
  · exact .inl rfl

theorem ContextOffset.setFit_debug (n : Nat) : Stricter (setFit .debug n) (setFit .release n) := by
  intro c
  unfold ContextOffset.setFit
  rcases uadd_strict c.index n with h | h <;> rw [h]
  · exact .inl rfl
  · cases uadd .release c.index n with
    | none => exact .inr rfl
    | some t =>
      simp only []
      split
      · rcases usub_strict c.abs n with h | h <;> rw [h]
        · exact .inl rfl
        · exact .inr rfl
      · exact .inr rfl

theorem VecBuffer.getSliceUnchecked_debug (buf : Bytes) (ix len : Nat) :
    getSliceUnchecked .debug buf ix len = .panic ∨
      getSliceUnchecked .debug buf ix len = getSliceUnchecked .release buf ix len := by
  unfold getSliceUnchecked
  rcases uadd_strict ix len with h | h <;> rw [h]
  · exact .inl rfl
  · exact .inr rfl

theorem VecBuffer.getSlice_debug (buf : Bytes) (ix len : Nat) :
    getSlice .debug buf ix len = .panic ∨ getSlice .debug buf ix len = getSlice .release buf ix len := by
  unfold getSlice
  rcases uadd_strict ix len with h | h <;> rw [h]
  · exact .inl rfl
  · cases uadd .release ix len with
    | none => exact .inr rfl
    | some t =>
      simp only []
      split
      · exact getSliceUnchecked_debug _ _ _
      · exact .inr rfl

theorem ByteParser.liftOff_stricter {α : Type} {f g : PM ContextOffset α} (h : Stricter f g) :
    Stricter (liftOff f) (liftOff g) := by
  intro s
  unfold liftOff
  rcases h s.off with h | h <;> rw [h]
  · exact .inl rfl
  · exact .inr rfl

theorem MemoParser.liftOff_stricter {α : Type} {f g : PM ContextOffset α} (h : Stricter f g) :
    Stricter (liftOff f) (liftOff g) := by
  intro s
  unfold liftOff
  rcases h s.off with h | h <;> rw [h]
  · exact .inl rfl
  · exact .inr rfl

namespace ByteParser

theorem remainder_debug : Stricter (remainder .debug) (remainder .release) := by
  intro s
  unfold remainder
  rcases usub_strict s.viewLen s.offset with h | h <;> rw [h]
  · exact .inl rfl
  · exact .inr rfl

theorem consumeByte_debug : Stricter (consumeByte .debug) (consumeByte .release) := by
  intro s
  unfold consumeByte
  rcases s.off.advance_debug 1 with h | h <;> rw [h]
  · exact .inl rfl
  · exact .inr rfl

theorem consume_debug (n : Nat) : Stricter (consume .debug n) (consume .release n) := by
  intro s
  unfold consume
  rcases s.off.advance_debug n with h | h <;> rw [h]
  · exact .inl rfl
  · cases s.off.advance .release n with
    | none => exact .inr rfl
    | some r =>
      obtain ⟨⟨ix, adv⟩, o⟩ := r
      simp only []
      split
      · rcases VecBuffer.getSliceUnchecked_debug s.buffer ix n with h | h <;> rw [h]
        · exact .inl rfl
        · exact .inr rfl
      · exact .inr rfl

theorem skip_debug (n : Nat) : Stricter (skip .debug n) (skip .release n) := by
  intro s
  unfold skip
  rcases s.off.rem_debug with h | h <;> rw [h]
  · exact .inl rfl
  · cases s.off.rem .release with
    | none => exact .inr rfl
    | some r =>
      simp only []
      rcases s.off.advance_debug (min r n) with h | h <;> rw [h]
      · exact .inl rfl
      · exact .inr rfl

theorem skipExactly_debug (n : Nat) : Stricter (skipExactly .debug n) (skipExactly .release n) := by
  intro s
  unfold skipExactly
  rcases s.off.advance_debug n with h | h <;> rw [h]
  · exact .inl rfl
  · exact .inr rfl

end ByteParser

namespace MemoParser

theorem dumpGo_debug (buf : Bytes) : ∀ (ls : List Nat) (ix : Nat),
    dumpGo .debug buf ix ls = .panic ∨ dumpGo .debug buf ix ls = dumpGo .release buf ix ls
  | [], _ => .inr rfl
  | len :: ls, ix => by
    unfold dumpGo
    rcases VecBuffer.getSlice_debug buf ix len with h | h <;> rw [h]
    · exact .inl rfl
    · cases VecBuffer.getSlice .release buf ix len with
      | val seg =>
        simp only []
        rcases uadd_strict ix len with h | h <;> rw [h]
        · exact .inl rfl
        · cases uadd .release ix len with
          | none => exact .inr rfl
          | some t =>
            simp only []
            rcases dumpGo_debug buf ls t with h | h <;> rw [h]
            · exact .inl rfl
            · exact .inr rfl
      | _ => exact .inr rfl

theorem dump_debug (s : MemoParser) : s.dump .debug = .panic ∨ s.dump .debug = s.dump .release :=
  dumpGo_debug _ _ _

theorem failDump_debug {α : Type} (e : ParseError) : Stricter (failDump (α := α) .debug e) (failDump .release e) := by
  intro s
  unfold failDump
  rcases dump_debug s with h | h <;> rw [h]
  · exact .inl rfl
  · exact .inr rfl

theorem remainder_debug : Stricter (remainder .debug) (remainder .release) := by
  intro s
  unfold remainder
  rcases usub_strict s.viewLen s.offset with h | h <;> rw [h]
  · exact .inl rfl
  · exact .inr rfl

theorem consumeByte_debug : Stricter (consumeByte .debug) (consumeByte .release) := by
  intro s
  unfold consumeByte
  rcases s.off.advance_debug 1 with h | h <;> rw [h]
  · exact .inl rfl
  · cases s.off.advance .release 1 with
    | none => exact .inr rfl
    | some r =>
      obtain ⟨⟨ix, adv⟩, o⟩ := r
      simp only []
      split
      · exact .inr rfl
      · exact failDump_debug _ _

theorem consume_debug (n : Nat) : Stricter (consume .debug n) (consume .release n) := by
  intro s
  unfold consume
  rcases s.off.advance_debug n with h | h <;> rw [h]
  · exact .inl rfl
  · cases s.off.advance .release n with
    | none => exact .inr rfl
    | some r =>
      obtain ⟨⟨ix, adv⟩, o⟩ := r
      simp only []
      split
      · rcases VecBuffer.getSliceUnchecked_debug s.buffer ix n with h | h <;> rw [h]
        · exact .inl rfl
        · exact .inr rfl
      · exact failDump_debug _ _

theorem skip_debug (n : Nat) : Stricter (skip .debug n) (skip .release n) := by
  intro s
  unfold skip
  rcases s.off.rem_debug with h | h <;> rw [h]
  · exact .inl rfl
  · cases s.off.rem .release with
    | none => exact .inr rfl
    | some r =>
      simp only []
      rcases s.off.advance_debug (min r n) with h | h <;> rw [h]
      · exact .inl rfl
      · cases s.off.advance .release (min r n) with
        | none => exact .inr rfl
        | some r =>
          obtain ⟨⟨ix, adv⟩, o⟩ := r
          simp only []
          split
          · exact .inr rfl
          · rcases dump_debug s with h | h <;> rw [h]
            · exact .inl rfl
            · exact .inr rfl

theorem skipExactly_debug (n : Nat) : Stricter (skipExactly .debug n) (skipExactly .release n) := by
  intro s
  unfold skipExactly
  rcases s.off.advance_debug n with h | h <;> rw [h]
  · exact .inl rfl
  · cases s.off.advance .release n with
    | none => exact .inr rfl
    | some r =>
      obtain ⟨⟨ix, adv⟩, o⟩ := r
      simp only []
      split
      · exact .inr rfl
      · exact failDump_debug _ _

end MemoParser

namespace Backend

theorem remainder_debug : ∀ k : Backend, Stricter (k.ops .debug).remainder (k.ops .release).remainder
  | .byte => ByteParser.remainder_debug
  | .memo => MemoParser.remainder_debug
  | .slice => Stricter.refl _

theorem consumeByte_debug : ∀ k : Backend, Stricter (k.ops .debug).consumeByte (k.ops .release).consumeByte
  | .byte => ByteParser.consumeByte_debug
  | .memo => MemoParser.consumeByte_debug
  | .slice => Stricter.refl _

theorem consume_debug (n : Nat) : ∀ k : Backend, Stricter ((k.ops .debug).consume n) ((k.ops .release).consume n)
  | .byte => ByteParser.consume_debug n
  | .memo => MemoParser.consume_debug n
  | .slice => Stricter.refl _

theorem setFit_debug (n : Nat) : ∀ k : Backend, Stricter ((k.ops .debug).setFit n) ((k.ops .release).setFit n)
  | .byte => ByteParser.liftOff_stricter (ContextOffset.setFit_debug n)
  | .memo => MemoParser.liftOff_stricter (ContextOffset.setFit_debug n)
  | .slice => Stricter.refl _

theorem testTarget_debug : ∀ k : Backend, Stricter (k.ops .debug).testTarget (k.ops .release).testTarget
  | .byte | .memo | .slice => Stricter.refl _

theorem enforceTarget_debug : ∀ k : Backend, Stricter (k.ops .debug).enforceTarget (k.ops .release).enforceTarget
  | .byte | .memo | .slice => Stricter.refl _

theorem skip_debug (n : Nat) : ∀ k : Backend, Stricter ((k.ops .debug).skip n) ((k.ops .release).skip n)
  | .byte => ByteParser.skip_debug n
  | .memo => MemoParser.skip_debug n
  | .slice => Stricter.refl _

theorem skipExactly_debug (n : Nat) : ∀ k : Backend,
    Stricter ((k.ops .debug).skipExactly n) ((k.ops .release).skipExactly n)
  | .byte => ByteParser.skipExactly_debug n
  | .memo => MemoParser.skipExactly_debug n
  | .slice => Stricter.refl _

/-- Every operation of the API. -/
theorem run_debug (k : Backend) : ∀ op : Op, Stricter ((k.ops .debug).run op) ((k.ops .release).run op)
  | .viewLen => by cases k <;> exact Stricter.refl _
  | .offset => by cases k <;> exact Stricter.refl _
  | .remainder => (k.remainder_debug).bind fun _ => Stricter.refl _
  | .consumeByte => (k.consumeByte_debug).bind fun _ => Stricter.refl _
  | .consume n => (k.consume_debug n).bind fun _ => Stricter.refl _
  | .setFit n => (k.setFit_debug n).bind fun _ => Stricter.refl _
  | .testTarget => (k.testTarget_debug).bind fun _ => Stricter.refl _
  | .enforceTarget => (k.enforceTarget_debug).bind fun _ => Stricter.refl _
  | .skip n => (k.skip_debug n).bind fun _ => Stricter.refl _
  | .skipExactly n => (k.skipExactly_debug n).bind fun _ => Stricter.refl _

theorem related (k : Backend) (enc enc' pad c c' : Bool) :
    Related (k.ops .debug) (k.ops .release) ⟨.debug, enc, pad, c⟩ ⟨.release, enc', pad, c'⟩ False (fun _ f g => Stricter f g) :=
  Stricter.related _ _ _ _ _ k.remainder_debug k.consumeByte_debug (fun n => k.consume_debug n)
    (fun n => k.setFit_debug n) k.enforceTarget_debug

end Backend

/-! ### giving back the unread input -/

theorem ParserOps.cleanupBody_stricter {σ : Type} {P P' : ParserOps σ} (h1 : Stricter P.remainder P'.remainder)
    (h2 : ∀ n, Stricter (P.consume n) (P'.consume n)) (h3 : P.enforceTarget = P'.enforceTarget) (ret : CleanupResult) :
    Stricter (P.cleanupBody ret) (P'.cleanupBody ret) := by
  intro s
  unfold ParserOps.cleanupBody
  rcases h1 s with h | h <;> rw [h]
  · exact .inl rfl
  · cases P'.remainder s with
    | ok res s1 =>
      simp only [h3]
      split
      · have ht := h2 res s1
        unfold ParserOps.takeDynamic
        rcases ht with h | h <;> rw [h]
        · exact .inl rfl
        · exact .inr rfl
      · exact .inr rfl
    | _ => exact .inr rfl

theorem Backend.cleanup_debug : ∀ k : Backend, Stricter (k.cleanup .debug) (k.cleanup .release)
  | .byte => Stricter.loop _ fun r => ParserOps.cleanupBody_stricter (Backend.byte.remainder_debug)
      (fun n => Backend.byte.consume_debug n) rfl r
  | .memo => Stricter.loop _ fun r => ParserOps.cleanupBody_stricter (Backend.memo.remainder_debug)
      (fun n => Backend.memo.consume_debug n) rfl r
  | .slice => Stricter.refl _

theorem Backend.finish_debug {α : Type} (enc enc' pad pad' c : Bool) (k : Backend) (a : α) (s : k.State) :
    k.finish ⟨.debug, enc, pad, c⟩ a s = .panic ∨
      k.finish ⟨.debug, enc, pad, c⟩ a s = k.finish ⟨.release, enc', pad', c⟩ a s := by
  unfold Backend.finish
  cases c with
  | false => exact .inr rfl
  | true =>
    simp only [if_true]
    rcases k.cleanup_debug s with h | h <;> rw [h]
    · exact .inl rfl
    · exact .inr rfl

/-! ### checking paddings -/

/-- `f` does what `g` does, or refuses paddings that are not all zeros. -/
def PadOnly {σ α : Type} (f g : PM σ α) : Prop :=
  ∀ s, f s = g s ∨ ∃ bs s', f s = .err (.token (.nonNullPaddingByte bs)) s' ∧ ∃ b ∈ bs, b ≠ 0

namespace PadOnly

variable {σ α β : Type}

theorem refl (f : PM σ α) : PadOnly f f := fun _ => .inl rfl

theorem bind {f f' : PM σ α} {g g' : α → PM σ β} (hf : PadOnly f f') (hg : ∀ a, PadOnly (g a) (g' a)) :
    PadOnly (f >>= g) (f' >>= g') := by
  intro s
  rw [M.bind_run, M.bind_run]
  rcases hf s with h | ⟨bs, s', h, hb⟩
  · rw [← h]
    cases f s with
    | ok a s1 => exact hg a s1
    | _ => exact .inl rfl
  · rw [h]; exact .inr ⟨bs, s', rfl, hb⟩

theorem iterN {body body' : β → PM σ (β ⊕ α)} (h : ∀ b, PadOnly (body b) (body' b)) : ∀ n b s,
    iterN body n b s = iterN body' n b s ∨
      ∃ bs s', iterN body n b s = some (.err (.token (.nonNullPaddingByte bs)) s') ∧ ∃ b ∈ bs, b ≠ 0
  | 0, _, _ => .inl rfl
  | n + 1, b, s => by
    rw [Verif.iterN, Verif.iterN]
    rcases h b s with hb | ⟨bs, s', hb, hz⟩
    · rw [← hb]
      cases body b s with
      | ok r s1 =>
        cases r with
        | inl b' => exact iterN h n b' s1
        | inr a => exact .inl rfl
      | _ => exact .inl rfl
    · rw [hb]; exact .inr ⟨bs, s', rfl, hz⟩

theorem loop {body body' : β → PM σ (β ⊕ α)} (b : β) (h : ∀ b, PadOnly (body b) (body' b)) :
    PadOnly (iterM body b) (iterM body' b) := by
  intro s
  by_cases hex : ∃ n o, Verif.iterN body n b s = some o
  · obtain ⟨n, o, ho⟩ := hex
    rcases iterN h n b s with he | ⟨bs, s', he, hz⟩
    · rw [iterM_of_iterN ho, iterM_of_iterN (he ▸ ho)]
      exact .inl rfl
    · exact .inr ⟨bs, s', iterM_of_iterN he, hz⟩
  · have hn : ∀ n, Verif.iterN body n b s = none := by
      intro n
      cases h : Verif.iterN body n b s with
      | none => rfl
      | some o => exact absurd ⟨n, o, h⟩ hex
    have hn' : ∀ n, Verif.iterN body' n b s = none := by
      intro n
      rcases iterN h n b s with he | ⟨bs, s', he, _⟩
      · rw [← he, hn]
      · rw [hn] at he; cases he
    rw [iterM_eq_diverge hn, iterM_eq_diverge hn']
    exact .inl rfl

theorem exists_ne_zero {n : Nat} {bs : Bytes} (hl : bs.length = n) (h : bs ≠ List.replicate n 0) : ∃ b ∈ bs, b ≠ 0 := by
  by_cases hb : ∃ b ∈ bs, b ≠ 0
  · exact hb
  · refine absurd (List.eq_replicate_iff.2 ⟨hl, fun b hm => ?_⟩) h
    by_cases h0 : b = 0
    · exact h0
    · exact absurd ⟨b, hm, h0⟩ hb

theorem padTail {P : ParserOps σ} {n : Nat} (hl : ∀ s bs s', P.consume n s = .ok bs s' → bs.length = n) (x : α) (pad : Bool) :
    PadOnly (P.padTail pad n x) (P.padTail false n x) := by
  intro s
  unfold ParserOps.padTail
  rw [M.bind_run, M.bind_run]
  cases h : P.consume n s with
  | ok bs s1 =>
    simp only [Out.bind_ok]
    by_cases hc : pad = true ∧ bs ≠ List.replicate n 0
    · rw [if_pos hc]
      exact .inr ⟨bs, s1, rfl, exists_ne_zero (hl _ _ _ h) hc.2⟩
    · rw [if_neg hc, if_neg (by simp)]
      exact .inl rfl
  | _ => exact .inl rfl

/-- A parser that returns as many bytes as it is asked for. -/
theorem related {P : ParserOps σ} (p : Profile) (enc enc' pad c c' : Bool)
    (hl : ∀ n, n < usizeMod → ∀ s bs s', P.consume n s = .ok bs s' → bs.length = n) :
    Related P P ⟨p, enc, pad, c⟩ ⟨p, enc', false, c'⟩ True (fun _ f g => PadOnly f g) where
  refl := refl
  bind := bind
  loop := loop
  remainder := refl _
  consumeByte := refl _
  selfTerm _ _ := refl _
  consume _ := refl _
  setFit _ := refl _
  enforceTarget := refl _
  vpTail r n f f' h := by
    intro s
    unfold ParserOps.vpTail
    split
    · exact .inl rfl
    · cases usub p r n with
      | none => exact .inl rfl
      | some k => exact bind (refl _) (fun _ => bind h fun _ => refl _) s
  padTail n x hn := padTail (hl n (hn trivial)) x pad

end PadOnly

/-- Decoders that differ in nothing the parser notices. -/
theorem Related.same {σ : Type} (P : ParserOps σ) (p : Profile) (enc enc' pad c c' : Bool) :
    Related P P ⟨p, enc, pad, c⟩ ⟨p, enc', pad, c'⟩ False (fun _ f g => f = g) where
  refl _ := rfl
  bind h h' := by rw [h, funext h']
  loop b h := by rw [funext h]
  remainder := rfl
  consumeByte := rfl
  selfTerm _ _ := rfl
  consume _ := rfl
  setFit _ := rfl
  enforceTarget := rfl
  vpTail _ _ _ _ h := by rw [h]
  padTail _ _ _ := rfl

theorem VecBuffer.getSliceUnchecked_length {p : Profile} {buf : Bytes} {ix n : Nat} {bs : Bytes} (hn : n < usizeMod)
    (h : getSliceUnchecked p buf ix n = .val bs) : bs.length = n := by
  unfold getSliceUnchecked at h
  cases he : uadd p ix n with
  | none => rw [he] at h; cases h
  | some e =>
    rw [he] at h
    simp only [] at h
    split at h
    · rename_i hc
      have hb : bs.length = e - ix := by
        cases h
        simp only [List.length_take, List.length_drop]
        omega
      have : e = ix + n := by
        unfold uadd at he
        split at he
        · exact (Option.some.inj he).symm
        · cases p with
          | debug => cases he
          | release =>
            have h1 := Option.some.inj he
            rename_i hs
            have hm := Nat.mod_lt (ix + n) (y := usizeMod) (by omega)
            have hl : ix + n - usizeMod < usizeMod := by omega
            rw [Nat.mod_eq_sub_mod (by omega), Nat.mod_eq_of_lt hl] at h1
            exfalso
            omega
      omega
    · cases h

theorem Backend.consume_length (p : Profile) {n : Nat} (hn : n < usizeMod) : ∀ (k : Backend) (s : k.State) (bs : Bytes) (s' : k.State),
    (k.ops p).consume n s = .ok bs s' → bs.length = n
  | .byte, s, bs, s', h => by
    replace h : ByteParser.consume p n s = .ok bs s' := h
    unfold ByteParser.consume at h
    split at h
    · cases h
    · simp only [] at h
      split at h
      · split at h
        · rename_i hg
          cases h
          exact VecBuffer.getSliceUnchecked_length hn hg
        · cases h
        · cases h
      · cases h
  | .memo, s, bs, s', h => by
    replace h : MemoParser.consume p n s = .ok bs s' := h
    unfold MemoParser.consume at h
    split at h
    · cases h
    · simp only [] at h
      split at h
      · split at h
        · rename_i hg
          cases h
          exact VecBuffer.getSliceUnchecked_length hn hg
        · cases h
        · cases h
      · unfold MemoParser.failDump at h
        split at h <;> cases h
  | .slice, s, bs, s', h => by
    replace h : SliceParser.consume n s = .ok bs s' := h
    unfold SliceParser.consume at h
    split at h
    · cases h
    · split at h
      · unfold SliceParser.splitUnchecked at h
        rename_i hl
        rw [if_pos hl] at h
        cases h
        rw [List.length_take]
        omega
      · cases h

/-! ### writing -/

/-- Codecs that write and measure alike. -/
structure Codec.SameWrite {α : Type} (c c' : Codec α) : Prop where
  write : ∀ {τ : Type} (T : TargetOps τ) (x : α), c.write T x = c'.write T x
  known : c.known = c'.known
  unknown : ∀ x, c.unknown x = c'.unknown x

structure VCodec.SameWrite {α : Type} (c c' : VCodec α) : Prop where
  write : ∀ (w : TagWidth) {τ : Type} (T : TargetOps τ) (x : α), c.write w T x = c'.write w T x
  unknown : ∀ w x, c.unknown w x = c'.unknown w x

structure FCodec.SameWrite {α : Type} (c c' : FCodec α) : Prop where
  write : ∀ {τ : Type} (T : TargetOps τ) (x : α), c.write T x = c'.write T x
  known : c.known = c'.known
  unknown : ∀ x, c.unknown x = c'.unknown x

namespace Codec.SameWrite

variable {α : Type} {c c' : Codec α}

theorem rfl' (c : Codec α) : SameWrite c c := ⟨fun _ _ => rfl, rfl, fun _ => rfl⟩

theorem estimate (h : SameWrite c c') (x : α) : c.estimate x = c'.estimate x := by
  unfold Codec.estimate
  rw [h.known, h.unknown]

theorem encLen (h : SameWrite c c') {cfg cfg' : Cfg} (he : cfg.encLenOverride = cfg'.encLenOverride) (x : α) :
    c.encLen cfg x = c'.encLen cfg' x := by
  unfold Codec.encLen
  rw [he, h.estimate, h.write]

theorem writeList (h : SameWrite c c') {τ : Type} (T : TargetOps τ) : ∀ l, c.writeList T l = c'.writeList T l
  | [] => rfl
  | x :: xs => by
    unfold Codec.writeList
    rw [h.write, writeList h T xs]

theorem option (h : SameWrite c c') : SameWrite (Codec.option c) (Codec.option c') where
  write T x := by
    simp only [Codec.option, h.write]
  known := by simp only [Codec.option, h.known]
  unknown x := by
    simp only [Codec.option, h.estimate]

theorem nullable (h : SameWrite c c') : SameWrite (Codec.nullable c) (Codec.nullable c') where
  write T x := by
    simp only [Codec.nullable, h.write]
  known := by simp only [Codec.nullable, h.known]
  unknown x := by
    simp only [Codec.nullable, h.estimate]

theorem dynamic {cfg cfg' : Cfg} (he : cfg.encLenOverride = cfg'.encLenOverride) (S : LenPref) (h : SameWrite c c') :
    SameWrite (Codec.dynamic cfg S c) (Codec.dynamic cfg' S c') where
  write T x := by
    simp only [Codec.dynamic, h.write, h.encLen he]
  known := by simp only [Codec.dynamic, h.known]
  unknown x := by
    simp only [Codec.dynamic, h.unknown]

theorem padded {cfg cfg' : Cfg} (n : Nat) (h : SameWrite c c') :
    SameWrite (Codec.padded cfg n c) (Codec.padded cfg' n c') where
  write T x := by
    simp only [Codec.padded, h.write]
  known := by simp only [Codec.padded, h.known]
  unknown x := by
    simp only [Codec.padded, h.unknown]

theorem seq (h : SameWrite c c') : SameWrite (Codec.seq c) (Codec.seq c') where
  write T x := by
    simp only [Codec.seq, h.writeList]
  known := rfl
  unknown x := by
    simp only [Codec.seq, funext h.estimate]

theorem fixSeq (n : Nat) (h : SameWrite c c') : SameWrite (Codec.fixSeq n c) (Codec.fixSeq n c') where
  write T x := by
    simp only [Codec.fixSeq, h.writeList]
  known := by simp only [Codec.fixSeq, h.known]
  unknown x := by
    simp only [Codec.fixSeq, funext h.unknown]

theorem limSeq (n : Nat) (h : SameWrite c c') : SameWrite (Codec.limSeq n c) (Codec.limSeq n c') where
  write T x := by
    simp only [Codec.limSeq, h.writeList]
  known := rfl
  unknown x := by
    simp only [Codec.limSeq, funext h.estimate]

theorem record {f f' : FCodec α} (h : FCodec.SameWrite f f') : SameWrite (Codec.record f) (Codec.record f') where
  write T x := by
    simp only [Codec.record, h.write]
  known := h.known
  unknown := h.unknown

end Codec.SameWrite

theorem VCodec.SameWrite.nil : VCodec.SameWrite VCodec.nil VCodec.nil where
  write _ _ _ x := nomatch x
  unknown _ x := nomatch x

theorem VCodec.SameWrite.cons {α β : Type} {c c' : Codec α} {v v' : VCodec β} (tag : Nat) (h : Codec.SameWrite c c')
    (hv : VCodec.SameWrite v v') : VCodec.SameWrite (VCodec.cons tag c v) (VCodec.cons tag c' v') where
  write w _ T x := by
    cases x with
    | inl x => simp only [VCodec.cons, h.write]
    | inr y => exact hv.write w T y
  unknown w x := by
    cases x with
    | inl x => exact congrArg (w.len + ·) (h.estimate x)
    | inr y => exact hv.unknown w y

theorem FCodec.SameWrite.cons {α β : Type} {c c' : Codec α} {f f' : FCodec β} (h : Codec.SameWrite c c')
    (hf : FCodec.SameWrite f f') : FCodec.SameWrite (FCodec.cons c f) (FCodec.cons c' f') where
  write T x := by simp only [FCodec.cons, h.write, hf.write]
  known := by simp only [FCodec.cons, h.known, hf.known]
  unknown x := by simp only [FCodec.cons, h.unknown, hf.unknown]

mutual
theorem Schema.sameWrite {cfg cfg' : Cfg} (he : cfg.encLenOverride = cfg'.encLenOverride) : ∀ s : Schema,
    Codec.SameWrite (s.codec cfg) (s.codec cfg')
  | .unit | .bool | .int _ | .f64 | .rangedInt _ _ _ | .rangedFloat _ _ | .zarithN | .zarithZ | .bytes | .vecU8
  | .string | .fixedBytes _ | .fixedString _ | .cstyle _ _ | .hole _ => Codec.SameWrite.rfl' _
  | .option s => (s.sameWrite he).option
  | .nullable s => (s.sameWrite he).nullable
  | .dynamic S s => (s.sameWrite he).dynamic he S
  | .vpadded _ s => ⟨(s.sameWrite he).write, (s.sameWrite he).known, (s.sameWrite he).unknown⟩
  | .padded n s => (s.sameWrite he).padded n
  | .seq s => (s.sameWrite he).seq
  | .fixSeq n s => (s.sameWrite he).fixSeq n
  | .limSeq n s => (s.sameWrite he).limSeq n
  | .autobox s => ⟨(s.sameWrite he).write, (s.sameWrite he).known, (s.sameWrite he).unknown⟩
  | .data w vs => ⟨(vs.sameWrite he).write w, rfl, (vs.sameWrite he).unknown w⟩
  | .record fs => .record (fs.sameWrite he)
theorem Variants.sameWrite {cfg cfg' : Cfg} (he : cfg.encLenOverride = cfg'.encLenOverride) : ∀ vs : Variants,
    VCodec.SameWrite (vs.codec cfg) (vs.codec cfg')
  | .nil => .nil
  | .cons tag s vs => .cons tag (s.sameWrite he) (vs.sameWrite he)
theorem Fields.sameWrite {cfg cfg' : Cfg} (he : cfg.encLenOverride = cfg'.encLenOverride) : ∀ fs : Fields,
    FCodec.SameWrite (fs.codec cfg) (fs.codec cfg')
  | .nil => ⟨fun _ _ => rfl, rfl, fun _ => rfl⟩
  | .cons s fs => .cons (s.sameWrite he) (fs.sameWrite he)
end

end Verif
