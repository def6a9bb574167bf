import Verif.ErrorDebug
import Verif.Props.ErrorText
/-
C92: what `{:?}` of an error tells.
-/
namespace Verif.Props

/-! ### cutting texts -/

private def tok (c : Char) : Bool := c != ' ' && c != ','

private theorem tok_digit {c : Char} (h : c.isDigit = true) : tok c = true := by
  unfold tok
  simp only [Bool.and_eq_true, bne_iff_ne, ne_eq]
  refine ⟨?_, ?_⟩ <;> rintro rfl <;> exact absurd h (by decide)

private theorem tok_signed (n : Int) : ∀ c ∈ signed n, tok c = true := by
  intro c hc
  cases n with
  | ofNat n => exact tok_digit (decimal_digits n c hc)
  | negSucc n =>
    rcases List.mem_cons.mp hc with rfl | hc
    · decide
    · exact tok_digit (decimal_digits _ c hc)

/-- Rust prints an `f64` with `{:?}` as a sign, digits, a point and an exponent, as `inf` or as `NaN`; all that matters
is that there is no space and no comma. -/
def FloatWord (float : BitVec 64 → Text) : Prop := ∀ x, ∀ c ∈ float x, c ≠ ' ' ∧ c ≠ ','

private theorem tok_float {float : BitVec 64 → Text} (h : FloatWord float) (x : BitVec 64) : ∀ c ∈ float x, tok c = true := by
  intro c hc
  simp [tok, h x c hc]

private theorem window_cut {a b : WindowError} {x y : Text} (h : a.debug ++ x = b.debug ++ y) : a = b ∧ x = y := by
  cases a <;> cases b <;> simp only [WindowError.debug, List.append_assoc] at h
  all_goals first
    | exact absurd h (clash_ne (by decide))
    | skip
  · simp only [List.append_cancel_left_eq] at h
    obtain ⟨rfl, h⟩ := decimal_cut (by rfl) (by rfl) h
    simp only [List.append_cancel_left_eq] at h
    obtain ⟨rfl, h⟩ := decimal_cut (by rfl) (by rfl) h
    simp only [List.append_cancel_left_eq] at h
    obtain ⟨rfl, h⟩ := decimal_cut (by rfl) (by rfl) h
    simp only [List.append_cancel_left_eq] at h
    exact ⟨rfl, h⟩
  · simp only [List.append_cancel_left_eq] at h
    obtain ⟨rfl, h⟩ := decimal_cut (by rfl) (by rfl) h
    simp only [List.append_cancel_left_eq] at h
    obtain ⟨rfl, h⟩ := decimal_cut (by rfl) (by rfl) h
    simp only [List.append_cancel_left_eq] at h
    exact ⟨rfl, h⟩
  · simp only [List.append_cancel_left_eq] at h
    obtain ⟨rfl, h⟩ := decimal_cut (by rfl) (by rfl) h
    simp only [List.append_cancel_left_eq] at h
    obtain ⟨rfl, h⟩ := decimal_cut (by rfl) (by rfl) h
    simp only [List.append_cancel_left_eq] at h
    exact ⟨rfl, h⟩
  · simp only [List.append_cancel_left_eq] at h
    obtain ⟨rfl, h⟩ := decimal_cut (by rfl) (by rfl) h
    simp only [List.append_cancel_left_eq] at h
    exact ⟨rfl, h⟩
  · simp only [List.append_cancel_left_eq] at h
    exact ⟨rfl, h⟩
  · simp only [List.append_cancel_left_eq] at h
    obtain ⟨rfl, h⟩ := decimal_cut (by rfl) (by rfl) h
    simp only [List.append_cancel_left_eq] at h
    exact ⟨rfl, h⟩

private theorem internal_cut {a b : InternalError} {x y : Text} (h : a.debug ++ x = b.debug ++ y) : a = b ∧ x = y := by
  cases a <;> cases b <;> simp only [InternalError.debug] at h
  all_goals first
    | exact absurd h (clash_ne (by decide))
    | exact ⟨rfl, List.append_cancel_left h⟩

private theorem width_cut {a b : WidthError} {x y : Text} (h : a.debug ++ x = b.debug ++ y) : a = b ∧ x = y := by
  cases a <;> cases b <;> simp only [WidthError.debug, List.append_assoc] at h
  all_goals first
    | exact absurd h (clash_ne (by decide))
    | skip
  · simp only [List.append_cancel_left_eq] at h
    obtain ⟨rfl, h⟩ := decimal_cut (by rfl) (by rfl) h
    simp only [List.append_cancel_left_eq] at h
    obtain ⟨rfl, h⟩ := decimal_cut (by rfl) (by rfl) h
    simp only [List.append_cancel_left_eq] at h
    exact ⟨rfl, h⟩
  · simp only [List.append_cancel_left_eq] at h
    obtain ⟨rfl, h⟩ := decimal_cut (by rfl) (by rfl) h
    simp only [List.append_cancel_left_eq] at h
    obtain ⟨rfl, h⟩ := decimal_cut (by rfl) (by rfl) h
    simp only [List.append_cancel_left_eq] at h
    exact ⟨rfl, h⟩
  · simp only [List.append_cancel_left_eq] at h
    obtain ⟨rfl, h⟩ := debugList_cut h
    simp only [List.append_cancel_left_eq] at h
    obtain ⟨rfl, h⟩ := decimal_cut (by rfl) (by rfl) h
    simp only [List.append_cancel_left_eq] at h
    exact ⟨rfl, h⟩

private theorem length_cut {a b : LengthError} {x y : Text} (h : a.debug ++ x = b.debug ++ y) : a = b ∧ x = y := by
  cases a <;> cases b <;> simp only [LengthError.debug, List.append_assoc] at h
  all_goals first
    | exact absurd h (clash_ne (by decide))
    | skip
  · simp only [List.append_cancel_left_eq] at h
    obtain ⟨rfl, h⟩ := decimal_cut (by rfl) (by rfl) h
    simp only [List.append_cancel_left_eq] at h
    obtain ⟨rfl, h⟩ := decimal_cut (by rfl) (by rfl) h
    simp only [List.append_cancel_left_eq] at h
    exact ⟨rfl, h⟩
  · simp only [List.append_cancel_left_eq] at h
    obtain ⟨rfl, h⟩ := decimal_cut (by rfl) (by rfl) h
    simp only [List.append_cancel_left_eq] at h
    obtain ⟨rfl, h⟩ := decimal_cut (by rfl) (by rfl) h
    simp only [List.append_cancel_left_eq] at h
    exact ⟨rfl, h⟩

private theorem bounds_cut {α : Type} {f : α → Text} (hf : ∀ x, ∀ c ∈ f x, tok c = true) {a b : BoundsError α} {x y : Text}
    (h : a.debug f ++ x = b.debug f ++ y) : mapBounds f a = mapBounds f b ∧ x = y := by
  cases a <;> cases b <;> simp only [BoundsError.debug, List.append_assoc] at h
  all_goals first
    | exact absurd h (clash_ne (by decide))
    | skip
  · simp only [List.append_cancel_left_eq] at h
    obtain ⟨h₁, h⟩ := cut (hf _) (hf _) (by rfl) (by rfl) h
    simp only [List.append_cancel_left_eq] at h
    obtain ⟨h₂, h⟩ := cut (hf _) (hf _) (by rfl) (by rfl) h
    simp only [List.append_cancel_left_eq] at h
    exact ⟨by rw [mapBounds, mapBounds, h₁, h₂], h⟩
  · simp only [List.append_cancel_left_eq] at h
    obtain ⟨h₁, h⟩ := cut (hf _) (hf _) (by rfl) (by rfl) h
    simp only [List.append_cancel_left_eq] at h
    obtain ⟨h₂, h⟩ := cut (hf _) (hf _) (by rfl) (by rfl) h
    simp only [List.append_cancel_left_eq] at h
    exact ⟨by rw [mapBounds, mapBounds, h₁, h₂], h⟩
  · simp only [List.append_cancel_left_eq] at h
    obtain ⟨h₁, h⟩ := cut (hf _) (hf _) (by rfl) (by rfl) h
    simp only [List.append_cancel_left_eq] at h
    obtain ⟨h₂, h⟩ := cut (hf _) (hf _) (by rfl) (by rfl) h
    simp only [List.append_cancel_left_eq] at h
    exact ⟨by rw [mapBounds, mapBounds, h₁, h₂], h⟩
  · simp only [List.append_cancel_left_eq] at h
    obtain ⟨h₁, h⟩ := cut (hf _) (hf _) (by rfl) (by rfl) h
    simp only [List.append_cancel_left_eq] at h
    obtain ⟨h₂, h⟩ := cut (hf _) (hf _) (by rfl) (by rfl) h
    simp only [List.append_cancel_left_eq] at h
    exact ⟨by rw [mapBounds, mapBounds, h₁, h₂], h⟩
  · exact ⟨rfl, List.append_cancel_left h⟩

private theorem mapBounds_inj {α β : Type} {f : α → β} (hf : ∀ x y, f x = f y → x = y) {a b : BoundsError α}
    (h : mapBounds f a = mapBounds f b) : a = b := by
  cases a <;> cases b <;> simp only [mapBounds, reduceCtorEq] at h
  all_goals first
    | rfl
    | (injection h with h₁ h₂; rw [hf _ _ h₁, hf _ _ h₂])

private theorem tag_cut {n n' : Nat} {t t' : Text} {v v' : Option (List Nat)} {x y : Text} (ht : '"' ∉ t) (ht' : '"' ∉ t')
    (h : tagDebug n t v ++ x = tagDebug n' t' v' ++ y) : (n = n' ∧ t = t' ∧ v = v') ∧ x = y := by
  simp only [tagDebug, List.append_assoc, List.append_cancel_left_eq] at h
  obtain ⟨rfl, h⟩ := decimal_cut (by rfl) (by rfl) h
  simp only [List.append_cancel_left_eq] at h
  obtain ⟨rfl, h⟩ := cut (p := (· != '"')) (fun c hc => by simp only [bne_iff_ne, ne_eq]; rintro rfl; exact ht hc)
    (fun c hc => by simp only [bne_iff_ne, ne_eq]; rintro rfl; exact ht' hc) (by rfl) (by rfl) h
  simp only [List.append_cancel_left_eq] at h
  cases v <;> cases v' <;> simp only [List.append_assoc] at h
  · simp only [List.append_cancel_left_eq] at h
    exact ⟨⟨rfl, rfl, rfl⟩, h⟩
  · exact absurd h (clash_ne (by decide))
  · exact absurd h (clash_ne (by decide))
  · simp only [List.append_cancel_left_eq] at h
    obtain ⟨rfl, h⟩ := debugList_cut h
    simp only [List.append_cancel_left_eq] at h
    exact ⟨⟨rfl, rfl, rfl⟩, h⟩

/-- The error is about a tag. -/
def IsTag : ParseError → Prop
  | .token (.invalidTag ..) => True
  | _ => False

/-- The error carries a value of another crate's type. -/
def Opaque : ParseError → Prop
  | .external .genericError => True
  | .external .uncoercableString => True
  | _ => False

/-- Two errors that `{:?}` prints alike: they are the same error; only floats may differ that are printed alike. -/
inductive SameDebug (float : BitVec 64 → Text) : ParseError → ParseError → Prop where
  | same (e) : SameDebug float e e
  | floats {a b} (h : mapBounds float a = mapBounds float b) :
      SameDebug float (.external (.floatRangeViolation a)) (.external (.floatRangeViolation b))

private theorem token_cut {W W' : DebugWording} (ht : '"' ∉ W.forType) (ht' : '"' ∉ W'.forType) {a b : TokenError} {x y : Text}
    (h : a.debug W ++ x = b.debug W' ++ y) :
    a = b ∧ (IsTag (.token a) → W.forType = W'.forType) ∧ x = y := by
  cases a with
  | invalidBoolean a =>
    cases b with
    | invalidBoolean b =>
      simp only [TokenError.debug, List.append_assoc, List.append_cancel_left_eq] at h
      obtain ⟨h₁, h⟩ := decimal_cut (by rfl) (by rfl) h
      simp only [List.append_cancel_left_eq] at h
      exact ⟨by rw [UInt8.toNat_inj.mp h₁], False.elim, h⟩
    | invalidTag w n v => cases w <;> (simp only [TokenError.debug, TagWidth.variant, List.append_assoc] at h; exact absurd h (clash_ne (by decide)))
    | _ => simp only [TokenError.debug, List.append_assoc] at h; exact absurd h (clash_ne (by decide))
  | invalidTag w n v =>
    cases b with
    | invalidTag w' n' v' =>
      simp only [TokenError.debug, List.append_assoc] at h
      have hw : w = w' := by
        cases w <;> cases w' <;> first
          | rfl
          | (simp only [TagWidth.variant] at h; exact absurd h (clash_ne (by decide)))
      subst hw
      simp only [List.append_cancel_left_eq] at h
      obtain ⟨⟨rfl, e, rfl⟩, h₁⟩ := tag_cut ht ht' h
      exact ⟨rfl, fun _ => e, List.append_cancel_left h₁⟩
    | _ => cases w <;> (simp only [TokenError.debug, TagWidth.variant, List.append_assoc] at h; exact absurd h (clash_ne (by decide)))
  | nonTerminating a =>
    cases b with
    | nonTerminating b =>
      simp only [TokenError.debug, List.append_assoc, List.append_cancel_left_eq] at h
      obtain ⟨h₁, h⟩ := debugList_cut h
      simp only [List.append_cancel_left_eq] at h
      exact ⟨by rw [toNat_inj h₁], False.elim, h⟩
    | invalidTag w n v => cases w <;> (simp only [TokenError.debug, TagWidth.variant, List.append_assoc] at h; exact absurd h (clash_ne (by decide)))
    | _ => simp only [TokenError.debug, List.append_assoc] at h; exact absurd h (clash_ne (by decide))
  | nonNullPaddingByte a =>
    cases b with
    | nonNullPaddingByte b =>
      simp only [TokenError.debug, List.append_assoc, List.append_cancel_left_eq] at h
      obtain ⟨h₁, h⟩ := debugList_cut h
      simp only [List.append_cancel_left_eq] at h
      exact ⟨by rw [toNat_inj h₁], False.elim, h⟩
    | invalidTag w n v => cases w <;> (simp only [TokenError.debug, TagWidth.variant, List.append_assoc] at h; exact absurd h (clash_ne (by decide)))
    | _ => simp only [TokenError.debug, List.append_assoc] at h; exact absurd h (clash_ne (by decide))

private theorem external_cut {W W' : DebugWording} (hW : W'.float = W.float) (hf : FloatWord W.float) {a b : ExternalError}
    {x y : Text} (h : a.debug W ++ x = b.debug W' ++ y) :
    SameDebug W.float (.external a) (.external b) ∧ (¬ Opaque (.external a) → x = y) := by
  cases a <;> cases b <;> simp only [ExternalError.debug, List.append_assoc] at h
  all_goals first
    | exact absurd h (clash_ne (by decide))
    | skip
  · exact ⟨.same _, fun n => (n trivial).elim⟩
  · simp only [List.append_cancel_left_eq] at h
    obtain ⟨e, h⟩ := bounds_cut tok_signed h
    simp only [List.append_cancel_left_eq] at h
    rw [mapBounds_inj (fun _ _ => signed_inj) e]
    exact ⟨.same _, fun _ => h⟩
  · simp only [List.append_cancel_left_eq, hW] at h
    obtain ⟨e, h⟩ := bounds_cut (tok_float hf) h
    simp only [List.append_cancel_left_eq] at h
    exact ⟨.floats e, fun _ => h⟩
  · simp only [List.append_cancel_left_eq] at h
    obtain ⟨rfl, h⟩ := width_cut h
    simp only [List.append_cancel_left_eq] at h
    exact ⟨.same _, fun _ => h⟩
  · simp only [List.append_cancel_left_eq] at h
    obtain ⟨rfl, h⟩ := length_cut h
    simp only [List.append_cancel_left_eq] at h
    exact ⟨.same _, fun _ => h⟩
  · exact ⟨.same _, fun n => (n trivial).elim⟩

/-- C92: errors of parsing that `{:?}` prints alike are the same error with the same numbers, bytes and valid tags; only
floats may differ that are printed alike.  If the error is about a tag it was for the same type. -/
theorem C92_parse (W W' : DebugWording) (hW : W'.float = W.float) (hf : FloatWord W.float)
    (ht : '"' ∉ W.forType) (ht' : '"' ∉ W'.forType) (e e' : ParseError) (h : e.debug W = e'.debug W') :
    SameDebug W.float e e' ∧ (IsTag e → W.forType = W'.forType) := by
  have h : e.debug W ++ [] = e'.debug W' ++ [] := by rw [h]
  cases e with
  | window a =>
    cases e' with
    | window b =>
      simp only [ParseError.debug, List.append_assoc, List.append_cancel_left_eq] at h
      rw [(window_cut h).1]; exact ⟨.same _, False.elim⟩
    | _ => simp only [ParseError.debug, List.append_assoc] at h; exact absurd h (clash_ne (by decide))
  | internal a =>
    cases e' with
    | internal b =>
      simp only [ParseError.debug, List.append_assoc, List.append_cancel_left_eq] at h
      rw [(internal_cut h).1]; exact ⟨.same _, False.elim⟩
    | _ => simp only [ParseError.debug, List.append_assoc] at h; exact absurd h (clash_ne (by decide))
  | external a =>
    cases e' with
    | external b =>
      simp only [ParseError.debug, List.append_assoc, List.append_cancel_left_eq] at h
      exact ⟨(external_cut hW hf h).1, False.elim⟩
    | _ => simp only [ParseError.debug, List.append_assoc] at h; exact absurd h (clash_ne (by decide))
  | token a =>
    cases e' with
    | token b =>
      simp only [ParseError.debug, List.append_assoc, List.append_cancel_left_eq] at h
      obtain ⟨rfl, h₂, -⟩ := token_cut ht ht' h
      exact ⟨.same _, h₂⟩
    | _ => simp only [ParseError.debug, List.append_assoc] at h; exact absurd h (clash_ne (by decide))

private theorem bounds_debug {α : Type} {f : α → Text} {a b : BoundsError α} (h : mapBounds f a = mapBounds f b) :
    a.debug f = b.debug f := by
  cases a <;> cases b <;> simp only [mapBounds, reduceCtorEq] at h <;> first
    | rfl
    | (injection h with h₁ h₂; simp only [BoundsError.debug, h₁, h₂])

/-- C92: exactly these are printed alike. -/
theorem C92_iff (W : DebugWording) (hf : FloatWord W.float) (ht : '"' ∉ W.forType) (e e' : ParseError) :
    e.debug W = e'.debug W ↔ SameDebug W.float e e' := by
  refine ⟨fun h => (C92_parse W W rfl hf ht ht e e' h).1, fun h => ?_⟩
  cases h with
  | same => rfl
  | floats h => simp only [ParseError.debug, ExternalError.debug, bounds_debug h]

/-- C92: an error that is not about the range of a float is determined by its text. -/
theorem C92_determined (W : DebugWording) (hf : FloatWord W.float) (ht : '"' ∉ W.forType) (e e' : ParseError)
    (he : ∀ b, e ≠ .external (.floatRangeViolation b)) : e.debug W = e'.debug W ↔ e = e' := by
  rw [C92_iff W hf ht]
  constructor
  · intro h
    cases h with
    | same => rfl
    | floats h => exact absurd rfl (he _)
  · rintro rfl; exact .same _

/-! ### errors of clean-up and of decoding -/

private theorem parse_cut {W W' : DebugWording} (hW : W'.float = W.float) (hf : FloatWord W.float)
    (ht : '"' ∉ W.forType) (ht' : '"' ∉ W'.forType) {e e' : ParseError} {z : Text} (h : e.debug W ++ z = e'.debug W' ++ z) :
    SameDebug W.float e e' := (C92_parse W W' hW hf ht ht' e e' (List.append_cancel_right h)).1

/-- Errors of the clean-up that `{:?}` prints alike. -/
inductive SameInvariant (float : BitVec 64 → Text) : InvariantError → InvariantError → Prop where
  | case (e) : SameInvariant float (.caseUnexpected e) (.caseUnexpected e)
  | kind {e e'} (h : SameDebug float e e') : SameInvariant float (.kindUnexpected e) (.kindUnexpected e')
  | unexpected {e e'} (h : SameDebug float e e') : SameInvariant float (.unexpected e) (.unexpected e')

/-- C92: errors of the clean-up. -/
theorem C92_invariant (W : DebugWording) (hf : FloatWord W.float) (ht : '"' ∉ W.forType) (e e' : InvariantError) :
    e.debug W = e'.debug W ↔ SameInvariant W.float e e' := by
  constructor
  · intro h
    cases e with
    | caseUnexpected a =>
      cases e' with
      | caseUnexpected b =>
        simp only [InvariantError.debug, List.append_cancel_left_eq] at h
        rw [(window_cut (a := a) (b := b) (x := []) (y := []) (by rw [h])).1]; exact .case _
      | _ => simp only [InvariantError.debug] at h; exact absurd h (clash_ne (by decide))
    | kindUnexpected a =>
      cases e' with
      | kindUnexpected b =>
        simp only [InvariantError.debug, List.append_cancel_left_eq] at h
        exact .kind (C92_parse W W rfl hf ht ht a b h).1
      | _ => simp only [InvariantError.debug] at h; exact absurd h (clash_ne (by decide))
    | unexpected a =>
      cases e' with
      | unexpected b =>
        simp only [InvariantError.debug, List.append_cancel_left_eq] at h
        exact .unexpected (C92_parse W W rfl hf ht ht a b h).1
      | _ => simp only [InvariantError.debug] at h; exact absurd h (clash_ne (by decide))
  · intro h
    cases h with
    | case => rfl
    | kind h => rw [InvariantError.debug, InvariantError.debug, (C92_iff W hf ht _ _).mpr h]
    | unexpected h => rw [InvariantError.debug, InvariantError.debug, (C92_iff W hf ht _ _).mpr h]

/-- Errors of decoding that `{:?}` prints alike; unlike with `{}` a string that is not hex is shown. -/
inductive SameDecode (float : BitVec 64 → Text) : DecodeError → DecodeError → Prop where
  | conv (e) : SameDecode float (.conv e) (.conv e)
  | parse {e e'} (h : SameDebug float e e') : SameDecode float (.parse e) (.parse e')
  | invariant {e e'} (h : SameInvariant float e e') : SameDecode float (.invariant e) (.invariant e')
  | nonEmpty {l l'} (h : l.debug = l'.debug) : SameDecode float (.nonEmpty l) (.nonEmpty l')

/-- C92: errors of decoding.  (C72_leftover tells what the text of a left-over state shows.) -/
theorem C92_decode (W : DebugWording) (hf : FloatWord W.float) (ht : '"' ∉ W.forType) (e e' : DecodeError)
    (hp : (e.debug W).isSome = true) : e.debug W = e'.debug W ↔ SameDecode W.float e e' := by
  constructor
  · intro h
    cases e with
    | conv a =>
      cases e' with
      | conv b =>
        simp only [DecodeError.debug, Option.some.injEq, List.append_assoc, List.append_cancel_left_eq] at h
        rw [C72_hex_debug a b (List.append_cancel_right h)]; exact .conv _
      | nonEmpty b => simp only [DecodeError.debug] at h; cases hb : b.debug <;> simp only [hb, Option.map_none, Option.map_some, reduceCtorEq, Option.some.injEq, List.append_assoc] at h; exact absurd h (clash_ne (by decide))
      | _ => simp only [DecodeError.debug, Option.some.injEq, List.append_assoc] at h; exact absurd h (clash_ne (by decide))
    | parse a =>
      cases e' with
      | parse b =>
        simp only [DecodeError.debug, Option.some.injEq, List.append_assoc, List.append_cancel_left_eq] at h
        exact .parse (parse_cut rfl hf ht ht h)
      | nonEmpty b => simp only [DecodeError.debug] at h; cases hb : b.debug <;> simp only [hb, Option.map_none, Option.map_some, reduceCtorEq, Option.some.injEq, List.append_assoc] at h; exact absurd h (clash_ne (by decide))
      | _ => simp only [DecodeError.debug, Option.some.injEq, List.append_assoc] at h; exact absurd h (clash_ne (by decide))
    | invariant a =>
      cases e' with
      | invariant b =>
        simp only [DecodeError.debug, Option.some.injEq, List.append_assoc, List.append_cancel_left_eq] at h
        exact .invariant ((C92_invariant W hf ht a b).mp (List.append_cancel_right h))
      | nonEmpty b => simp only [DecodeError.debug] at h; cases hb : b.debug <;> simp only [hb, Option.map_none, Option.map_some, reduceCtorEq, Option.some.injEq, List.append_assoc] at h; exact absurd h (clash_ne (by decide))
      | _ => simp only [DecodeError.debug, Option.some.injEq, List.append_assoc] at h; exact absurd h (clash_ne (by decide))
    | nonEmpty a =>
      cases e' with
      | nonEmpty b =>
        simp only [DecodeError.debug] at h hp
        refine .nonEmpty ?_
        cases ha : a.debug with
        | none => simp [ha] at hp
        | some x =>
          cases hb : b.debug with
          | none => simp [ha, hb] at h
          | some y =>
            simp only [ha, hb, Option.map_some, Option.some.injEq, List.append_assoc, List.append_cancel_left_eq] at h
            rw [List.append_cancel_right h]
      | _ => simp only [DecodeError.debug] at h; cases hb : a.debug <;> simp only [hb, Option.map_none, Option.map_some, reduceCtorEq, Option.some.injEq, List.append_assoc] at h; exact absurd h (clash_ne (by decide))
  · intro h
    cases h with
    | conv => rfl
    | parse h => simp only [DecodeError.debug, (C92_iff W hf ht _ _).mpr h]
    | invariant h => simp only [DecodeError.debug, (C92_invariant W hf ht _ _).mpr h]
    | nonEmpty h => simp only [DecodeError.debug, h]

/-- C92: printing an error never panics; for left-over states it holds of those that clean-up builds. -/
theorem C92_prints (W : DebugWording) (e : DecodeError)
    (h : ∀ l, e = .nonEmpty l → ∃ ops, l = leftRun .new ops) : (e.debug W).isSome = true := by
  cases e with
  | nonEmpty l =>
    obtain ⟨ops, rfl⟩ := h l rfl
    simp only [DecodeError.debug, Option.isSome_map]
    exact (C72_leftover ops ops).1
  | _ => rfl

/-- C92: unlike with `{}`, the tags that would have been valid and the width of the tag are shown. -/
theorem C92_tag (W : DebugWording) (ht : '"' ∉ W.forType) (w w' : TagWidth) (n n' : Nat) (v v' : Option (List Nat)) :
    (ParseError.token (.invalidTag w n v)).debug W = (ParseError.token (.invalidTag w' n' v')).debug W ↔
      w = w' ∧ n = n' ∧ v = v' := by
  constructor
  · intro h
    simp only [ParseError.debug, List.append_assoc, List.append_cancel_left_eq] at h
    have := (token_cut ht ht h).1
    injection this with h1 h2 h3
    exact ⟨h1, h2, h3⟩
  · rintro ⟨rfl, rfl, rfl⟩; rfl

/-! ### examples -/

example : (ParseError.token (.invalidTag .u8 7 (some [1, 2]))).debug ⟨fun _ => [], text! "Color", [], []⟩ =
    text! "Token(InvalidTagU8(TagError { actual: 7, for_type: \"Color\", expected: Some([1, 2]) }))" := by decide +kernel
example : (ParseError.window (.consumeWouldExceedLimit 3 4 5)).debug ⟨fun _ => [], [], [], []⟩ =
    text! "Window(ConsumeWouldExceedLimit { offset: 3, requested: 4, limit: 5 })" := by decide +kernel
example : (ParseError.external (.intRangeViolation (.underflow (-3) (-4)))).debug ⟨fun _ => [], [], [], []⟩ =
    text! "External(IntRangeViolation(Underflow { min: -3, val: -4 }))" := by decide +kernel
example : (InvariantError.caseUnexpected .closeWithoutWindow).debug ⟨fun _ => [], [], [], []⟩ =
    text! "unexpected WindowError variant encountered: CloseWithoutWindow" := by decide +kernel
example : (DecodeError.nonEmpty (.windowless [1, 20])).debug ⟨fun _ => [], [], [], []⟩ =
    some text! "NonEmpty(Windowless([1, 20]))" := by decide +kernel
example : FloatWord (fun _ => text! "1e16") ∧ '"' ∉ text! "Color" := by
  refine ⟨fun _ c hc => ?_, by decide⟩
  have : ∀ c ∈ text! "1e16", c ≠ ' ' ∧ c ≠ ',' := by decide
  exact this c hc
example : ∃ e : ParseError, ∀ b, e ≠ .external (.floatRangeViolation b) :=
  ⟨.internal .noValidTags, fun _ h => nomatch h⟩

end Verif.Props
