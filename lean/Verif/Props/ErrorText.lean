import Verif.Lemmas.ErrorText
import Verif.Props.Cleanup
/-
C72: what an error message tells.
-/
namespace Verif.Props

/-- The same bounds error about other numbers. -/
def mapBounds {α β : Type} (f : α → β) : BoundsError α → BoundsError β
  | .underflow a b => .underflow (f a) (f b)
  | .overflow a b => .overflow (f a) (f b)
  | .invalidBounds a b => .invalidBounds (f a) (f b)
  | .illegalNegative a b => .illegalNegative (f a) (f b)
  | .failed => .failed

/-- Two errors that read the same: they are the same error, except that the type of a tag and the tags that would
have been valid are not printed, and that numbers are printed alike whether integers or floats. -/
inductive Alike (float : BitVec 64 → Text) : ParseError → ParseError → Prop where
  | same (e) : Alike float e e
  | tag {w w' n} (v v') (h : altHex (w.size * 2) n = altHex (w'.size * 2) n) :
      Alike float (.token (.invalidTag w n v)) (.token (.invalidTag w' n v'))
  | floats {a b} (h : mapBounds float a = mapBounds float b) :
      Alike float (.external (.floatRangeViolation a)) (.external (.floatRangeViolation b))
  | intFloat {a b} (h : mapBounds signed a = mapBounds float b) :
      Alike float (.external (.intRangeViolation a)) (.external (.floatRangeViolation b))
  | floatInt {a b} (h : mapBounds float a = mapBounds signed b) :
      Alike float (.external (.floatRangeViolation a)) (.external (.intRangeViolation b))

/-- Rust prints an `f64` as a sign, digits and a point, as `inf` or as `NaN`. -/
def FloatChar (c : Char) : Prop := c.isDigit = true ∨ c ∈ ['-', '.', 'i', 'n', 'f', 'N', 'a']

def FloatText (float : BitVec 64 → Text) : Prop := ∀ x, ∀ c ∈ float x, FloatChar c

/-! ### bounds errors -/

private def tok (c : Char) : Bool := c != ' ' && c != ',' && c != ')'

private theorem tok_digit {c : Char} (h : c.isDigit = true) : tok c = true := by
  unfold tok
  simp only [Bool.and_eq_true, bne_iff_ne, ne_eq]
  refine ⟨⟨?_, ?_⟩, ?_⟩ <;> rintro rfl <;> exact absurd h (by decide)

private theorem tok_float {c : Char} (h : FloatChar c) : tok c = true := by
  rcases h with h | h
  · exact tok_digit h
  · have : ∀ c ∈ ['-', '.', 'i', 'n', 'f', 'N', 'a'], tok c = true := by decide
    exact this c h

private theorem tok_signed (n : Int) : ∀ c ∈ signed n, tok c = true := by
  intro c hc
  cases n with
  | ofNat n => exact tok_digit (decimal_digits n c hc)
  | negSucc n =>
    rcases List.mem_cons.mp hc with rfl | hc
    · decide
    · exact tok_digit (decimal_digits _ c hc)

private theorem tok_ends {a b : Text} (ha : ∀ c ∈ a, tok c = true) (hb : ∀ c ∈ b, tok c = true) {x y : Text}
    (hx : stops tok x = true) (hy : stops tok y = true) (h : a ++ x = b ++ y) : a = b ∧ x = y := cut ha hb hx hy h

/-- The texts of bounds errors tell the case and the two numbers as printed. -/
private theorem bounds_text {α β : Type} {f : α → Text} {g : β → Text} (hf : ∀ x, ∀ c ∈ f x, tok c = true)
    (hg : ∀ x, ∀ c ∈ g x, tok c = true) {F G : Text} : ∀ {a : BoundsError α} {b : BoundsError β},
    a.text f F = b.text g G → mapBounds f a = mapBounds g b := by
  intro a b h
  cases a with
  | underflow m v =>
    cases b with
    | underflow m' v' =>
      simp only [BoundsError.text, List.append_assoc, List.append_cancel_left_eq] at h
      obtain ⟨h₁, h₂⟩ := tok_ends (hf v) (hg v') (by rfl) (by rfl) h
      simp only [List.append_cancel_left_eq] at h₂
      simp only [mapBounds, h₁, h₂]
    | overflow m' v' =>
      simp only [BoundsError.text, List.append_assoc, List.append_cancel_left_eq] at h
      obtain ⟨h₁, h₂⟩ := tok_ends (hf v) (hg v') (by rfl) (by rfl) h
      exact absurd h₂ (clash_ne (by decide))
    | invalidBounds m' v' =>
      simp only [BoundsError.text, List.append_assoc] at h
      exact absurd h (clash_ne (by decide))
    | illegalNegative m' v' =>
      simp only [BoundsError.text, List.append_assoc] at h
      exact absurd h (clash_ne (by decide))
    | failed =>
      simp only [BoundsError.text, List.append_assoc] at h
      exact absurd h (clash_ne (by decide))
  | overflow m v =>
    cases b with
    | underflow m' v' =>
      simp only [BoundsError.text, List.append_assoc, List.append_cancel_left_eq] at h
      obtain ⟨h₁, h₂⟩ := tok_ends (hf v) (hg v') (by rfl) (by rfl) h
      exact absurd h₂ (clash_ne (by decide))
    | overflow m' v' =>
      simp only [BoundsError.text, List.append_assoc, List.append_cancel_left_eq] at h
      obtain ⟨h₁, h₂⟩ := tok_ends (hf v) (hg v') (by rfl) (by rfl) h
      simp only [List.append_cancel_left_eq] at h₂
      simp only [mapBounds, h₁, h₂]
    | invalidBounds m' v' =>
      simp only [BoundsError.text, List.append_assoc] at h
      exact absurd h (clash_ne (by decide))
    | illegalNegative m' v' =>
      simp only [BoundsError.text, List.append_assoc] at h
      exact absurd h (clash_ne (by decide))
    | failed =>
      simp only [BoundsError.text, List.append_assoc] at h
      exact absurd h (clash_ne (by decide))
  | invalidBounds m v =>
    cases b with
    | invalidBounds m' v' =>
      simp only [BoundsError.text, List.append_assoc, List.append_cancel_left_eq] at h
      obtain ⟨h₁, h₂⟩ := tok_ends (hf m) (hg m') (by rfl) (by rfl) h
      simp only [List.append_cancel_left_eq] at h₂
      obtain ⟨h₃, _⟩ := tok_ends (hf v) (hg v') (by rfl) (by rfl) h₂
      simp only [mapBounds, h₁, h₃]
    | _ =>
      simp only [BoundsError.text, List.append_assoc] at h
      exact absurd h (clash_ne (by decide))
  | illegalNegative m v =>
    cases b with
    | illegalNegative m' v' =>
      simp only [BoundsError.text, List.append_assoc, List.append_cancel_left_eq] at h
      obtain ⟨h₁, h₂⟩ := tok_ends (hf v) (hg v') (by rfl) (by rfl) h
      simp only [List.append_cancel_left_eq] at h₂
      obtain ⟨h₃, _⟩ := tok_ends (hf m) (hg m') (by rfl) (by rfl) h₂
      simp only [mapBounds, h₁, h₃]
    | _ =>
      simp only [BoundsError.text, List.append_assoc] at h
      exact absurd h (clash_ne (by decide))
  | failed =>
    cases b with
    | failed => rfl
    | _ =>
      simp only [BoundsError.text, List.append_assoc] at h
      exact absurd h (clash_ne (by decide))

private theorem mapBounds_inj {α β : Type} {f : α → β} (hf : ∀ {x y}, f x = f y → x = y) :
    ∀ {a b : BoundsError α}, mapBounds f a = mapBounds f b → a = b := by
  intro a b h
  cases a <;> cases b <;> simp only [mapBounds, BoundsError.underflow.injEq, BoundsError.overflow.injEq,
    BoundsError.invalidBounds.injEq, BoundsError.illegalNegative.injEq, reduceCtorEq] at h
  · rw [hf h.1, hf h.2]
  · rw [hf h.1, hf h.2]
  · rw [hf h.1, hf h.2]
  · rw [hf h.1, hf h.2]
  · rfl

/-! ### how messages begin -/

private inductive Kind where
  | inc | openB | openW | close | none | bug | bool | tag | term | pad | slice | noTags
  | provided | range | convert | negative | byteLength | str | number
  deriving DecidableEq

private def Kind.head : Kind → Text
  | inc => text! "cannot increment offset by "
  | openB => text! "cannot open "
  | openW => text! "Cannot open "
  | close => text! "cannot close context window with "
  | none => text! "no context window to close"
  | bug => text! "BUG: detected an offset that exceeds the current limit by "
  | bool => text! "invalid boolean encoding 0x"
  | tag => text! "invalid tag: "
  | term => text! "element failed to terminate: "
  | pad => text! "non-null byte found in padding: "
  | slice => text! "failed to coerce from byte-slice to fixed-length array"
  | noTags => text! "cannot parse enum with no known-valid discriminants"
  | provided => text! "provided value "
  | range => text! "min <= max is not satisfied for the range ("
  | convert => text! "could not convert for bounds-checking: "
  | negative => text! "negative value "
  | byteLength => text! "byte-length "
  | str => text! "parsed byte-array could not be coerced to String: "
  | number => []

private def boundsKind {α : Type} : BoundsError α → Kind
  | .underflow .. | .overflow .. => .provided
  | .invalidBounds .. => .range
  | .illegalNegative .. => .negative
  | .failed => .convert

private def kind : ParseError → Kind
  | .window (.consumeWouldExceedLimit ..) => .inc
  | .window (.openWouldExceedBuffer ..) => .openB
  | .window (.openWouldExceedWindow ..) => .openW
  | .window (.closeWithResidue ..) => .close
  | .window .closeWithoutWindow => .none
  | .window (.offsetOverflow ..) => .bug
  | .token (.invalidBoolean ..) => .bool
  | .token (.invalidTag ..) => .tag
  | .token (.nonTerminating ..) => .term
  | .token (.nonNullPaddingByte ..) => .pad
  | .internal .sliceCoerceFailure => .slice
  | .internal .noValidTags => .noTags
  | .external (.intRangeViolation e) => boundsKind e
  | .external (.floatRangeViolation e) => boundsKind e
  | .external .uncoercableString => .str
  | .external (.widthViolation (.invalidWidth ..)) => .byteLength
  | .external (.widthViolation _) => .number
  | .external (.lengthViolation _) => .number
  | .external .genericError => .number

private theorem head_bounds {α : Type} (f : α → Text) (F : Text) (e : BoundsError α) :
    ∃ r, e.text f F = (boundsKind e).head ++ r := by
  cases e <;> exact ⟨_, by simp only [BoundsError.text, List.append_assoc]; rfl⟩

private theorem head_text (W : Wording) (e : ParseError) : ∃ r, e.text W = (kind e).head ++ r := by
  cases e with
  | window e =>
    cases e with
    | openWouldExceedBuffer a b =>
      by_cases h : a = 0
      · exact ⟨_, by simp only [ParseError.text, WindowError.text, h, if_true, List.append_assoc]; rfl⟩
      · exact ⟨_, by simp only [ParseError.text, WindowError.text, h, if_false, List.append_assoc]; rfl⟩
    | closeWithoutWindow => exact ⟨[], by rw [List.append_nil]; rfl⟩
    | _ => exact ⟨_, by simp only [ParseError.text, WindowError.text, List.append_assoc]; rfl⟩
  | internal e => cases e <;> exact ⟨[], by rw [List.append_nil]; rfl⟩
  | external e =>
    cases e with
    | intRangeViolation e => exact head_bounds _ _ e
    | floatRangeViolation e => exact head_bounds _ _ e
    | uncoercableString => exact ⟨_, rfl⟩
    | widthViolation e =>
      cases e with
      | invalidWidth => exact ⟨_, by simp only [ParseError.text, ExternalError.text, WidthError.text, List.append_assoc]; rfl⟩
      | _ => exact ⟨_, rfl⟩
    | lengthViolation e => exact ⟨_, rfl⟩
    | genericError => exact ⟨_, rfl⟩
  | token e =>
    cases e with
    | nonTerminating => exact ⟨_, by simp only [ParseError.text, TokenError.text, writeHex_eq]; rfl⟩
    | nonNullPaddingByte => exact ⟨_, by simp only [ParseError.text, TokenError.text, writeHex_eq]; rfl⟩
    | _ => exact ⟨_, rfl⟩

private def digitFirst : Text → Bool
  | c :: _ => c.isDigit
  | [] => false

private theorem digitFirst_decimal (n : Nat) (x : Text) : digitFirst (decimal n ++ x) = true := by
  cases h : decimal n with
  | nil => exact absurd h (decimal_ne_nil n)
  | cons c cs => exact decimal_digits n c (by rw [h]; simp)

private theorem number_first (W : Wording) {e : ParseError} (hg : e ≠ .external .genericError) :
    digitFirst (e.text W) = true ↔ kind e = .number := by
  constructor
  · intro h
    obtain ⟨r, hr⟩ := head_text W e
    rw [hr] at h
    cases hk : kind e <;> first | rfl | (rw [hk] at h; exact absurd h (by simp [Kind.head, digitFirst]))
  · intro h
    cases e with
    | window e => cases e <;> simp [kind] at h
    | internal e => cases e <;> simp [kind] at h
    | token e => cases e <;> simp [kind] at h
    | external e =>
      cases e with
      | intRangeViolation e => cases e <;> simp [kind, boundsKind] at h
      | floatRangeViolation e => cases e <;> simp [kind, boundsKind] at h
      | uncoercableString => simp [kind] at h
      | genericError => exact absurd rfl hg
      | widthViolation e =>
        cases e with
        | invalidWidth => simp [kind] at h
        | _ => simp only [ParseError.text, ExternalError.text, WidthError.text, List.append_assoc, digitFirst_decimal]
      | lengthViolation e =>
        cases e <;> simp only [ParseError.text, ExternalError.text, LengthError.text, List.append_assoc, digitFirst_decimal]

private theorem kinds (k l : Kind) (hk : k ≠ .number) (hl : l ≠ .number) (h : k ≠ l) : clash k.head l.head = true := by
  cases k <;> cases l <;> first | exact absurd rfl h | exact absurd rfl hk | exact absurd rfl hl | decide

private theorem kind_eq {W W' : Wording} {e e' : ParseError} (hg : e ≠ .external .genericError)
    (hg' : e' ≠ .external .genericError) (h : e.text W = e'.text W') : kind e = kind e' := by
  have hn := number_first W hg
  have hn' := number_first W' hg'
  rw [h] at hn
  by_cases hk : kind e = .number
  · rw [hk, hn'.mp (hn.mpr hk)]
  · have hk' : kind e' ≠ .number := fun x => hk (hn.mp (hn'.mpr x))
    apply Classical.byContradiction
    intro hne
    obtain ⟨r, hr⟩ := head_text W e
    obtain ⟨r', hr'⟩ := head_text W' e'
    rw [hr, hr'] at h
    exact clash_ne (kinds _ _ hk hk' hne) h

/-! ### the theorems -/

private theorem window_text {e e' : WindowError} (hk : kind (.window e) = kind (.window e')) (h : e.text = e'.text) :
    e = e' := by
  cases e <;> cases e' <;> simp only [kind, reduceCtorEq] at hk
  · simp only [WindowError.text, List.append_assoc, List.append_cancel_left_eq] at h
    obtain ⟨h₁, h⟩ := decimal_cut (by rfl) (by rfl) h
    simp only [List.append_cancel_left_eq] at h
    obtain ⟨h₂, h⟩ := decimal_cut (by rfl) (by rfl) h
    simp only [List.append_cancel_left_eq] at h
    obtain ⟨h₃, _⟩ := decimal_cut (by rfl) (by rfl) h
    rw [h₁, h₂, h₃]
  · rename_i a r a' r'
    by_cases ha : a = 0 <;> by_cases ha' : a' = 0 <;>
      simp only [WindowError.text, ha, ha', if_true, if_false, List.append_assoc, List.append_cancel_left_eq] at h <;>
      obtain ⟨h₁, h⟩ := decimal_cut (by rfl) (by rfl) h
    · rw [ha, ha', h₁]
    · exact absurd h (by simp)
    · exact absurd h (by simp)
    · simp only [List.append_cancel_left_eq] at h
      obtain ⟨h₂, _⟩ := decimal_cut (by rfl) (by rfl) h
      rw [h₁, h₂]
  · simp only [WindowError.text, List.append_assoc, List.append_cancel_left_eq] at h
    obtain ⟨h₁, h⟩ := decimal_cut (by rfl) (by rfl) h
    simp only [List.append_cancel_left_eq] at h
    obtain ⟨h₂, _⟩ := decimal_cut (by rfl) (by rfl) h
    rw [h₁, h₂]
  · simp only [WindowError.text, List.append_assoc, List.append_cancel_left_eq] at h
    rw [(decimal_cut (by rfl) (by rfl) h).1]
  · rfl
  · simp only [WindowError.text, List.append_assoc, List.append_cancel_left_eq] at h
    rw [(decimal_cut (by rfl) (by rfl) h).1]

private theorem width_text {e e' : WidthError} (hk : kind (.external (.widthViolation e)) = kind (.external (.widthViolation e')))
    (h : e.text = e'.text) : e = e' := by
  cases e <;> cases e' <;> simp only [kind, reduceCtorEq] at hk
  · simp only [WidthError.text, List.append_assoc] at h
    obtain ⟨h₁, h⟩ := decimal_cut (by rfl) (by rfl) h
    simp only [List.append_cancel_left_eq] at h
    rw [h₁, (decimal_cut (by rfl) (by rfl) h).1]
  · simp only [WidthError.text, List.append_assoc] at h
    obtain ⟨_, h⟩ := decimal_cut (by rfl) (by rfl) h
    exact absurd h (clash_ne (by decide))
  · simp only [WidthError.text, List.append_assoc] at h
    obtain ⟨_, h⟩ := decimal_cut (by rfl) (by rfl) h
    exact absurd h (clash_ne (by decide))
  · simp only [WidthError.text, List.append_assoc] at h
    obtain ⟨h₁, h⟩ := decimal_cut (by rfl) (by rfl) h
    simp only [List.append_cancel_left_eq] at h
    rw [h₁, (decimal_cut (by rfl) (by rfl) h).1]
  · simp only [WidthError.text, List.append_assoc, List.append_cancel_left_eq] at h
    obtain ⟨h₁, h⟩ := decimal_cut (by rfl) (by rfl) h
    simp only [List.append_cancel_left_eq] at h
    rw [h₁, (debugList_cut h).1]

private theorem length_text {e e' : LengthError} (h : e.text = e'.text) : e = e' := by
  cases e <;> cases e' <;> simp only [LengthError.text, List.append_assoc] at h <;>
    obtain ⟨h₁, h⟩ := decimal_cut (by rfl) (by rfl) h
  · simp only [List.append_cancel_left_eq] at h
    rw [h₁, (decimal_cut (by rfl) (by rfl) h).1]
  · exact absurd h (clash_ne (by decide))
  · exact absurd h (clash_ne (by decide))
  · simp only [List.append_cancel_left_eq] at h
    rw [h₁, (decimal_cut (by rfl) (by rfl) h).1]

private theorem width_length {e : WidthError} {e' : LengthError}
    (hk : kind (.external (.widthViolation e)) = kind (.external (.lengthViolation e'))) : e.text ≠ e'.text := by
  intro h
  cases e <;> cases e' <;> simp only [kind, reduceCtorEq] at hk <;>
    simp only [LengthError.text, WidthError.text, List.append_assoc] at h <;>
    obtain ⟨_, h⟩ := decimal_cut (by rfl) (by rfl) h <;> exact absurd h (clash_ne (by decide))

private theorem tag_text {w w' : TagWidth} {n n' : Nat} {t t' : Text} (h : tagText w n t = tagText w' n' t') :
    n = n' ∧ altHex (w.size * 2) n = altHex (w'.size * 2) n' ∧ t = t' := by
  simp only [tagText, List.append_assoc, List.append_cancel_left_eq] at h
  obtain ⟨h₁, h₂⟩ := cut (p := (· != ' ')) (altHex_no_space _ _) (altHex_no_space _ _) (by rfl) (by rfl) h
  simp only [List.append_cancel_left_eq] at h₂
  exact ⟨altHex_inj h₁, h₁, h₂⟩

/-- C72: the message of a parser error tells which error it is and every number in it. -/
theorem C72_message (W W' : Wording) (hW : W'.float = W.float) (hf : FloatText W.float) (e e' : ParseError)
    (hg : e ≠ .external .genericError) (hg' : e' ≠ .external .genericError) (h : e.text W = e'.text W') :
    Alike W.float e e' := by
  have hk := kind_eq hg hg' h
  have tf : ∀ x, ∀ c ∈ W.float x, tok c = true := fun x c hc => tok_float (hf x c hc)
  cases e with
  | window e =>
    cases e' with
    | window e' => rw [window_text hk h]; exact .same _
    | internal e' => cases e <;> cases e' <;> simp only [kind, reduceCtorEq] at hk
    | token e' => cases e <;> cases e' <;> simp only [kind, reduceCtorEq] at hk
    | external e' =>
      cases e' with
      | intRangeViolation e' => cases e <;> cases e' <;> simp only [kind, boundsKind, reduceCtorEq] at hk
      | floatRangeViolation e' => cases e <;> cases e' <;> simp only [kind, boundsKind, reduceCtorEq] at hk
      | widthViolation e' => cases e <;> cases e' <;> simp only [kind, reduceCtorEq] at hk
      | _ => cases e <;> simp only [kind, reduceCtorEq] at hk
  | internal e =>
    cases e' with
    | internal e' =>
      cases e <;> cases e' <;> simp only [kind, reduceCtorEq] at hk <;> exact .same _
    | window e' => cases e <;> cases e' <;> simp only [kind, reduceCtorEq] at hk
    | token e' => cases e <;> cases e' <;> simp only [kind, reduceCtorEq] at hk
    | external e' =>
      cases e' with
      | intRangeViolation e' => cases e <;> cases e' <;> simp only [kind, boundsKind, reduceCtorEq] at hk
      | floatRangeViolation e' => cases e <;> cases e' <;> simp only [kind, boundsKind, reduceCtorEq] at hk
      | widthViolation e' => cases e <;> cases e' <;> simp only [kind, reduceCtorEq] at hk
      | _ => cases e <;> simp only [kind, reduceCtorEq] at hk
  | token e =>
    cases e' with
    | token e' =>
      cases e <;> cases e' <;> simp only [kind, reduceCtorEq] at hk
      · simp only [ParseError.text, TokenError.text, List.append_cancel_left_eq] at h
        rw [fmt02x_inj h]
        exact .same _
      · simp only [ParseError.text, TokenError.text, List.append_cancel_left_eq] at h
        obtain ⟨rfl, h₂, _⟩ := tag_text h
        exact .tag _ _ h₂
      · simp only [ParseError.text, TokenError.text, writeHex_eq, List.append_cancel_left_eq] at h
        rw [hexBytes_inj h]
        exact .same _
      · simp only [ParseError.text, TokenError.text, writeHex_eq, List.append_cancel_left_eq] at h
        rw [hexBytes_inj h]
        exact .same _
    | window e' => cases e <;> cases e' <;> simp only [kind, reduceCtorEq] at hk
    | internal e' => cases e <;> cases e' <;> simp only [kind, reduceCtorEq] at hk
    | external e' =>
      cases e' with
      | intRangeViolation e' => cases e <;> cases e' <;> simp only [kind, boundsKind, reduceCtorEq] at hk
      | floatRangeViolation e' => cases e <;> cases e' <;> simp only [kind, boundsKind, reduceCtorEq] at hk
      | widthViolation e' => cases e <;> cases e' <;> simp only [kind, reduceCtorEq] at hk
      | _ => cases e <;> simp only [kind, reduceCtorEq] at hk
  | external e =>
    cases e' with
    | window e' =>
      cases e with
      | intRangeViolation e => cases e <;> cases e' <;> simp only [kind, boundsKind, reduceCtorEq] at hk
      | floatRangeViolation e => cases e <;> cases e' <;> simp only [kind, boundsKind, reduceCtorEq] at hk
      | widthViolation e => cases e <;> cases e' <;> simp only [kind, reduceCtorEq] at hk
      | _ => cases e' <;> simp only [kind, reduceCtorEq] at hk
    | internal e' =>
      cases e with
      | intRangeViolation e => cases e <;> cases e' <;> simp only [kind, boundsKind, reduceCtorEq] at hk
      | floatRangeViolation e => cases e <;> cases e' <;> simp only [kind, boundsKind, reduceCtorEq] at hk
      | widthViolation e => cases e <;> cases e' <;> simp only [kind, reduceCtorEq] at hk
      | _ => cases e' <;> simp only [kind, reduceCtorEq] at hk
    | token e' =>
      cases e with
      | intRangeViolation e => cases e <;> cases e' <;> simp only [kind, boundsKind, reduceCtorEq] at hk
      | floatRangeViolation e => cases e <;> cases e' <;> simp only [kind, boundsKind, reduceCtorEq] at hk
      | widthViolation e => cases e <;> cases e' <;> simp only [kind, reduceCtorEq] at hk
      | _ => cases e' <;> simp only [kind, reduceCtorEq] at hk
    | external e' =>
      cases e with
      | genericError => exact absurd rfl hg
      | uncoercableString =>
        cases e' with
        | uncoercableString => exact .same _
        | intRangeViolation e' => cases e' <;> simp only [kind, boundsKind, reduceCtorEq] at hk
        | floatRangeViolation e' => cases e' <;> simp only [kind, boundsKind, reduceCtorEq] at hk
        | widthViolation e' => cases e' <;> simp only [kind, reduceCtorEq] at hk
        | _ => simp only [kind, reduceCtorEq] at hk
      | intRangeViolation e =>
        cases e' with
        | intRangeViolation e' =>
          rw [mapBounds_inj signed_inj (bounds_text tok_signed tok_signed h)]
          exact .same _
        | floatRangeViolation e' =>
          rw [ParseError.text, ParseError.text, ExternalError.text, ExternalError.text, hW] at h
          exact .intFloat (bounds_text tok_signed tf h)
        | widthViolation e' => cases e <;> cases e' <;> simp only [kind, boundsKind, reduceCtorEq] at hk
        | _ => cases e <;> simp only [kind, boundsKind, reduceCtorEq] at hk
      | floatRangeViolation e =>
        cases e' with
        | intRangeViolation e' => exact .floatInt (bounds_text tf tok_signed h)
        | floatRangeViolation e' =>
          rw [ParseError.text, ParseError.text, ExternalError.text, ExternalError.text, hW] at h
          exact .floats (bounds_text tf tf h)
        | widthViolation e' => cases e <;> cases e' <;> simp only [kind, boundsKind, reduceCtorEq] at hk
        | _ => cases e <;> simp only [kind, boundsKind, reduceCtorEq] at hk
      | widthViolation e =>
        cases e' with
        | genericError => exact absurd rfl hg'
        | widthViolation e' => rw [width_text hk h]; exact .same _
        | lengthViolation e' => exact absurd h (width_length hk)
        | intRangeViolation e' => cases e <;> cases e' <;> simp only [kind, boundsKind, reduceCtorEq] at hk
        | floatRangeViolation e' => cases e <;> cases e' <;> simp only [kind, boundsKind, reduceCtorEq] at hk
        | uncoercableString => cases e <;> simp only [kind, reduceCtorEq] at hk
      | lengthViolation e =>
        cases e' with
        | genericError => exact absurd rfl hg'
        | widthViolation e' => exact absurd h.symm (width_length hk.symm)
        | lengthViolation e' => rw [length_text h]; exact .same _
        | intRangeViolation e' => cases e' <;> simp only [kind, boundsKind, reduceCtorEq] at hk
        | floatRangeViolation e' => cases e' <;> simp only [kind, boundsKind, reduceCtorEq] at hk
        | uncoercableString => simp only [kind, reduceCtorEq] at hk

private theorem text_bounds {α β : Type} {f : α → Text} {g : β → Text} (F : Text) : ∀ {a : BoundsError α} {b : BoundsError β},
    mapBounds f a = mapBounds g b → a.text f F = b.text g F := by
  intro a b h
  cases a <;> cases b <;> simp only [mapBounds, BoundsError.underflow.injEq, BoundsError.overflow.injEq,
    BoundsError.invalidBounds.injEq, BoundsError.illegalNegative.injEq, reduceCtorEq] at h <;>
    simp only [BoundsError.text, h]

/-- C72: and `Alike` is exact: two errors (about types of the same name) read the same exactly if they are alike. -/
theorem C72_alike (W : Wording) (hf : FloatText W.float) (e e' : ParseError)
    (hg : e ≠ .external .genericError) (hg' : e' ≠ .external .genericError) :
    e.text W = e'.text W ↔ Alike W.float e e' := by
  refine ⟨C72_message W W rfl hf e e' hg hg', fun h => ?_⟩
  cases h with
  | same => rfl
  | tag v v' h => simp only [ParseError.text, TokenError.text, tagText, h]
  | floats h => exact text_bounds W.failed h
  | intFloat h => exact text_bounds W.failed h
  | floatInt h => exact text_bounds W.failed h

/-- C72: a message about an invalid tag tells the value of the tag and the name of the type. -/
theorem C72_tag (W W' : Wording) (w w' : TagWidth) (n n' : Nat) (v v' : Option (List Nat))
    (h : (ParseError.token (.invalidTag w n v)).text W = (ParseError.token (.invalidTag w' n' v')).text W') :
    n = n' ∧ W.forType = W'.forType := by
  simp only [ParseError.text, TokenError.text, List.append_cancel_left_eq] at h
  exact ⟨(tag_text h).1, (tag_text h).2.2⟩

/-- C72: the discriminant is printed in hex, `0x` and zeros filling it up to twice the bytes of the tag. -/
theorem C72_tag_form (W : Wording) (w : TagWidth) (n : Nat) (v : Option (List Nat)) :
    ∃ digits : Text, ofHex digits = n ∧ (digits.head? = some '0' → digits = ['0']) ∧
      (ParseError.token (.invalidTag w n v)).text W = text! "invalid tag: unexpected discriminant 0x" ++
        List.replicate (2 * w.len - 2 - digits.length) '0' ++ digits ++ text! " for enum-type " ++ W.forType := by
  have key : ∀ n, (lowerHex n).head? = some '0' → lowerHex n = ['0'] := by
    intro n
    induction n using Nat.strongRecOn with
    | _ n ih =>
      rw [lowerHex]
      split
      · rename_i h
        have : ∀ i : Fin 16, ([hexDigit i.val] : Text).head? = some '0' → ([hexDigit i.val] : Text) = ['0'] := by decide
        exact this ⟨n, h⟩
      · rename_i h
        intro hh
        have hne : lowerHex (n / 16) ≠ [] := by
          rw [lowerHex]
          split <;> simp
        replace hh : (lowerHex (n / 16)).head? = some '0' := by
          cases hx : lowerHex (n / 16) with
          | nil => exact absurd hx hne
          | cons c cs => rw [hx] at hh; exact hh
        have h0 := ofHex_lowerHex (n / 16)
        rw [ih (n / 16) (by omega) hh] at h0
        have : n / 16 = 0 := h0.symm
        omega
  refine ⟨lowerHex n, ofHex_lowerHex n, key n, ?_⟩
  have hl : w.size * 2 - (2 + (lowerHex n).length) = 2 * w.len - 2 - (lowerHex n).length := by
    have : w.size = w.len := by cases w <;> rfl
    rw [this]
    omega
  simp only [ParseError.text, TokenError.text, tagText, altHex, hl, List.append_assoc]
  rfl

/-- C72: `{:?}` of a hex conversion error tells the string that was refused. -/
theorem C72_hex_debug (e e' : HexConvError) (h : e.debug = e'.debug) : e = e' := by
  cases e <;> cases e' <;> simp only [HexConvError.debug, List.append_assoc] at h
  · simp only [List.append_cancel_left_eq, List.append_cancel_right_eq] at h
    rw [h]
  · exact absurd h (clash_ne (by decide))
  · exact absurd h (clash_ne (by decide))
  · simp only [List.append_cancel_left_eq, List.append_cancel_right_eq] at h
    rw [h]

/-! ### left-over states -/

private def spansText (segs : List Bytes) : Text := segs.flatMap (fun s => debugList (s.map (·.toNat)) ++ ['|']) ++ [']']

private theorem debugSpans_eq : ∀ segs : List Bytes,
    debugSpans segs.flatten (segs.map List.length) = some (spansText segs)
  | [] => rfl
  | s :: segs => by
    simp [debugSpans, debugSpans_eq segs, spansText]

private theorem spansText_cut : ∀ {a b : List Bytes} {x y : Text}, spansText a ++ x = spansText b ++ y → a = b
  | [], [], _, _, _ => rfl
  | [], b :: bs, x, y, h => by simp [spansText, debugList] at h
  | a :: as, [], x, y, h => by simp [spansText, debugList] at h
  | a :: as, b :: bs, x, y, h => by
    have h' : debugList (a.map (·.toNat)) ++ ('|' :: (spansText as ++ x)) =
        debugList (b.map (·.toNat)) ++ ('|' :: (spansText bs ++ y)) := by
      simpa [spansText] using h
    obtain ⟨h₁, h₂⟩ := debugList_cut h'
    rw [toNat_inj h₁, spansText_cut (List.cons.inj h₂).2]

private def windowed : Leftover → Bool
  | .windowed _ => true
  | _ => false

private theorem rep_debug {l : Leftover} {g : Segs Byte} (h : l.Rep g) :
    l.debug = some (if windowed l then text! "Windowed([|" ++ spansText g.segments ++ text! ")"
      else match g.segments with
        | [] => text! "Empty"
        | b :: _ => text! "Windowless(" ++ debugList (b.map (·.toNat)) ++ text! ")") := by
  cases l with
  | empty => cases h; rfl
  | windowless b => cases h; simp [Leftover.debug, windowed, Segs.segments]
  | windowed sv =>
    simp only [Leftover.debug, h.1.iter, h.1.buffer, Segs.contents, debugSpans_eq, Option.map_some, windowed, if_true]

private theorem rep_single {l : Leftover} {g : Segs Byte} (h : l.Rep g) (hw : windowed l = false) :
    g.segments = [] ∨ ∃ b, g.segments = [b] := by
  cases l with
  | empty => cases h; exact .inl rfl
  | windowless b => cases h; exact .inr ⟨b, by simp [Segs.segments]⟩
  | windowed sv => simp [windowed] at hw

private theorem windowed_run : ∀ (ops : List LeftOp) (l : Leftover),
    windowed (leftRun l ops) = true ↔ windowed l = true ∨ LeftOp.escapeContext ∈ ops
  | [], l => by simp [leftRun]
  | .append bs :: ops, l => by
    rw [leftRun, windowed_run ops]
    have : windowed (l.append bs).1 = windowed l := by cases l <;> rfl
    simp [this]
  | .escapeContext :: ops, l => by
    rw [leftRun, windowed_run ops]
    simp [Leftover.escapeContext, windowed]

/-- C72: printing a left-over state does not fail, and tells whether windows were closed and the bytes left in each. -/
theorem C72_leftover (ops ops' : List LeftOp) :
    (leftRun .new ops).debug.isSome = true ∧
    ((leftRun .new ops).debug = (leftRun .new ops').debug ↔
      stretches none ops = stretches none ops' ∧ (LeftOp.escapeContext ∈ ops ↔ LeftOp.escapeContext ∈ ops')) := by
  obtain ⟨g, hg, hs⟩ := leftRun_rep ops .new .empty rfl
  obtain ⟨g', hg', hs'⟩ := leftRun_rep ops' .new .empty rfl
  have hs : g.segments = stretches none ops := hs
  have hs' : g'.segments = stretches none ops' := hs'
  have hw := windowed_run ops .new
  have hw' := windowed_run ops' .new
  have hn : ¬ windowed Leftover.new = true := by simp [windowed, Leftover.new]
  replace hw := hw.trans (or_iff_right hn)
  replace hw' := hw'.trans (or_iff_right hn)
  refine ⟨by rw [rep_debug hg]; rfl, ?_⟩
  rw [← hw, ← hw', ← hs, ← hs', rep_debug hg, rep_debug hg']
  cases hb : windowed (leftRun .new ops) <;> cases hb' : windowed (leftRun .new ops') <;>
    simp only [if_true, if_false, reduceCtorEq, Option.some.injEq, and_true, and_false, iff_false, iff_true,
      Bool.false_eq_true, not_true_eq_false]
  · rcases rep_single hg hb with e | ⟨b, e⟩ <;> rcases rep_single hg' hb' with e' | ⟨b', e'⟩ <;> rw [e, e']
    · simp
    · simp
    · simp
    · constructor
      · intro h
        simp only [List.append_assoc, List.append_cancel_left_eq] at h
        rw [toNat_inj (debugList_cut h).1]
      · intro h
        simp only [List.cons.injEq, and_true] at h
        rw [h]
  · intro h
    rcases rep_single hg hb with e | ⟨b, e⟩ <;> rw [e] at h <;> simp only [List.append_assoc] at h <;> simp at h
  · intro h
    rcases rep_single hg' hb' with e | ⟨b, e⟩ <;> rw [e] at h <;> simp only [List.append_assoc] at h <;> simp at h
  · constructor
    · intro h
      simp only [List.append_assoc, List.append_cancel_left_eq] at h
      exact spansText_cut h
    · intro h; rw [h]

/-! ### errors of decoding -/

/-- Errors of the cleanup that read the same. -/
inductive AlikeInvariant (float : BitVec 64 → Text) : InvariantError → InvariantError → Prop where
  | case (e) : AlikeInvariant float (.caseUnexpected e) (.caseUnexpected e)
  | kind {e e'} (h : Alike float e e') : AlikeInvariant float (.kindUnexpected e) (.kindUnexpected e')
  | unexpected {e e'} (h : Alike float e e') : AlikeInvariant float (.unexpected e) (.unexpected e')

/-- Errors of decoding that read the same: in addition the string that is not hex is not printed. -/
inductive AlikeDecode (float : BitVec 64 → Text) : DecodeError → DecodeError → Prop where
  | odd (s s') : AlikeDecode float (.conv (.oddParity s)) (.conv (.oddParity s'))
  | nonHex (s s') : AlikeDecode float (.conv (.nonHex s)) (.conv (.nonHex s'))
  | parse {e e'} (h : Alike float e e') : AlikeDecode float (.parse e) (.parse e')
  | invariant {e e'} (h : AlikeInvariant float e e') : AlikeDecode float (.invariant e) (.invariant e')
  | nonEmpty {l l'} (h : l.debug = l'.debug) : AlikeDecode float (.nonEmpty l) (.nonEmpty l')

/-- The error contains no `GenericError`, whose text is anything. -/
def NoGeneric : DecodeError → Prop
  | .parse e | .invariant (.kindUnexpected e) | .invariant (.unexpected e) => e ≠ .external .genericError
  | _ => True

/-- C72: the message of an error of decoding tells the stage that failed, which error it is and every number in it. -/
theorem C72_decode (W W' : Wording) (hW : W'.float = W.float) (hf : FloatText W.float) (e e' : DecodeError)
    (hg : NoGeneric e) (hg' : NoGeneric e') (t : Text) (h : e.text W = some t) (h' : e'.text W' = some t) :
    AlikeDecode W.float e e' := by
  have key : e.text W = e'.text W' := h.trans h'.symm
  clear h h'
  have pre : ∀ {x : Option Text} {a b u : Text}, clash a b = true → x.map (a ++ ·) = some (b ++ u) → False := by
    intro x a b u hc e
    cases x with
    | none => simp at e
    | some x => exact clash_ne hc (Option.some.inj e)
  cases e with
  | conv e =>
    cases e' with
    | conv e' =>
      cases e <;> cases e'
      · exact .odd _ _
      · simp [DecodeError.text, HexConvError.text] at key
      · simp [DecodeError.text, HexConvError.text] at key
      · exact .nonHex _ _
    | parse e' => exact absurd (Option.some.inj key) (clash_ne (by decide))
    | invariant e' => exact absurd (Option.some.inj key) (clash_ne (by decide))
    | nonEmpty l => exact (pre (by decide) key.symm).elim
  | parse e =>
    cases e' with
    | parse e' =>
      exact .parse (C72_message W W' hW hf e e' hg hg' (List.append_cancel_left (Option.some.inj key)))
    | conv e' => exact absurd (Option.some.inj key) (clash_ne (by decide))
    | invariant e' => exact absurd (Option.some.inj key) (clash_ne (by decide))
    | nonEmpty l => exact (pre (by decide) key.symm).elim
  | invariant e =>
    cases e' with
    | invariant e' =>
      have key := List.append_cancel_left (Option.some.inj key)
      cases e <;> cases e'
      · have h := List.append_cancel_left key
        have := C72_message W W' hW hf (.window _) (.window _) nofun nofun h
        cases this with
        | same => exact .invariant (.case _)
      · exact absurd key (clash_ne (by decide))
      · exact absurd key (clash_ne (by decide))
      · exact absurd key (clash_ne (by decide))
      · exact .invariant (.kind (C72_message W W' hW hf _ _ hg hg' (List.append_cancel_left key)))
      · exact absurd key (clash_ne (by decide))
      · exact absurd key (clash_ne (by decide))
      · exact absurd key (clash_ne (by decide))
      · exact .invariant (.unexpected (C72_message W W' hW hf _ _ hg hg' (List.append_cancel_left key)))
    | conv e' => exact absurd (Option.some.inj key) (clash_ne (by decide))
    | parse e' => exact absurd (Option.some.inj key) (clash_ne (by decide))
    | nonEmpty l => exact (pre (by decide) key.symm).elim
  | nonEmpty l =>
    cases e' with
    | nonEmpty l' =>
      refine .nonEmpty ?_
      have key : l.debug.map _ = l'.debug.map _ := key
      cases hl : l.debug <;> cases hl' : l'.debug <;> rw [hl, hl'] at key
      · simp at key
      · simp at key
      · rw [List.append_cancel_left (Option.some.inj key)]
    | conv e' => exact (pre (by decide) key).elim
    | parse e' => exact (pre (by decide) key).elim
    | invariant e' => exact (pre (by decide) key).elim

/-- What the messages do not tell: the width of a tag and the tags that are valid; whether a number is an integer or
a float that prints as one; which string is not hex. -/
theorem C72_lost (W : Wording) :
    (ParseError.token (.invalidTag .u8 0x12 (some [1]))).text W = (ParseError.token (.invalidTag .u16 0x12 none)).text W ∧
    (∀ x y, W.float x = text! "5" → W.float y = text! "4" →
      (ParseError.external (.intRangeViolation (.overflow 4 5))).text W =
        (ParseError.external (.floatRangeViolation (.overflow y x))).text W) ∧
    (DecodeError.conv (.oddParity ['a'])).text W = (DecodeError.conv (.oddParity ['a', 'b', 'c'])).text W := by
  refine ⟨?_, fun x y hx hy => ?_, rfl⟩
  · simp only [ParseError.text, TokenError.text, tagText]
    have : altHex (TagWidth.u8.size * 2) 0x12 = altHex (TagWidth.u16.size * 2) 0x12 := by
      simp [altHex, lowerHex, TagWidth.size]
    rw [this]
  · simp only [ParseError.text, ExternalError.text, BoundsError.text, hx, hy]
    simp [signed, decimal]

/-! ### the hypotheses are met -/

/-- A wording with the number printed for every float. -/
private def plainWording : Wording := ⟨fun x => decimal x.toNat, text! "Alpha", text! "no", text! "bad", text! "?"⟩

private theorem plain_float : FloatText plainWording.float := fun _ _ hc => .inl (decimal_digits _ _ hc)

example : (ParseError.window (.openWouldExceedBuffer 3 20)).text plainWording =
    text! "cannot open 20-byte context window: parse-buffer has only 3 bytes remaining" := by
  simp [ParseError.text, WindowError.text, decimal]

example : (ParseError.token (.invalidTag .u30 0xbad none)).text plainWording =
    text! "invalid tag: unexpected discriminant 0x000bad for enum-type Alpha" := by
  simp [ParseError.text, TokenError.text, tagText, altHex, lowerHex, TagWidth.size, plainWording, hexDigit]

example : (ParseError.external (.widthViolation (.invalidWidth [20, 32] 7))).text plainWording =
    text! "byte-length 7 of value not in set [20, 32] of valid lengths" := by
  simp [ParseError.text, ExternalError.text, WidthError.text, debugList, debugItems, decimal]

example : (DecodeError.nonEmpty (leftRun .new [.append [1, 200], .escapeContext, .escapeContext, .append [3]])).text plainWording =
    some (text! "parser object had non-empty left-over state on cleanup: Windowed([|[1, 200]|[]|[3]|])") := by
  have h : (leftRun .new [.append [1, 200], .escapeContext, .escapeContext, .append [3]]) =
      .windowed ⟨[1, 200, 3], ⟨[2, 0], some 1, 2⟩⟩ := by decide
  rw [h]
  simp [DecodeError.text, Leftover.debug, debugSpans, debugList, debugItems, decimal, SpanBuffer.iter]

example : (ParseError.window (.closeWithResidue 3)).text plainWording ≠ (ParseError.window (.closeWithResidue 30)).text plainWording := by
  intro h
  have := (C72_alike _ plain_float _ _ (by simp) (by simp)).mp h
  cases this

end Verif.Props
