import Verif.ErrorSource
/-
C84: the causes of an error.
-/
namespace Verif.Props

/-- `l` is what one sees by following `source()` from `e` until there is no more. -/
inductive Causes : AnyError → List AnyError → Prop
  | last {e} : e.source = none → Causes e [e]
  | more {e e' l} : e.source = some e' → Causes e' l → Causes e (e :: l)

/-- How deep errors of a type are. -/
def depth : ErrorType → Nat
  | .decode => 0
  | .hex => 1
  | .invariant => 1
  | .parse => 2
  | .window | .token | .internal | .external => 3
  | .tag _ | .intBounds | .floatBounds | .width | .length => 4
  | .tryFromSlice | .tryFromInt | .fromUtf8 | .boxed => 5

theorem source_depth {e e' : AnyError} (h : e.source = some e') : depth e.type < depth e'.type := by
  unfold AnyError.source at h
  split at h <;> cases h <;> simp [AnyError.type, depth]

theorem causes_exists (n : Nat) : ∀ e : AnyError, depth e.type + n ≥ 5 → ∃ l, Causes e l := by
  induction n with
  | zero =>
    intro e he
    cases h : e.source with
    | none => exact ⟨_, .last h⟩
    | some e' =>
      have h1 := source_depth h
      have : ∀ t : ErrorType, depth t ≤ 5 := fun t => by cases t <;> simp [depth]
      have := this e'.type
      omega
  | succ n ih =>
    intro e he
    cases h : e.source with
    | none => exact ⟨_, .last h⟩
    | some e' =>
      have h1 := source_depth h
      obtain ⟨l, hl⟩ := ih e' (by omega)
      exact ⟨_, .more h hl⟩

theorem causes_depth {e : AnyError} {l : List AnyError} (h : Causes e l) :
    ∀ x ∈ l, depth e.type ≤ depth x.type := by
  induction h with
  | last => intro x hx; simp at hx; subst hx; exact Nat.le_refl _
  | more h _ ih =>
    intro x hx
    rcases List.mem_cons.mp hx with rfl | hx
    · exact Nat.le_refl _
    · exact Nat.le_trans (Nat.le_of_lt (source_depth h)) (ih x hx)

/-- C84: following the causes of an error comes to an end after at most six errors, whatever the error, and never meets two
errors of the same type, so that searching the causes for a type finds at most one. -/
theorem C84_chain (e : AnyError) : ∃ l, Causes e l ∧ (∀ l', Causes e l' → l' = l) ∧ l.length ≤ 6 ∧
    l.Pairwise fun x y => x.type ≠ y.type := by
  obtain ⟨l, hl⟩ := causes_exists 5 e (by omega)
  refine ⟨l, hl, fun l' hl' => ?_, ?_, ?_⟩
  · induction hl generalizing l' with
    | last h => cases hl' with
      | last => rfl
      | more h' => rw [h] at h'; cases h'
    | more h _ ih => cases hl' with
      | last h' => rw [h] at h'; cases h'
      | more h' hl' => rw [h] at h'; cases h'; rw [ih _ hl']
  · have : ∀ {e l}, Causes e l → l.length + depth e.type ≤ 6 := by
      intro e l h
      induction h with
      | @last e h =>
        have : ∀ t : ErrorType, depth t ≤ 5 := fun t => by cases t <;> simp [depth]
        have := this e.type
        simp; omega
      | more h _ ih => have := source_depth h; simp; omega
    have := this hl
    omega
  · induction hl with
    | last => simp
    | more h hl ih =>
      refine List.pairwise_cons.mpr ⟨fun x hx hxy => ?_, ih⟩
      have h1 := source_depth h
      have h2 := causes_depth hl x hx
      rw [hxy] at h1
      omega

/-- C84: the text of an error ends with the text of its cause, so with the texts of all its causes: printing the error alone
tells all.  The exception is the failed conversion of a slice to an array, which no decoder reports (`C82_never`). -/
theorem C84_text (W : Wording) (slice : Text) (e e' : AnyError) (hs : e.source = some e')
    (hn : e ≠ .internal .sliceCoerceFailure) :
    ∃ t t', e.text W slice = some t ∧ e'.text W slice = some t' ∧ t' <:+ t := by
  unfold AnyError.source at hs
  split at hs <;> cases hs <;>
    first
      | exact absurd rfl hn
      | exact ⟨_, _, rfl, rfl, List.suffix_refl _⟩
      | exact ⟨_, _, rfl, rfl, List.suffix_append _ _⟩

/-- C84: the same for all causes. -/
theorem C84_texts (W : Wording) (slice : Text) (e : AnyError) (l : List AnyError) (h : Causes e l)
    (hn : .internal .sliceCoerceFailure ∉ l) (t : Text) (ht : e.text W slice = some t) (x : AnyError) (hx : x ∈ l) :
    ∃ t', x.text W slice = some t' ∧ t' <:+ t := by
  induction h generalizing t with
  | last => simp at hx; subst hx; exact ⟨t, ht, List.suffix_refl _⟩
  | more hs _ ih =>
    rcases List.mem_cons.mp hx with rfl | hx
    · exact ⟨t, ht, List.suffix_refl _⟩
    · obtain ⟨u, u', h1, h2, h3⟩ := C84_text W slice _ _ hs fun h => hn (h ▸ .head _)
      rw [ht] at h1
      cases h1
      obtain ⟨t', h4, h5⟩ := ih (fun h => hn (.tail _ h)) u' h2 hx
      exact ⟨t', h4, h5.trans h3⟩

/-- C84 fails for the failed conversion of a slice to an array: its text does not have that of its cause, which is "could
not convert slice to array". -/
theorem C84_slice_fails (W : Wording) :
    let slice := text! "could not convert slice to array"
    AnyError.source (.internal .sliceCoerceFailure) = some .tryFromSlice ∧
    AnyError.text W slice .tryFromSlice = some slice ∧
    ∃ t, AnyError.text W slice (.internal .sliceCoerceFailure) = some t ∧ ¬ slice <:+: t :=
  ⟨rfl, rfl, _, rfl, by decide⟩

/-- C84: converting an error into another (as `?` does) keeps it: it is the cause of the new error, or the cause of its
cause. -/
theorem C84_convert (e : AnyError) :
    (∀ x, e.toExternal = some x → AnyError.source (.external x) = some e) ∧
    (∀ x, e.toParse = some x → AnyError.source (.parse x) = some e ∨
      ∃ c, AnyError.source (.parse x) = some c ∧ c.source = some e) ∧
    (∀ x, e.toDecode = some x → AnyError.source (.decode x) = some e) ∧
    (∀ x, e.toIntBounds = some x → AnyError.source (.intBounds x) = some e) ∧
    (∀ x, e.toInternal = some x → AnyError.source (.internal x) = some e) := by
  cases e <;> refine ⟨?_, ?_, ?_, ?_, ?_⟩ <;> intro x hx <;> cases hx <;>
    first | rfl | exact .inl rfl | exact .inr ⟨_, rfl, rfl⟩

/-- The errors that are not about another error: those of the types that hold none, and the cases of the other types that
are found out by the decoder itself. -/
inductive Plain : AnyError → Prop
  | window (e) : Plain (.window e)
  | hex (e) : Plain (.hex e)
  | tag (w n l) : Plain (.tag w n l)
  | width (e) : Plain (.width e)
  | length (e) : Plain (.length e)
  | tryFromSlice : Plain .tryFromSlice
  | tryFromInt : Plain .tryFromInt
  | fromUtf8 : Plain .fromUtf8
  | boxed : Plain .boxed
  | unread (b) : Plain (.decode (.nonEmpty b))
  | boolean (b) : Plain (.token (.invalidBoolean b))
  | endless (b) : Plain (.token (.nonTerminating b))
  | padding (b) : Plain (.token (.nonNullPaddingByte b))
  | noTags : Plain (.internal .noValidTags)
  | intBounds (e) : e ≠ .failed → Plain (.intBounds e)
  | floatBounds (e) : e ≠ .failed → Plain (.floatBounds e)

/-- C84: exactly these errors have no cause; all others name the error they are about. -/
theorem C84_plain (e : AnyError) : e.source = none ↔ Plain e := by
  constructor
  · intro h
    unfold AnyError.source at h
    split at h <;> first
      | cases h; done
      | exact .intBounds _ (by assumption)
      | exact .floatBounds _ (by assumption)
      | constructor
  · intro h
    cases h with
    | intBounds e h => cases e <;> first | rfl | exact absurd rfl h
    | floatBounds e h => cases e <;> first | rfl | exact absurd rfl h
    | _ => rfl

/-- C84: which errors convert to which: whatever can go wrong in the parts of a parser to a `ParseError`, that of other
crates and of numbers by way of an `ExternalError`; and what can go wrong in `try_decode` to a `DecodeError`. -/
theorem C84_convertible (e : AnyError) :
    (e.toExternal.isSome ↔ e.type ∈ [.fromUtf8, .intBounds, .floatBounds, .length, .width, .boxed]) ∧
    (e.toParse.isSome ↔ e.toExternal.isSome ∨ e.type ∈ [.window, .token, .internal] ∨ ∃ w, e.type = .tag w) ∧
    (e.toDecode.isSome ↔ e.type ∈ [.hex, .parse, .invariant]) ∧
    (e.toIntBounds.isSome ↔ e.type = .tryFromInt) ∧
    (e.toInternal.isSome ↔ e.type = .tryFromSlice) := by
  cases e <;> simp [AnyError.toExternal, AnyError.toParse, AnyError.toDecode, AnyError.toIntBounds, AnyError.toInternal,
    AnyError.type]

/-- The longest chain. -/
example : Causes (.decode (.invariant (.unexpected (.external (.intRangeViolation .failed)))))
    [.decode (.invariant (.unexpected (.external (.intRangeViolation .failed)))),
      .invariant (.unexpected (.external (.intRangeViolation .failed))), .parse (.external (.intRangeViolation .failed)),
      .external (.intRangeViolation .failed), .intBounds .failed, .tryFromInt] :=
  .more rfl (.more rfl (.more rfl (.more rfl (.more rfl (.last rfl)))))

/-- An invalid tag. -/
example : Causes (.decode (.parse (.token (.invalidTag .u8 5 (some [0, 255])))))
    [.decode (.parse (.token (.invalidTag .u8 5 (some [0, 255])))), .parse (.token (.invalidTag .u8 5 (some [0, 255]))),
      .token (.invalidTag .u8 5 (some [0, 255])), .tag .u8 5 (some [0, 255])] :=
  .more rfl (.more rfl (.more rfl (.last rfl)))

end Verif.Props
