import Verif.Lemmas.Display
import Verif.Props.Ranged
import Verif.Lemmas.Compare
import Verif.Props.Text
/-
C90: printing for users.
-/
namespace Verif.Props

/-- The sign in front of a number: `+` only if it is asked for. -/
def signOf (f : FmtSpec) (z : Int) : Text := if z < 0 then text! "-" else if f.plus then text! "+" else []

/-- C90, ranged integers: `{:b}`, `{:o}`, `{:x}` and `{:X}`, with any flags, show the number the value stands for, as a `u32`
with the same bits; they panic exactly if that number is not in the range. -/
theorem C90_ranged (p : Profile) (t : IntTy) (min max : Int) (hs : SoundRange min max) (f : FmtSpec) (x : t.Val) (k : NumFmt) :
    (¬(min ≤ number t min x ∧ number t min x ≤ max) → RangedInt.fmt p t min max k f x = none) ∧
    (min ≤ number t min x ∧ number t min x ≤ max → ∃ text, RangedInt.fmt p t min max k f x = some text ∧
      ∀ n, n = (if 0 ≤ number t min x then (number t min x).toNat else (2 ^ 32 + number t min x).toNat) → match k with
      | .binary => Printed f (signOf f 0) (text! "0b") 2 false n text
      | .octal => Printed f (signOf f 0) (text! "0o") 8 false n text
      | .lowerHex => Printed f (signOf f 0) (text! "0x") 16 false n text
      | .upperHex => Printed f (signOf f 0) (text! "0x") 16 true n text) := by
  constructor
  · intro h
    obtain ⟨e, he⟩ := ((C31_underlying t min max x).2 h).1
    unfold RangedInt.tryFromUnderlying at he
    unfold RangedInt.fmt RangedInt.toI32
    split at he
    · cases he
    · rename_i heq; rw [heq]; rfl
  · intro h
    unfold SoundRange at hs
    refine ⟨_, by rw [RangedInt.fmt, C31_to_i32 p t min max hs x h]; rfl, ?_⟩
    have hn : (if 0 ≤ number t min x then (number t min x).toNat else (2 ^ 32 + number t min x).toNat) =
        (number t min x % 2 ^ 32).toNat := by split <;> omega
    rw [hn]
    rintro n rfl
    have := f.padIntegral_printed true k.prefix (isNumeral_digits k (number t min x % 2 ^ 32).toNat)
    cases k <;> exact this

/-- C90: ranged integers that are printed alike are the same, unless fill characters can be taken for digits. -/
theorem C90_ranged_distinct (p : Profile) (t : IntTy) (min max : Int) (hs : SoundRange min max) (f : FmtSpec)
    (hf : f.zero = true ∨ digitVal f.fill = none) (k : NumFmt) (x y : t.Val) (text : Text)
    (hx : RangedInt.fmt p t min max k f x = some text) (hy : RangedInt.fmt p t min max k f y = some text) : x = y := by
  have hin : ∀ z, RangedInt.fmt p t min max k f z = some text → min ≤ number t min z ∧ number t min z ≤ max := by
    intro z hz
    by_cases h : min ≤ number t min z ∧ number t min z ≤ max
    · exact h
    · rw [(C90_ranged p t min max hs f z k).1 h] at hz; cases hz
  obtain ⟨tx, ex, px⟩ := (C90_ranged p t min max hs f x k).2 (hin x hx)
  obtain ⟨ty, ey, py⟩ := (C90_ranged p t min max hs f y k).2 (hin y hy)
  rw [hx] at ex; cases ex
  rw [hy] at ey; cases ey
  have hix := hin x hx
  have hiy := hin y hy
  have key : (if 0 ≤ number t min x then (number t min x).toNat else (2 ^ 32 + number t min x).toNat) =
      (if 0 ≤ number t min y then (number t min y).toNat else (2 ^ 32 + number t min y).toNat) := by
    have h1 := px _ rfl
    have h2 := py _ rfl
    cases k <;> exact h1.value (by omega) hf h2
  unfold SoundRange at hs
  have hnum : number t min x = number t min y := by
    split at key <;> split at key <;> omega
  have hi : t.toInt x = t.toInt y := by
    unfold number at hnum
    split at hnum <;> omega
  exact t.toInt_inj hi

/-- C90, `N` and `Z`: `{}` shows the number in decimal. -/
theorem C90_numbers (f : FmtSpec) :
    (∀ n : Nat, Printed f (signOf f n) [] 10 false n (displayN f n)) ∧
    (∀ z : Int, Printed f (signOf f z) [] 10 false z.natAbs (displayZ f z)) := by
  refine ⟨fun n => ?_, fun z => ?_⟩
  · have : signOf f n = if true then (if f.plus then ['+'] else []) else ['-'] := by
      have h : ¬((n : Int) < 0) := by omega
      rw [signOf, if_neg h]; rfl
    rw [this]
    exact f.padIntegral_printed true [] (isNumeral_decimal false n)
  · have : signOf f z = if decide (0 ≤ z) then (if f.plus then ['+'] else []) else ['-'] := by
      unfold signOf
      by_cases h : z < 0
      · rw [if_pos h, if_neg (by simp; omega)]
      · rw [if_neg h, if_pos (decide_eq_true (by omega))]
    rw [this]
    exact f.padIntegral_printed _ [] (isNumeral_decimal false z.natAbs)

/-- C90: numbers that are printed alike are the same, unless fill characters can be taken for digits or a sign. -/
theorem C90_numbers_distinct (f : FmtSpec) (hf : f.zero = true ∨ digitVal f.fill = none ∧ f.fill ≠ '-') :
    (∀ m n : Nat, displayN f m = displayN f n → m = n) ∧ (∀ y z : Int, displayZ f y = displayZ f z → y = z) := by
  have hf' : f.zero = true ∨ digitVal f.fill = none := hf.imp_right (·.1)
  refine ⟨fun m n h => ?_, fun y z h => ?_⟩
  · have h1 := (C90_numbers f).1 m
    have h2 := (C90_numbers f).1 n
    rw [h] at h1
    have e : ∀ n : Nat, signOf f n = if f.plus then text! "+" else [] := fun n => if_neg (by omega)
    rw [e] at h1 h2
    exact h1.value (by omega) hf' h2
  · have hneg : ∀ z : Int, '-' ∈ displayZ f z ↔ z < 0 := by
      intro z
      obtain ⟨l, w, r, ds, e, hd, -, -, -, -, hw⟩ := (C90_numbers f).2 z
      rw [e]
      have hds : '-' ∉ ds := fun hm => by
        have := readDigits_digit hd '-' hm
        revert this; decide
      have hfill : ∀ n, n = l ∨ n = r → '-' ∉ List.replicate n f.fill := by
        intro n hn hm
        rcases hf with hf | hf
        · rw [if_pos hf] at hw
          have : n = 0 := by rcases hn with rfl | rfl <;> omega
          rw [this] at hm; cases hm
        · exact hf.2 (List.mem_replicate.mp hm).2.symm
      have hz : '-' ∉ List.replicate w '0' := fun hm => absurd (List.mem_replicate.mp hm).2 (by decide)
      have hm : '-' ∉ (if f.alternate then ([] : Text) else []) := by split <;> simp
      simp only [List.mem_append, hds, hfill l (Or.inl rfl), hfill r (Or.inr rfl), hz, hm, or_false, false_or]
      unfold signOf
      split
      · simp [*]
      · split <;> simp [*]
    have h1 := (C90_numbers f).2 y
    have h2 := (C90_numbers f).2 z
    have hyz : (y < 0 ↔ z < 0) := by rw [← hneg y, ← hneg z, h]
    have e : signOf f y = signOf f z := by
      unfold signOf
      by_cases hy : y < 0
      · rw [if_pos hy, if_pos (hyz.mp hy)]
      · rw [if_neg hy, if_neg (fun hz => hy (hyz.mpr hz))]
    rw [h, e] at h1
    have := h1.value (by omega) hf' h2
    omega

/-- A text in the space provided for it, cut off where that is asked for; on the left if nothing else is asked for. -/
def Shown (f : FmtSpec) (s t : Text) : Prop :=
  ∃ l r shown, t = List.replicate l f.fill ++ shown ++ List.replicate r f.fill ∧ shown <+: s ∧
    shown.length = (match f.precision with | some n => min n s.length | none => s.length) ∧
    t.length = max f.width shown.length ∧ Placed (f.align.getD .left) l r

theorem pad_shown (f : FmtSpec) (s : Text) : Shown f s (f.pad s) := by
  obtain ⟨u, hu, h1, h2⟩ : ∃ u, f.pad s = (if f.width ≤ u.length then u else f.padding (f.width - u.length) .left u) ∧ u <+: s ∧
      u.length = (match f.precision with | some n => min n s.length | none => s.length) := by
    unfold FmtSpec.pad
    cases f.precision with
    | none => exact ⟨s, rfl, List.prefix_rfl, rfl⟩
    | some n => exact ⟨s.take n, rfl, List.take_prefix n s, by simp⟩
  rw [hu]
  split
  · refine ⟨0, 0, u, by simp, h1, h2, by omega, ?_⟩
    unfold Placed; split <;> simp
  · obtain ⟨l, r, e, hlr, hp⟩ := f.padding_placed (f.width - u.length) .left u
    refine ⟨l, r, u, e, h1, h2, ?_, hp⟩
    rw [e, List.length_append, List.length_append, List.length_replicate, List.length_replicate]
    omega

theorem pad_plain (s : Text) : FmtSpec.pad {} s = s := by
  simp [FmtSpec.pad]

theorem displays_some (f : FmtSpec) (s : Schema) (x : s.Val) (h : s.displays = true) : s.display f x ≠ none := by
  match s, x, h with
  | .bool, _, _ => simp [Schema.display]
  | .int _, _, _ => simp [Schema.display]
  | .zarithN, _, _ => simp [Schema.display]
  | .zarithZ, _, _ => simp [Schema.display]
  | .string, _, _ => simp [Schema.display]
  | .fixedString _, _, _ => simp [Schema.display]
  | .dynamic _ s, x, h => simp only [Schema.display]; exact displays_some f s x (by simpa only [Schema.displays] using h)
  | .autobox s, x, h => simp only [Schema.display]; exact displays_some f s x (by simpa only [Schema.displays] using h)

/-- What `Dynamic` and `AutoBox` around a type hold. -/
def _root_.Verif.Schema.displayed : Schema → Schema
  | .dynamic _ s => s.displayed
  | .autobox s => s.displayed
  | s => s

/-- C90: what `{}` shows, of every type that has it; it never panics, whatever the value.  `Dynamic` and `AutoBox` are shown as
what they hold, even if that cannot be encoded. -/
theorem C90_display (f : FmtSpec) :
    (∀ (s : Schema) (x : s.Val), s.displays = true → s.display f x ≠ none) ∧
    (∀ (S : LenPref) (s : Schema) (x : s.Val), (Schema.dynamic S s).display f x = s.display f x ∧
      (Schema.autobox s).display f x = s.display f x) ∧
    (∀ x : Bool, ∃ u, Schema.bool.display f x = some u ∧ Shown f (if x then text! "true" else text! "false") u) ∧
    (∀ (t : IntTy) (x : t.Val), ∃ u, (Schema.int t).display f x = some u ∧
      Printed f (signOf f (t.toInt x)) [] 10 false (t.toInt x).natAbs u) ∧
    (∀ n : Nat, ∃ u, Schema.zarithN.display f n = some u ∧ Printed f (signOf f n) [] 10 false n u) ∧
    (∀ z : Int, ∃ u, Schema.zarithZ.display f z = some u ∧ Printed f (signOf f z) [] 10 false z.natAbs u) ∧
    (∀ cs : List Char, ∃ u, Schema.string.display f cs = some u ∧ Shown f cs u) ∧
    (∀ (n : Nat) (x : ByteArr n), ∃ u, (Schema.fixedString n).display f x = some u ∧
      Shown f (FixedString.asStringLossy x) u) := by
  refine ⟨displays_some f, fun S s x => ⟨?_, ?_⟩, fun x => ⟨f.pad _, ?_, pad_shown f _⟩,
    fun t x => ⟨displayZ f (t.toInt x), ?_, (C90_numbers f).2 _⟩, fun n => ⟨displayN f n, ?_, (C90_numbers f).1 n⟩,
    fun z => ⟨displayZ f z, ?_, (C90_numbers f).2 z⟩, fun cs => ⟨f.pad cs, ?_, pad_shown f _⟩,
    fun n x => ⟨displayFixedString f x, ?_, pad_shown f _⟩⟩ <;> simp only [Schema.display]
  rfl

/-- C90: types with a different text for each value, with nothing but `{}`: all that have `Display` save `FixedString`, which
shows its bytes as text and repairs what is not UTF-8. -/
theorem C90_distinct (s : Schema) (h : s.displays = true) (hs : ∀ n, s.displayed ≠ .fixedString n) (x y : s.Val)
    (e : s.display {} x = s.display {} y) : x = y := by
  match s, x, y, h, hs, e with
  | .bool, x, y, _, _, e =>
    simp only [Schema.display] at e
    rw [pad_plain, pad_plain] at e
    revert e
    cases x <;> cases y <;> first | exact fun _ => rfl | simp
  | .int t, x, y, _, _, e =>
    simp only [Schema.display] at e
    exact t.toInt_inj ((C90_numbers_distinct {} (Or.inr (by decide))).2 _ _ (Option.some.inj e))
  | .zarithN, x, y, _, _, e =>
    simp only [Schema.display] at e
    exact (C90_numbers_distinct {} (Or.inr (by decide))).1 _ _ (Option.some.inj e)
  | .zarithZ, x, y, _, _, e =>
    simp only [Schema.display] at e
    exact (C90_numbers_distinct {} (Or.inr (by decide))).2 _ _ (Option.some.inj e)
  | .string, x, y, _, _, e =>
    simp only [Schema.display] at e
    exact (pad_plain x).symm.trans ((Option.some.inj e).trans (pad_plain y))
  | .fixedString n, _, _, _, hs, _ => exact absurd (by simp only [Schema.displayed]) (hs n)
  | .dynamic _ s, x, y, h, hs, e =>
    simp only [Schema.display] at e
    exact C90_distinct s (by simpa only [Schema.displays] using h) (by simpa only [Schema.displayed] using hs) x y e
  | .autobox s, x, y, h, hs, e =>
    simp only [Schema.display] at e
    exact C90_distinct s (by simpa only [Schema.displays] using h) (by simpa only [Schema.displayed] using hs) x y e

/-- C90: a `HexString` is shown as its digits, in the space provided; `{:x}` of a `FixedBytes` as two digits for each byte,
whatever flags and width are asked for. -/
theorem C90_hex (f : FmtSpec) :
    (∀ bs : Bytes, Shown f (HexString.toHex ⟨bs⟩) (HexString.display f ⟨bs⟩) ∧ denotes (HexString.toHex ⟨bs⟩) = some bs) ∧
    (∀ (n : Nat) (x : ByteArr n), denotes (fmtFixedBytes f x) = some x.1 ∧ (fmtFixedBytes f x).length = 2 * n) :=
  ⟨fun bs => ⟨pad_shown f _, (C33_to_hex ⟨bs⟩).1⟩, fun n x => (C24_lower_hex n x).2⟩

/-- C90: a negative number is not shown with a sign, and not with the bits of its type: -1 in an `i8` is `ffffffff`. -/
theorem C90_negative (p : Profile) : RangedInt.fmt p .i8 (-5) 5 .lowerHex {} (-1#8) = some (text! "ffffffff") := by
  have h : RangedInt.toI32 p .i8 (-5) 5 (-1#8) = some (-1) :=
    C31_to_i32 p .i8 (-5) 5 (by unfold SoundRange; decide) _ (by decide)
  have hd : NumFmt.lowerHex.digits 0xffffffff = text! "ffffffff" := by
    iterate 7 rw [NumFmt.digits_more _ _ (by decide)]
    rw [NumFmt.digits_one _ _ (by decide)]
    rfl
  unfold RangedInt.fmt
  rw [h]
  show some (FmtSpec.padIntegral {} true NumFmt.lowerHex.prefix (NumFmt.lowerHex.digits 0xffffffff)) = _
  rw [hd]
  rfl

example (p : Profile) : RangedInt.fmt p .u8 10 100 .upperHex { alternate := true, width := 7, zero := true } 0x20#8 =
    some (text! "0x0002A") := by
  have h : RangedInt.toI32 p .u8 10 100 0x20#8 = some 42 :=
    C31_to_i32 p .u8 10 100 (by unfold SoundRange; decide) _ (by decide)
  have hd : NumFmt.upperHex.digits 42 = text! "2A" := by
    rw [NumFmt.digits_more _ _ (by decide), NumFmt.digits_one _ _ (by decide)]
    rfl
  unfold RangedInt.fmt
  rw [h]
  show some (FmtSpec.padIntegral _ true NumFmt.upperHex.prefix (NumFmt.upperHex.digits 42)) = _
  rw [hd]
  rfl
example : SoundRange 10 100 ∧ digitVal ' ' = none ∧ ' ' ≠ '-' := by unfold SoundRange; decide
example : displayZ { width := 5, align := some .center, fill := '*' } (-7) = text! "*-7**" := by
  simp +decide [displayZ, FmtSpec.padIntegral, FmtSpec.padding, decimal]
example : (Schema.dynamic .u8 (.autobox .zarithZ)).displays = true := by simp only [Schema.displays]

end Verif.Props
