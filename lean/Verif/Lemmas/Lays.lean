import Verif.Lemmas.Pretty
import Verif.Lemmas.Printing
import Verif.Lemmas.Debug
/-
For every type, the alternate form of `Debug` spreads the plain one over several lines.
-/
namespace Verif

/-- The names in the program are proper names, and what the standard library prints for doubles and strings is a word. -/
structure Printing.Tidy (W : Printing) : Prop where
  float : ∀ x, Word (W.float x)
  str : ∀ x, Word (W.str x)
  variant : ∀ tags t, Word (W.variant tags t)
  record : ∀ fs, (W.record fs).Tidy
  arm : ∀ vs i, (W.arm vs i).Tidy

/-- Both are there, or none is. -/
inductive AlikeOpt {α β : Type} (R : α → β → Prop) : Option α → Option β → Prop
  | none : AlikeOpt R none none
  | some {a b} (h : R a b) : AlikeOpt R (some a) (some b)

theorem AlikeOpt.map {α β γ δ : Type} {R : α → β → Prop} {R' : γ → δ → Prop} {f : α → γ} {g : β → δ} {o : Option α} {q : Option β}
    (h : AlikeOpt R o q) (hf : ∀ a b, R a b → R' (f a) (g b)) : AlikeOpt R' (o.map f) (q.map g) := by
  cases h with
  | none => exact .none
  | some h => exact .some (hf _ _ h)

theorem word_decimal (n : Nat) : Word (decimal n) := by
  have h := decimal_digits n
  constructor
  · cases hd : decimal n with
    | nil => exact absurd hd (decimal_ne_nil n)
    | cons c r =>
      have hc : c.isDigit = true := h c (by rw [hd]; exact .head _)
      refine ⟨c, r, rfl, ?_, ?_, ?_, ?_, ?_⟩ <;> rintro rfl <;> revert hc <;> decide
  · intro hn
    have := h _ hn
    revert this
    decide

theorem word_signed : ∀ z : Int, Word (signed z)
  | .ofNat n => word_decimal n
  | .negSucc n => ⟨⟨_, _, rfl, by decide⟩, by
      rintro (_ | ⟨_, h⟩)
      exact (word_decimal (n + 1)).2 h⟩

theorem word_text {c : Char} {t : Text} (h : (c ≠ ' ' ∧ c ≠ '\n' ∧ c ≠ ')' ∧ c ≠ ']' ∧ c ≠ '}')) (h' : '\n' ∉ c :: t) : Word (c :: t) :=
  ⟨⟨c, t, rfl, h⟩, h'⟩

theorem debugItems_commas : ∀ l : List Nat, debugItems l = DebugOf.commas (l.map decimal)
  | [] => rfl
  | [_] => rfl
  | n :: m :: l => by
    rw [debugItems, debugItems_commas (m :: l)]
    · rfl
    · nofun

theorem each_decimal : ∀ l : List Nat, Each Spreads (l.map decimal) (l.map decimal)
  | [] => .nil
  | n :: l => .cons (word_decimal n).spreads (each_decimal l)

theorem spreads_bytes (bs : Bytes) : Spreads (PrettyOf.bytes bs) (DebugOf.bytes bs) := by
  have h := (each_decimal (bs.map (·.toNat))).entries
  rw [← debugItems_commas] at h
  rw [PrettyOf.bytes, show (bs.map fun b => decimal b.toNat) = (bs.map (·.toNat)).map decimal by simp]
  exact h

theorem spreads_option {α : Type} {p q : α → Option Text} (h : ∀ x, AlikeOpt Spreads (p x) (q x)) :
    ∀ o, AlikeOpt Spreads (PrettyOf.option p o) (DebugOf.option q o)
  | none => .some (Word.spreads (word_text (by decide) (by decide)))
  | some x => (h x).map fun _ _ h => h.tuple (word_text (by decide) (by decide))

theorem spreads_each {α : Type} {p q : α → Option Text} (h : ∀ x, AlikeOpt Spreads (p x) (q x)) :
    ∀ l, AlikeOpt (Each Spreads) (DebugOf.each p l) (DebugOf.each q l)
  | [] => .some .nil
  | x :: l => by
    have h1 := h x
    have h2 := spreads_each h l
    simp only [DebugOf.each]
    generalize p x = o at h1
    generalize q x = o' at h1
    cases h1 with
    | none => exact .none
    | some h1 => exact h2.map fun _ _ h => .cons h1 h

theorem spreads_list {α : Type} {p q : α → Option Text} (h : ∀ x, AlikeOpt Spreads (p x) (q x)) (l : List α) :
    AlikeOpt Spreads (PrettyOf.list p l) (DebugOf.list q l) :=
  (spreads_each h l).map fun _ _ h => h.entries

/-- What is printed on one line only. -/
theorem both_flat {o : Option Text} {c : Char} (hc : c ≠ ' ' ∧ c ≠ '\n' ∧ c ≠ ')' ∧ c ≠ ']' ∧ c ≠ '}')
    (h : ∀ p, o = some p → '\n' ∉ p) : AlikeOpt Spreads (o.map (c :: ·)) (o.map (c :: ·)) := by
  cases o with
  | none => exact .none
  | some p =>
    refine .some (Word.spreads (word_text hc ?_))
    rintro (_ | ⟨_, e⟩)
    · exact hc.2.1 rfl
    · exact h p rfl e

theorem AlikeOpt.clean {o q : Option Text} (h : AlikeOpt Spreads o q) : ∀ p, q = Option.some p → '\n' ∉ p := by
  cases h with
  | none => nofun
  | some h => rintro p ⟨⟩; exact h.clean

theorem suffix_clean (S : LenPref) : '\n' ∉ DebugOf.suffix S := by cases S <;> decide

theorem spreads_dynamic (S : LenPref) (len : Option Nat) {q : Option Text} (h : ∀ p, q = some p → '\n' ∉ p) :
    AlikeOpt Spreads (DebugOf.dynamic S len q) (DebugOf.dynamic S len q) := by
  cases len with
  | none => exact .none
  | some n =>
    cases q with
    | none => exact .none
    | some p =>
      refine .some (Word.spreads (word_text (c := '[') (by decide) ?_))
      have h1 := h p rfl
      have h2 := (word_decimal n).2
      have h3 := suffix_clean S
      simp [h1, h2, h3]

/-- The texts of the fields of an arm of an enum. -/
theorem arm_single {o q : Option Text} (h : AlikeOpt Spreads o q) : ∀ ps, q.map (fun t => [t]) = some ps → ∃ ts, Each Spreads ts ps := by
  cases h with
  | none => nofun
  | some h => rintro ps ⟨⟩; exact ⟨_, .cons h .nil⟩

/-- What is shown by induction. -/
def Schema.Lays (cfg : Cfg) (W : Printing) (s : Schema) (x : s.Val) : Prop :=
  AlikeOpt Spreads (s.pretty cfg W x) (s.debug cfg W x) ∧ ∀ ps, s.armTexts cfg W x = some ps → ∃ ts, Each Spreads ts ps

mutual
theorem Schema.lays (cfg : Cfg) {W : Printing} (hW : W.Tidy) : ∀ (s : Schema) (x : s.Val), s.Lays cfg W x
  | .unit, _ =>
    have h := AlikeOpt.some (Word.spreads (word_text (by decide) (by decide)))
    ⟨h, arm_single h⟩
  | .bool, x =>
    have h : AlikeOpt Spreads (some (DebugOf.bool x)) (some (DebugOf.bool x)) := .some (Word.spreads (by
      cases x <;> exact word_text (by decide) (by decide)))
    ⟨h, arm_single h⟩
  | .int t, x =>
    have h := AlikeOpt.some (word_signed (t.toInt x)).spreads
    ⟨h, arm_single h⟩
  | .f64, x =>
    have h := AlikeOpt.some (hW.float x).spreads
    ⟨h, arm_single h⟩
  | .rangedInt t _ _, x =>
    have h := AlikeOpt.some ((word_signed (t.toInt x)).spreads.tuple (name := text! "RangedInt") (word_text (by decide) (by decide)))
    ⟨h, arm_single h⟩
  | .rangedFloat _ _, x =>
    have h := AlikeOpt.some (Each.struct (sh := .named text! "RangedFloat" fun _ => text! "val") (.cons (hW.float x).spreads .nil)
      ⟨word_text (by decide) (by decide), fun _ => word_text (by decide) (by decide)⟩)
    ⟨h, arm_single h⟩
  | .zarithN, n =>
    have h := AlikeOpt.some (Word.spreads (t := DebugOf.tuple text! "ℕ" (decimal n)) (word_text (c := 'ℕ') (by decide) (by
      have := (word_decimal n).2; simp [this])))
    ⟨h, arm_single h⟩
  | .zarithZ, z =>
    have h := AlikeOpt.some (Word.spreads (t := DebugOf.tuple text! "ℤ" (signed z)) (word_text (c := 'ℤ') (by decide) (by
      have := (word_signed z).2; simp [this])))
    ⟨h, arm_single h⟩
  | .bytes, bs =>
    have h := AlikeOpt.some ((spreads_bytes bs).tuple (name := text! "Bytes") (word_text (by decide) (by decide)))
    ⟨h, arm_single h⟩
  | .vecU8, bs =>
    have h := AlikeOpt.some (spreads_bytes bs)
    ⟨h, arm_single h⟩
  | .string, x =>
    have h := AlikeOpt.some (hW.str x).spreads
    ⟨h, arm_single h⟩
  | .fixedBytes _, a =>
    have h := AlikeOpt.some ((spreads_bytes a.1).tuple (name := text! "FixedBytes") (word_text (by decide) (by decide)))
    ⟨h, arm_single h⟩
  | .fixedString _, a =>
    have h := AlikeOpt.some (Each.struct (sh := .named text! "FixedString" fun _ => text! "contents") (.cons (spreads_bytes a.1) .nil)
      ⟨word_text (by decide) (by decide), fun _ => word_text (by decide) (by decide)⟩)
    ⟨h, arm_single h⟩
  | .cstyle _ tags, x =>
    have h := AlikeOpt.some (hW.variant tags x.1).spreads
    ⟨h, arm_single h⟩
  | .hole _, x => nomatch x
  | .option s, x =>
    have h := spreads_option (fun y => (s.lays cfg hW y).1) x
    ⟨h, arm_single h⟩
  | .nullable s, x =>
    have h := (spreads_option (fun y => (s.lays cfg hW y).1) x).map fun _ _ h =>
      h.tuple (name := text! "Nullable") (word_text (by decide) (by decide))
    ⟨h, arm_single h⟩
  | .dynamic S s, x =>
    have h := spreads_dynamic S ((s.codec cfg).encLen cfg x) (s.lays cfg hW x).1.clean
    ⟨h, arm_single h⟩
  | .vpadded _ s, x => ⟨(s.lays cfg hW x).1, arm_single (s.lays cfg hW x).1⟩
  | .padded _ s, x =>
    have h := (s.lays cfg hW x).1.map fun _ _ h => h.tuple (name := text! "Padded") (word_text (by decide) (by decide))
    ⟨h, arm_single h⟩
  | .seq s, xs =>
    have h := (spreads_list (fun y => (s.lays cfg hW y).1) xs).map fun _ _ h =>
      h.tuple (name := text! "Sequence") (word_text (by decide) (by decide))
    ⟨h, arm_single h⟩
  | .fixSeq _ s, xs =>
    have h := (spreads_list (fun y => (s.lays cfg hW y).1) xs).map fun _ _ h =>
      h.tuple (name := text! "FixSeq") (word_text (by decide) (by decide))
    ⟨h, arm_single h⟩
  | .limSeq _ s, xs =>
    have h := (spreads_list (fun y => (s.lays cfg hW y).1) xs).map fun _ _ h =>
      h.tuple (name := text! "LimSeq") (word_text (by decide) (by decide))
    ⟨h, arm_single h⟩
  | .autobox s, x => ⟨(s.lays cfg hW x).1, arm_single (s.lays cfg hW x).1⟩
  | .data _ vs, x =>
    have h := both_flat (c := '#') (by decide) (vs.oneLine cfg hW vs 0 x)
    ⟨h, arm_single h⟩
  | .record fs, x =>
    have h := fs.lays cfg hW x
    ⟨h.map fun _ _ h => h.struct (hW.record fs), fun ps e => by
      change fs.debug cfg W x = some ps at e
      rw [e] at h
      generalize fs.pretty cfg W x = o at h
      cases h with
      | some h => exact ⟨_, h⟩⟩
theorem Variants.oneLine (cfg : Cfg) {W : Printing} (hW : W.Tidy) : ∀ (vs whole : Variants) (i : Nat) (x : vs.Val) (p : Text),
    vs.debug cfg W whole i x = some p → '\n' ∉ p
  | .nil, _, _, x, _, _ => nomatch x
  | .cons tag s vs, whole, i, .inl y, p, h => by
    rw [Variants.debug_inl cfg W tag s vs whole i y] at h
    have hs := (s.lays cfg hW y).2
    cases ha : s.armTexts cfg W y with
    | none => rw [ha] at h; cases h
    | some ps =>
      rw [ha] at h
      cases h
      obtain ⟨ts, hts⟩ := hs ps ha
      exact (hts.struct (hW.arm whole i)).clean
  | .cons tag s vs, whole, i, .inr y, p, h =>
    vs.oneLine cfg hW whole (i + 1) y p (by rw [← Variants.debug_inr cfg W tag s vs whole i y]; exact h)
theorem Fields.lays (cfg : Cfg) {W : Printing} (hW : W.Tidy) : ∀ (fs : Fields) (x : fs.Val),
    AlikeOpt (Each Spreads) (fs.pretty cfg W x) (fs.debug cfg W x)
  | .nil, _ => .some .nil
  | .cons s fs, x => by
    have h1 := (s.lays cfg hW x.1).1
    have h2 := fs.lays cfg hW x.2
    simp only [Fields.pretty, Fields.debug]
    generalize s.pretty cfg W x.1 = o at h1
    generalize s.debug cfg W x.1 = o' at h1
    cases h1 with
    | none => exact .none
    | some h1 => exact h2.map fun _ _ h => .cons h1 h
end

end Verif
