import Verif.Enums
import Verif.Props.Prims
/-
C30 (records with derived codecs), over all lists of field codecs; of the fields only their behaviour on the bytes in
question is assumed.
-/
namespace Verif.Props

open Codec

variable {α β : Type} {c : Codec α} {cfg : Cfg}

/-- The encodings of the fields in declaration order. -/
def fieldBytes : {β : Type} → FieldList β → β → List (Option Bytes)
  | _, .nil, _ => []
  | _, .cons c fs, x => c.toBytes x.1 :: fieldBytes fs x.2

/-- All fields have lawful encoders. -/
def FieldsAppending : {β : Type} → FieldList β → Prop
  | _, .nil => True
  | _, .cons c fs => c.Appending ∧ FieldsAppending fs

/-- The concatenation, if all of them are there. -/
def concatAll (l : List (Option Bytes)) : Option Bytes := (l.mapM id).map List.flatten

theorem concatAll_cons (o : Option Bytes) (l : List (Option Bytes)) :
    concatAll (o :: l) = o.bind fun b => (concatAll l).map (b ++ ·) := by
  simp only [concatAll, List.mapM_cons]
  cases o with
  | none => rfl
  | some b => cases l.mapM id <;> simp

theorem fields_writes : {β : Type} → (fs : FieldList β) → FieldsAppending fs →
    fs.codec.Writes (fun x => concatAll (fieldBytes fs x))
  | _, .nil, _ => fun L x => fnil_writes L x
  | _, .cons c fs, h => fun L x => by
    have := fcons_writes h.1 (fields_writes fs h.2) L x
    refine Appends.cast this ?_
    simp only [Enc.fcons, fieldBytes, concatAll_cons]
    cases c.toBytes x.1 with
    | none => rfl
    | some b => cases concatAll (fieldBytes fs x.2) <;> rfl

/-- C30, encoding: the fields in declaration order. -/
theorem C30_encode (fs : FieldList β) (h : FieldsAppending fs) (x : β) :
    (record fs.codec).toBytes x = concatAll (fieldBytes fs x) := Writes.toBytes (record_writes (fields_writes fs h)) x

/-- The fields decode one after the other. -/
inductive FieldsDecode (cfg : Cfg) : {β : Type} → FieldList β → Bytes → β → Bytes → Prop where
  | nil (v : Bytes) : FieldsDecode cfg .nil v () v
  | cons {α β : Type} {c : Codec α} {fs : FieldList β} {v r rest : Bytes} {a : α} {b : β} (h : c.Decodes cfg v a r)
      (t : FieldsDecode cfg fs r b rest) : FieldsDecode cfg (.cons c fs) v (a, b) rest

/-- The fields in front of one of them decode one after the other, and that one fails. -/
inductive FieldsFail (cfg : Cfg) : {β : Type} → FieldList β → Bytes → ParseError → Prop where
  | head {α β : Type} {c : Codec α} (fs : FieldList β) {v : Bytes} {e : ParseError} (h : c.Rejects cfg v e) :
      FieldsFail cfg (.cons c fs) v e
  | tail {α β : Type} {c : Codec α} {fs : FieldList β} {v r : Bytes} {a : α} {e : ParseError} (h : c.Decodes cfg v a r)
      (t : FieldsFail cfg fs r e) : FieldsFail cfg (.cons c fs) v e

/-- C30, decoding: the fields in declaration order, each from where the one before it stopped. -/
theorem C30_decode {fs : FieldList β} {v rest : Bytes} {x : β} (h : FieldsDecode cfg fs v x rest) :
    (record fs.codec).Decodes cfg v x rest := by
  induction h with
  | nil v => intro k vs s hs; exact ⟨s, rfl, hs⟩
  | cons h _ ih =>
    intro k vs s hs
    obtain ⟨s1, h1, r1⟩ := h k vs s hs
    obtain ⟨s2, h2, r2⟩ := ih k vs s1 r1
    refine ⟨s2, ?_, r2⟩
    simp only [record] at h2
    simp [record, FieldList.codec, FCodec.cons, M.bind_run, h1, h2]

/-- C30, a field that fails to decode. -/
theorem C30_field_error {fs : FieldList β} {v : Bytes} {e : ParseError} (h : FieldsFail cfg fs v e) :
    (record fs.codec).Rejects cfg v e := by
  induction h with
  | head fs h =>
    intro k vs s hs
    obtain ⟨e', s1, h1, hk⟩ := h k vs s hs
    exact ⟨e', s1, by simp [record, FieldList.codec, FCodec.cons, M.bind_run, h1], hk⟩
  | tail h _ ih =>
    intro k vs s hs
    obtain ⟨s1, h1, r1⟩ := h k vs s hs
    obtain ⟨e', s2, h2, hk⟩ := ih k vs s1 r1
    simp only [record] at h2
    exact ⟨e', s2, by simp [record, FieldList.codec, FCodec.cons, M.bind_run, h1, h2], hk⟩

/-- The encoding of `x`, if there is one, decodes to `x` when followed by `t`. -/
def Inverts (c : Codec α) (cfg : Cfg) (x : α) (t : Bytes) : Prop :=
  ∀ b, c.toBytes x = some b → c.Decodes cfg (b ++ t) x t

/-- Every field is inverted in front of any bytes, except the last one which only needs to be in front of `t`. -/
def FieldsInvert (cfg : Cfg) (t : Bytes) : {β : Type} → FieldList β → β → Prop
  | _, .nil, _ => True
  | _, .cons c .nil, x => Inverts c cfg x.1 t
  | _, .cons c fs, x => (∀ t', Inverts c cfg x.1 t') ∧ FieldsInvert cfg t fs x.2

theorem fields_decode : {β : Type} → (fs : FieldList β) → (x : β) → (b t : Bytes) → FieldsInvert cfg t fs x →
    concatAll (fieldBytes fs x) = some b → FieldsDecode cfg fs (b ++ t) x t
  | _, .nil, (), b, t, _, hb => by cases hb; exact .nil t
  | _, .cons c .nil, (x, ()), b, t, h, hb => by
    have h' : Inverts c cfg x t := h
    rw [fieldBytes, concatAll_cons] at hb
    cases hx : c.toBytes x with
    | none => rw [hx] at hb; cases hb
    | some p =>
      have hb' : some (p ++ []) = some b := by rw [hx] at hb; exact hb
      cases hb'
      rw [List.append_nil]
      exact .cons (h' p hx) (.nil t)
  | _, .cons c (.cons c' fs), (x, xs), b, t, h, hb => by
    have h' : (∀ t', Inverts c cfg x t') ∧ FieldsInvert cfg t (.cons c' fs) xs := h
    rw [fieldBytes, concatAll_cons] at hb
    cases hx : c.toBytes x with
    | none => rw [hx] at hb; cases hb
    | some p =>
      cases hr : concatAll (fieldBytes (.cons c' fs) xs) with
      | none => rw [hx, hr] at hb; cases hb
      | some q =>
        rw [hx, hr] at hb
        cases hb
        rw [List.append_assoc]
        exact .cons (h'.1 (q ++ t) p hx) (fields_decode (.cons c' fs) xs q t h'.2 hr)

/-- C30, round trip. -/
theorem C30_roundtrip (fs : FieldList β) (ha : FieldsAppending fs) (x : β) (b t : Bytes) (h : FieldsInvert cfg t fs x)
    (hb : (record fs.codec).toBytes x = some b) : (record fs.codec).Decodes cfg (b ++ t) x t := by
  rw [C30_encode fs ha] at hb
  exact C30_decode (fields_decode fs x b t h hb)

/-- C30, what is asked of the fields that are not last is needed: a field that reads to the end of the window takes the
fields behind it with it. -/
theorem C30_greedy_field (cfg : Cfg) :
    let fs : FieldList _ := .cons Codec.bytes (.cons (Codec.int .u8) .nil)
    (record fs.codec).toBytes ([1], 2, ()) = some [1, 2] ∧
    (record fs.codec).Rejects cfg [1, 2] (D.shortErr 1 0) := by
  intro fs
  refine ⟨C30_encode fs ⟨Writes.appending bytes_writes, Writes.appending (int_writes .u8), trivial⟩ _, ?_⟩
  refine C30_field_error (.tail (a := [1, 2]) (r := []) (Parses.decodes (bytes_parses (win := False)) rfl) (.head _ ?_))
  exact Parses.rejects (int_parses (win := False) .u8) (.inl id) rfl

example (cfg : Cfg) :
    let fs : FieldList _ := .cons (Codec.int .u16) (.cons Codec.bool (.cons Codec.bytes .nil))
    (record fs.codec).toBytes (258, true, [7, 8], ()) = some [1, 2, 0xff, 7, 8] ∧
    (record fs.codec).Decodes cfg [1, 2, 0xff, 7, 8] (258, true, [7, 8], ()) [] := by
  intro fs
  have ha : FieldsAppending fs := ⟨Writes.appending (int_writes .u16), Writes.appending bool_writes,
    Writes.appending bytes_writes, trivial⟩
  have hb : (record fs.codec).toBytes (258, true, [7, 8], ()) = some [1, 2, 0xff, 7, 8] := C30_encode fs ha _
  refine ⟨hb, C30_roundtrip fs ha (258, true, [7, 8], ()) _ [] ⟨?_, ?_, ?_⟩ hb⟩
  · exact fun t b h => C10_int_roundtrip cfg .u16 258 b t h
  · intro t b h
    cases h
    exact (C11_bool cfg t).2.2.1
  · intro b h
    cases h
    exact Parses.decodes (bytes_parses (win := False)) rfl

end Verif.Props
