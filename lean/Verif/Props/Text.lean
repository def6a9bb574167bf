import Verif.Props.Hex
import Verif.Props.Prims
import Verif.Lemmas.Lossy
/-
Character strings (C23) and fixed-width strings (C24).
-/
namespace Verif.Props

open Codec

/-! ### C23 -/

/-- The bytes are the UTF-8 encoding of some sequence of Unicode scalar values (`String.utf8EncodeChar` is
the encoder of Lean's own strings). -/
def ValidUtf8 (v : Bytes) : Prop := ∃ cs : List Char, v = cs.flatMap String.utf8EncodeChar

/-- C23, encoding: a string is written as its UTF-8 bytes. -/
theorem C23_encode (cs : List Char) : Codec.string.toBytes cs = some (cs.flatMap String.utf8EncodeChar) := by
  rw [← utf8_eq]
  exact Writes.toBytes string_writes cs

/-- C23, round trip, from a window of exactly these bytes. -/
theorem C23_roundtrip (cfg : Cfg) (cs : List Char) (b : Bytes) (hb : Codec.string.toBytes cs = some b) :
    Codec.string.Decodes cfg b cs [] := by
  have h := roundTrip (cfg := cfg) string_writes (string_parses (win := False)) .string trivial hb (rfl : Tail.Allows (.exact 0) [])
  rwa [List.append_nil] at h

/-- C23, totality: whatever the bytes are, all of them are decoded to some text, and re-encoding that text gives
the bytes back exactly when they were valid UTF-8. -/
theorem C23_total (cfg : Cfg) (v : Bytes) :
    ∃ cs, Codec.string.Decodes cfg v cs [] ∧ (Codec.string.toBytes cs = some v ↔ ValidUtf8 v) := by
  refine ⟨lossy v, Parses.decodes (string_parses (win := False)) rfl, ?_⟩
  rw [C23_encode]
  constructor
  · intro h
    exact ⟨lossy v, (Option.some.inj h).symm⟩
  · rintro ⟨cs, rfl⟩
    rw [← utf8_eq cs, lossy_utf8, utf8_eq]

/-- `p` is the ill-formed piece at the front of `p ++ v` (the "maximal subpart" of the Unicode standard, D93b): no
character is encoded there, and `p` is the longest piece with which the encoding of a character could begin, or a
single byte if there is none. -/
structure IllFormed (p v : Bytes) : Prop where
  nonempty : p ≠ []
  noChar : ∀ c, ¬ String.utf8EncodeChar c <+: p ++ v
  begins : p.length = 1 ∨ ∃ c, p <+: String.utf8EncodeChar c
  longest : ∀ q, q <+: p ++ v → p.length < q.length → ∀ c, ¬ q <+: String.utf8EncodeChar c

/-- Reading bytes as text: encoded characters stand for themselves, every ill-formed piece for one U+FFFD. -/
inductive ReadAs : Bytes → List Char → Prop
  | nil : ReadAs [] []
  | char {c v cs} : ReadAs v cs → ReadAs (String.utf8EncodeChar c ++ v) (c :: cs)
  | bad {p v cs} : IllFormed p v → ReadAs v cs → ReadAs (p ++ v) ('\uFFFD' :: cs)

/-- The scanner reads as specified. -/
theorem readAs_lossy (v : Bytes) : ReadAs v (lossy v) := by
  suffices H : ∀ n, ∀ v : Bytes, v.length ≤ n → ReadAs v (lossy v) from H _ v (Nat.le_refl _)
  intro n
  induction n with
  | zero =>
    intro v hv
    rw [List.length_eq_zero_iff.mp (Nat.le_zero.mp hv), lossy]
    exact .nil
  | succ n ih =>
    intro v hv
    cases v with
    | nil => rw [lossy]; exact .nil
    | cons a bs =>
      rw [lossy]
      rcases lossyStep_cases a bs with ⟨c, h, t, ht⟩ | ⟨k, h, hk, hb, hm, hs⟩
      · obtain ⟨a', bs', h1, -⟩ := lossyStep_utf8 c []
        rw [h]
        rw [h1, List.cons_append] at ht
        obtain ⟨rfl, rfl⟩ := List.cons.inj ht
        simp only [h1, List.length_cons, Nat.add_sub_cancel, List.drop_left]
        have : a' :: (bs' ++ t) = String.utf8EncodeChar c ++ t := by rw [← utf8Char_eq, h1]; rfl
        rw [this]
        exact .char (ih t (by simp at hv; omega))
      · rw [h]
        simp only [Nat.add_sub_cancel]
        have e : a :: bs = (a :: bs.take k) ++ bs.drop k := by rw [List.cons_append, List.take_append_drop]
        have hlen : (bs.take k).length = k := by rw [List.length_take, Nat.min_eq_left hk]
        have := ih (bs.drop k) (by simp at hv ⊢; omega)
        rw [e]
        refine .bad ⟨by simp, ?_, ?_, ?_⟩ this
        · rintro c ⟨t, ht⟩
          rw [← e, ← utf8Char_eq] at ht
          obtain ⟨a', bs', h1, h2⟩ := utf8Step_utf8 c t
          rw [h1, List.cons_append] at ht
          obtain ⟨rfl, rfl⟩ := List.cons.inj ht
          exact hs _ h2
        · rcases hb with rfl | hb
          · exact .inl (by simp)
          · obtain ⟨c, hc⟩ := (begins_iff _).mp hb
            exact .inr ⟨c, by rwa [← utf8Char_eq]⟩
        · intro q hq hl c hc
          rw [← e] at hq
          cases q with
          | nil => simp at hl
          | cons x q =>
            rw [List.cons_prefix_cons] at hq
            obtain ⟨rfl, hq⟩ := hq
            have hq' := List.prefix_iff_eq_take.mp hq
            have hql := hq.length_le
            simp only [List.length_cons, hlen] at hl
            refine hm q.length (by omega) hql ?_
            rw [← hq']
            exact (begins_iff _).mpr ⟨c, by rwa [utf8Char_eq]⟩

/-- There is one reading only. -/
theorem readAs_unique {v : Bytes} {cs ds : List Char} (h : ReadAs v cs) : ReadAs v ds → cs = ds := by
  induction h generalizing ds with
  | nil =>
    intro h
    generalize hv : ([] : Bytes) = v at h
    cases h with
    | nil => rfl
    | char => 
      rename_i c v _ _
      obtain ⟨a, bs, h1, -⟩ := lossyStep_utf8 c []
      rw [← utf8Char_eq, h1] at hv
      cases hv
    | bad hp =>
      exact absurd (List.append_eq_nil_iff.mp hv.symm).1 hp.nonempty
  | @char c v cs h ih =>
    intro h'
    generalize hv : String.utf8EncodeChar c ++ v = w at h'
    cases h' with
    | nil =>
      obtain ⟨a, bs, h1, -⟩ := lossyStep_utf8 c []
      rw [← utf8Char_eq, h1] at hv
      cases hv
    | @char c' v' cs' h' =>
      obtain ⟨a, bs, h1, h2⟩ := lossyStep_utf8 c v
      obtain ⟨a', bs', h1', h2'⟩ := lossyStep_utf8 c' v'
      have hv2 := hv
      rw [← utf8Char_eq, ← utf8Char_eq, h1, h1', List.cons_append, List.cons_append] at hv2
      obtain ⟨rfl, e⟩ := List.cons.inj hv2
      rw [e, h2'] at h2
      obtain rfl : c' = c := (Prod.mk.inj h2).1
      obtain rfl := List.append_cancel_left hv
      rw [ih h']
    | @bad p v' cs' hp h' =>
      exact absurd ⟨v, hv⟩ (hp.noChar c)
  | @bad p v cs hp h ih =>
    intro h'
    generalize hv : p ++ v = w at h'
    cases h' with
    | nil => exact absurd (List.append_eq_nil_iff.mp hv).1 hp.nonempty
    | @char c' v' cs' h' => exact absurd ⟨v', hv.symm⟩ (hp.noChar c')
    | @bad p' v' cs' hp' h' =>
      have key : ∀ {p v p' v' : Bytes}, IllFormed p v → IllFormed p' v' → p ++ v = p' ++ v' → ¬ p.length < p'.length := by
        intro p v p' v' h1 h2 e hl
        rcases h2.begins with h | ⟨c, hc⟩
        · have := List.length_pos_iff.mpr h1.nonempty
          omega
        · exact h1.longest p' (e ▸ List.prefix_append _ _) hl c hc
      have hl : p.length = p'.length := Nat.le_antisymm (Nat.not_lt.mp (key hp' hp hv.symm)) (Nat.not_lt.mp (key hp hp' hv))
      obtain ⟨rfl, rfl⟩ := List.append_inj hv hl
      rw [ih h']

/-- C23, what ill-formed bytes become: any bytes decode to the one text they read as, with a single U+FFFD for
every maximal ill-formed piece. -/
theorem C23_repair (cfg : Cfg) (v : Bytes) :
    ∃ cs, Codec.string.Decodes cfg v cs [] ∧ ReadAs v cs ∧ ∀ ds, ReadAs v ds → ds = cs :=
  ⟨lossy v, Parses.decodes (string_parses (win := False)) rfl, readAs_lossy v, fun _ h => readAs_unique h (readAs_lossy v)⟩

/-- C23, the converse: what the bytes read as is what they decode to. -/
theorem C23_read (cfg : Cfg) (v : Bytes) (cs : List Char) (h : ReadAs v cs) : Codec.string.Decodes cfg v cs [] := by
  rw [readAs_unique h (readAs_lossy v)]
  exact Parses.decodes (string_parses (win := False)) rfl

/-- C23, valid text before ill-formed bytes is untouched. -/
theorem C23_valid_prefix (cfg : Cfg) (cs : List Char) (v : Bytes) (ds : List Char) (h : ReadAs v ds) :
    Codec.string.Decodes cfg (cs.flatMap String.utf8EncodeChar ++ v) (cs ++ ds) [] := by
  refine C23_read cfg _ _ ?_
  induction cs with
  | nil => exact h
  | cons c cs ih =>
    rw [List.flatMap_cons, List.append_assoc]
    exact .char ih

/-- A character cut short by another one: one replacement, and the other one is read. -/
example : ReadAs [0xe2, 0x82, 0x41] ['\uFFFD', 'A'] := by
  have := readAs_lossy [0xe2, 0x82, 0x41]
  rwa [show lossy [0xe2, 0x82, 0x41] = ['\uFFFD', 'A'] by decide +kernel] at this

/-- C23, where it loses: bytes that are not UTF-8 and the text with U+FFFD in their place decode to the same
string, so decoding is not injective. -/
theorem C23_lossy (cfg : Cfg) :
    Codec.string.Decodes cfg [0x41, 0xff] ['A', '�'] [] ∧
    Codec.string.Decodes cfg [0x41, 0xef, 0xbf, 0xbd] ['A', '�'] [] :=
  ⟨Parses.decodes (string_parses (win := False)) (by decide +kernel),
    Parses.decodes (string_parses (win := False)) (by decide +kernel)⟩

example : Codec.string.toBytes ['h', 'é', '€', '😀'] =
    some [0x68, 0xc3, 0xa9, 0xe2, 0x82, 0xac, 0xf0, 0x9f, 0x98, 0x80] := by decide +kernel
example : ValidUtf8 [0xc3, 0xa9] := ⟨['é'], by decide⟩
example : ¬ ValidUtf8 [0xc0, 0x80] := by
  rintro ⟨cs, h⟩
  rw [← utf8_eq] at h
  exact absurd ((fromUtf8Ok_iff [0xc0, 0x80]).mpr ⟨cs, h⟩) (by decide +kernel)

/-! ### C24 -/

/-- C24, encoding: the contents, `n` bytes, whichever method is used. -/
theorem C24_encode (n : Nat) (x : ByteArr n) :
    (Codec.fixedBytes n).toBytes x = some x.1 ∧ (Codec.fixedString n).toBytes x = some x.1 ∧ x.1.length = n ∧
    Codec.Override.fixedToBytes x = x.1 ∧
    ∀ buf, (Codec.fixedBytes n).writeToVec x buf = some (Codec.Override.fixedWriteToVec x buf) :=
  ⟨Writes.toBytes (fixedBytes_writes n) x, Writes.toBytes (fixedString_writes n) x, x.2, rfl,
    fun buf => Writes.writeToVec (fixedBytes_writes n) x buf⟩

/-- C24, decoding: exactly the next `n` bytes, whatever they are, whatever follows. -/
theorem C24_decode (cfg : Cfg) (n : Nat) (x : ByteArr n) (rest : Bytes) :
    (Codec.fixedBytes n).Decodes cfg (x.1 ++ rest) x rest ∧ (Codec.fixedString n).Decodes cfg (x.1 ++ rest) x rest := by
  have h := RoundTrips.byteArr n x x.1 rest trivial rfl trivial
  exact ⟨Parses.decodes (fixedBytes_parses (win := False) n) h, Parses.decodes (fixedString_parses (win := False) n) h⟩

/-- C24, decoding too few bytes fails.  (`FixedBytes<N>` holds a `[u8; N]`; there is no such type for greater `N`.) -/
theorem C24_short (cfg : Cfg) (n : Nat) (hn : n ≤ isizeMax + 1) (v : Bytes) (h : v.length < n) :
    (Codec.fixedBytes n).Rejects cfg v (D.shortErr n v.length) ∧ (Codec.fixedString n).Rejects cfg v (D.shortErr n v.length) := by
  have hd : Dec.byteArr n v = .err (D.shortErr n v.length) := by
    simp only [Dec.byteArr, D.bind_run, D.take, if_neg (Nat.not_le.mpr h), D.short, if_pos hn, DecRes.bind_err]
  exact ⟨Parses.rejects (fixedBytes_parses (win := False) n) (.inl id) hd,
    Parses.rejects (fixedString_parses (win := False) n) (.inl id) hd⟩

/-- C24, construction from bytes: succeeds exactly if the length is `n`, and then holds these bytes; otherwise
the error reports both lengths. -/
theorem C24_construct (n : Nat) (bs : Bytes) :
    (∀ x, FixedBytes.tryFromSlice n bs = .ok x ↔ x.1 = bs) ∧
    (∀ x, FixedString.tryFromBytes n bs = .ok x ↔ x.1 = bs) ∧
    (∀ x, FixedBytes.tryFrom n bs = some x ↔ x.1 = bs) ∧
    (bs.length ≠ n →
      FixedBytes.tryFromSlice n bs = .error (.wrongWidth n bs.length) ∧
      FixedString.tryFromBytes n bs = .error (.wrongWidth n bs.length) ∧ FixedBytes.tryFrom n bs = none) := by
  have key : ∀ x : ByteArr n, x.1 = bs → bs.length = n := fun x h => h ▸ x.2
  refine ⟨fun x => ?_, fun x => ?_, fun x => ?_, fun h => ?_⟩
  · unfold FixedBytes.tryFromSlice
    split
    · exact ⟨fun e => by cases e; rfl, fun e => by subst e; rfl⟩
    · rename_i hn
      exact ⟨nofun, fun e => absurd (key x e) hn⟩
  · unfold FixedString.tryFromBytes
    split
    · exact ⟨fun e => by cases e; rfl, fun e => by subst e; rfl⟩
    · rename_i hn
      exact ⟨nofun, fun e => absurd (key x e) hn⟩
  · unfold FixedBytes.tryFrom
    split
    · exact ⟨fun e => by cases e; rfl, fun e => by subst e; rfl⟩
    · rename_i hn
      exact ⟨nofun, fun e => absurd (key x e) hn⟩
  · simp only [FixedBytes.tryFromSlice, FixedString.tryFromBytes, FixedBytes.tryFrom, dif_neg h, and_self]

/-- C24, the unsafe access in `try_from_slice` stays within the slice. -/
theorem C24_no_ub (n : Nat) (bs : Bytes) : FixedBytes.tryFromSliceRaw n bs = .val (FixedBytes.tryFromSlice n bs) := by
  by_cases h : bs.length = n
  · subst h
    simp [FixedBytes.tryFromSliceRaw, FixedBytes.tryFromSlice, FixedBytes.readArray]
  · simp only [FixedBytes.tryFromSliceRaw, FixedBytes.tryFromSlice, if_neg h, dif_neg h]

/-- C24, the contents are what they were constructed from. -/
theorem C24_access (n : Nat) (x : ByteArr n) :
    FixedBytes.toVec x = x.1 ∧ FixedBytes.len x = (FixedBytes.toVec x).length ∧ FixedBytes.len x = n ∧
    FixedBytes.tryFromSlice n (FixedBytes.toVec x) = .ok x :=
  ⟨rfl, x.2.symm, rfl, ((C24_construct n x.1).1 x).mpr rfl⟩

/-- C24, construction of a character string from text: it is the UTF-8 length that counts. -/
theorem C24_from_str (n : Nat) (s : List Char) :
    (∀ x, FixedString.fromStr n s = .ok x ↔ x.1 = s.flatMap String.utf8EncodeChar) ∧
    ((s.flatMap String.utf8EncodeChar).length ≠ n →
      FixedString.fromStr n s = .error (.wrongWidth n (s.flatMap String.utf8EncodeChar).length)) := by
  rw [← utf8_eq]
  exact ⟨(C24_construct n (utf8 s)).2.1, fun h => ((C24_construct n (utf8 s)).2.2.2 h).2.1⟩

/-- C24, validity of the contents: `is_valid_utf8` answers whether they are UTF-8, `try_from_array` accepts
exactly these, and for them `as_string_lossy` is the text whose encoding they are. -/
theorem C24_utf8 (n : Nat) (x : ByteArr n) :
    (FixedString.isValidUtf8 x = true ↔ ValidUtf8 x.1) ∧
    (FixedString.tryFromArray x = if FixedString.isValidUtf8 x then some x else none) ∧
    ReadAs x.1 (FixedString.asStringLossy x) ∧
    (ValidUtf8 x.1 → (FixedString.asStringLossy x).flatMap String.utf8EncodeChar = x.1) := by
  refine ⟨?_, rfl, readAs_lossy x.1, ?_⟩
  · rw [FixedString.isValidUtf8, fromUtf8Ok_iff]
    exact exists_congr fun cs => by rw [utf8_eq]
  · rintro ⟨cs, h⟩
    rw [FixedString.asStringLossy, h, ← utf8_eq cs, lossy_utf8, utf8_eq]

/-- C24, `LowerHex` of a byte string is the hex text of its contents. -/
theorem C24_lower_hex (n : Nat) (x : ByteArr n) : FixedBytes.lowerHex x = (HexString.fromVec x.1).toHex ∧
    denotes (FixedBytes.lowerHex x) = some x.1 ∧ (FixedBytes.lowerHex x).length = 2 * n := by
  have h := C33_to_hex ⟨x.1⟩
  exact ⟨rfl, h.1, h.2.1.trans (by rw [x.2])⟩

example : FixedString.fromStr 3 ['€'] = .ok ⟨[0xe2, 0x82, 0xac], rfl⟩ := rfl
example : FixedString.fromStr 1 ['€'] = .error (.wrongWidth 1 3) := rfl
example (cfg : Cfg) : (Codec.fixedBytes 2).Decodes cfg [1, 2, 3] ⟨[1, 2], rfl⟩ [3] :=
  (C24_decode cfg 2 ⟨[1, 2], rfl⟩ [3]).1

end Verif.Props
