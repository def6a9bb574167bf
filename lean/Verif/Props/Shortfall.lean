import Verif.Lemmas.Shortfall
import Verif.Props.Recursive
import Verif.Props.Sequences
import Verif.Props.Dynamic
import Verif.Props.Convert
/-
How wrong length estimates are (C16, C36, C37, C45, C52): each `N` with value 0 is missing one byte, and nothing else is.
-/
namespace Verif.Props
open Codec

/-- C37 to the letter: the estimate falls short of the length of the encoding by the number of `N`s with value 0. -/
theorem C37_exact (cfg : Cfg) (s : Schema) (x : s.Val) (hv : s.Valid x) (b : Bytes)
    (hb : (s.codec cfg).toBytes x = some b) : (s.codec cfg).estimate x + s.zeros x = b.length := by
  rw [Writes.toBytes (s.writes_out cfg)] at hb
  exact s.estimate_gap cfg x b hv hb

/-- C16 to the letter. -/
theorem C16_N_exact (n : Nat) (b : Bytes) (hb : Codec.zarithN.toBytes n = some b) :
    Codec.zarithN.estimate n + (if n = 0 then 1 else 0) = b.length :=
  C37_exact ⟨.debug, false, false, false⟩ .zarithN n trivial b hb

/-- C36 to the letter, with the feature `enc_len_estimable_override`: `enc_len` is as much too small. -/
theorem C36_override_exact (cfg : Cfg) (ho : cfg.encLenOverride = true) (s : Schema) (x : s.Val) (hv : s.Valid x) (b : Bytes)
    (hb : (s.codec cfg).toBytes x = some b) :
    (s.codec cfg).encLen cfg x = some (b.length - s.zeros x) ∧ s.zeros x ≤ b.length := by
  have := C37_exact cfg s x hv b hb
  refine ⟨?_, by omega⟩
  simp only [Codec.encLen, ho, if_true]
  congr 1
  omega

/-- C45 to the letter, with that feature: there is output exactly if the length announced, which is as much too small, fits the
prefix; and that is the length announced. -/
theorem C45_override_exact (cfg : Cfg) (ho : cfg.encLenOverride = true) (S : LenPref) (s : Schema) (x : s.Val) (hv : s.Valid x)
    (b : Bytes) :
    ((dynamic cfg S (s.codec cfg)).toBytes x = some b) ↔
      ∃ p w, b = p ++ w ∧ (s.codec cfg).toBytes x = some w ∧ Announces S p (w.length - s.zeros x) := by
  have hw : (s.codec cfg).Writes (s.out cfg) := s.writes_out cfg
  rw [Writes.toBytes (dynamic_writes cfg S hw), Enc.dynamic_eq_some, Writes.toBytes hw]
  simp only [Enc.lenOf, ho, if_true]
  constructor
  · rintro ⟨l, w, hl, h1, h2, rfl⟩
    cases hl
    have hg := s.estimate_gap cfg x w hv h2
    have e : w.length - s.zeros x = (s.codec cfg).estimate x := by omega
    refine ⟨_, w, rfl, h2, toBe_length _ _, ?_, by omega⟩
    rw [beVal_eq, ofBe_toBe_of_lt (Nat.lt_of_le_of_lt h1 S.maxLen_lt), e]
  · rintro ⟨p, w, rfl, h2, h3, h4, h5⟩
    have hg := s.estimate_gap cfg x w hv h2
    have e : w.length - s.zeros x = (s.codec cfg).estimate x := by omega
    rw [e] at h4 h5
    refine ⟨_, w, rfl, h5, h2, ?_⟩
    rw [← h4, ← h3, beVal_eq, toBe_ofBe]

/-- C53 with that feature: `length_prefix` foretells the length that will be announced, or the refusal. -/
theorem C53_override_exact (cfg : Cfg) (ho : cfg.encLenOverride = true) (S : LenPref) (s : Schema) (x : s.Val) (hv : s.Valid x)
    (w : Bytes) (hw : (s.codec cfg).toBytes x = some w) :
    (w.length - s.zeros x ≤ S.maxLen → (s.codec cfg).lengthPrefix cfg S x = some (.ok (w.length - s.zeros x)) ∧
      ∃ p, (dynamic cfg S (s.codec cfg)).toBytes x = some (p ++ w) ∧ Announces S p (w.length - s.zeros x)) ∧
    (S.maxLen < w.length - s.zeros x →
      (s.codec cfg).lengthPrefix cfg S x = some (.error (.tooWide S.maxLen (w.length - s.zeros x))) ∧
      (dynamic cfg S (s.codec cfg)).toBytes x = none) := by
  have hl := (C36_override_exact cfg ho s x hv w hw).1
  refine ⟨fun h => ⟨?_, ?_⟩, fun h => ⟨?_, ?_⟩⟩
  · simp only [Codec.lengthPrefix, hl, Option.map_some, lenPref_tryFrom, if_pos h]
  · have hn : (toBe S.len (w.length - s.zeros x)).length = S.len := toBe_length _ _
    refine ⟨toBe S.len (w.length - s.zeros x), (C45_override_exact cfg ho S s x hv _).mpr ⟨_, w, rfl, hw, ?_⟩, ?_⟩ <;>
      exact ⟨hn, by rw [beVal_eq, ofBe_toBe_of_lt (Nat.lt_of_le_of_lt h S.maxLen_lt)], h⟩
  · simp only [Codec.lengthPrefix, hl, Option.map_some, lenPref_tryFrom, if_neg (Nat.not_le.mpr h)]
    rw [if_neg (fun ⟨_, h'⟩ => h' h)]
  · cases hb : (dynamic cfg S (s.codec cfg)).toBytes x with
    | none => rfl
    | some b =>
      obtain ⟨p, w', -, h1, -, -, h2⟩ := (C45_override_exact cfg ho S s x hv b).mp hb
      rw [hw] at h1
      cases h1
      omega

/-- C45 with that feature, what comes of it: the list `[5, 0]` is announced as one byte long and read back as `[5]`, without any
error; its last byte is taken for what follows. -/
theorem C45_override_misread (p : Profile) (a b : Bool) :
    (dynamic ⟨p, true, a, b⟩ .u8 (seq zarithN)).toBytes [5, 0] = some [0x01, 0x05, 0x00] ∧
    (dynamic ⟨p, true, a, b⟩ .u8 (seq zarithN)).Decodes ⟨p, true, a, b⟩ [0x01, 0x05, 0x00] [5] [0x00] := by
  have h5 : zarithN.toBytes 5 = some [0x05] := (toBytes_N 5).trans (by rw [Enc.nat7]; rfl)
  have h0 : zarithN.toBytes 0 = some [0x00] := (toBytes_N 0).trans (by rw [Enc.nat7]; rfl)
  have hs : (seq zarithN).toBytes [5, 0] = some [0x05, 0x00] := by
    rw [C25_encode (Writes.appending zarithN_writes)]
    simp [concatBytes, h5, h0]
  refine ⟨?_, ?_⟩
  · refine (C45_override_exact ⟨p, true, a, b⟩ rfl .u8 (.seq .zarithN) [(5 : Nat), (0 : Nat)] (fun _ _ => trivial) _).mpr
      ⟨[0x01], [0x05, 0x00], rfl, hs, rfl, rfl, ?_⟩
    decide
  · refine C19_decode (S := .u8) (p := [0x01]) (v := [0x05]) ⟨rfl, rfl, by decide⟩ ?_ [0x00]
    have hd : zarithN.Decodes ⟨p, true, a, b⟩ ([0x05] ++ []) 5 [] := by
      obtain ⟨w, hw, hd⟩ := C12_N_roundtrip ⟨p, true, a, b⟩ 5
      rw [h5] at hw
      cases hw
      exact hd []
    exact C25_decode (.cons (by simp) hd (.nil []))

/-- C52 to the letter: as C37, for the values of recursive types. -/
theorem C52_estimate_exact (cfg : Cfg) (d : Decls) {i : Nat} (n : Nat) (x : (d.unfold n i).Val)
    (hv : (d.unfold n i).Valid x) (b : Bytes) (hb : (d.codec cfg i).toBytes (d.val n x) = some b) :
    (d.codec cfg i).estimate (d.val n x) + (d.unfold n i).zeros x = b.length := by
  rw [rec_toBytes] at hb
  have h := C37_exact cfg (d.unfold n i) x hv b hb
  have hk : ((d.unfold n i).codec cfg).known = none := ((d.unfold n i).known_eq cfg).trans (d.width n i)
  unfold Codec.estimate at h
  rw [hk] at h
  exact h

/-- Two `N`s, one of them zero: the hypotheses are met, and one byte is missing. -/
example (cfg : Cfg) : let s : Schema := .option (.record (.cons .zarithN (.cons .zarithN .nil)))
    let x : s.Val := some ((0 : Nat), (7 : Nat), ())
    s.Valid x ∧ s.zeros x = 1 ∧ (s.codec cfg).toBytes x = some [0xff, 0x00, 0x07] := by
  refine ⟨fun y hy => ?_, rfl, ?_⟩
  · cases hy; exact ⟨trivial, trivial, trivial⟩
  · have h0 : Enc.nat7 0 = [0x00] := by rw [Enc.nat7]; rfl
    have h7 : Enc.nat7 7 = [0x07] := by rw [Enc.nat7]; rfl
    refine (Writes.toBytes (Schema.writes_out cfg _) _).trans ?_
    show Enc.cat (some [0xff]) (Enc.cat (some (Enc.nat7 0)) (Enc.cat (some (Enc.nat7 7)) (some []))) = _
    rw [h0, h7]
    rfl

end Verif.Props
