import Verif.Lemmas.Surplus
import Verif.Props.Shortfall
/-
How wrong length estimates are, for all values, also those with `FixSeq`s that are not full (C36, C37, C45, C52, C53).
-/
namespace Verif.Props
open Codec

/-- C37 to the letter, for every value that can be encoded: the estimate misses one byte for each `N` with value 0 and counts the
vacancies in those `FixSeq`s that are estimated by their type. -/
theorem C37_all (cfg : Cfg) (s : Schema) (x : s.Val) (b : Bytes) (hb : (s.codec cfg).toBytes x = some b) :
    ((s.codec cfg).estimate x : Int) = b.length + s.surplus x - s.zeros x ∧
    ((s.codec cfg).estimate x = b.length ↔ s.surplus x = s.zeros x) := by
  rw [Writes.toBytes (s.writes_out cfg)] at hb
  have := s.estimate_surplus cfg x b hb
  constructor
  · omega
  · constructor <;> intro h <;> omega

/-- C37: there is no surplus in well-formed values. -/
theorem C37_no_surplus (cfg : Cfg) (s : Schema) (x : s.Val) (hv : s.Valid x) (b : Bytes) (hb : (s.codec cfg).toBytes x = some b) :
    s.surplus x = 0 := by
  have h1 := (C37_all cfg s x b hb).1
  have h2 := C37_exact cfg s x hv b hb
  omega

/-- C36 with the feature `enc_len_estimable_override`, for every value that can be encoded. -/
theorem C36_override_all (cfg : Cfg) (ho : cfg.encLenOverride = true) (s : Schema) (x : s.Val) (b : Bytes)
    (hb : (s.codec cfg).toBytes x = some b) :
    ∃ l : Nat, (s.codec cfg).encLen cfg x = some l ∧ (l : Int) = b.length + s.surplus x - s.zeros x :=
  ⟨(s.codec cfg).estimate x, by simp only [Codec.encLen, ho, if_true], (C37_all cfg s x b hb).1⟩

/-- C45 with that feature, for every value: there is output exactly if the length announced fits the prefix; that length is the
one of the payload, more the vacancies counted, less the zero `N`s. -/
theorem C45_override_all (cfg : Cfg) (ho : cfg.encLenOverride = true) (S : LenPref) (s : Schema) (x : s.Val) (b : Bytes) :
    ((dynamic cfg S (s.codec cfg)).toBytes x = some b) ↔
      ∃ p w l, b = p ++ w ∧ (s.codec cfg).toBytes x = some w ∧ Announces S p l ∧ (l : Int) = w.length + s.surplus x - s.zeros x := by
  have hw : (s.codec cfg).Writes (s.out cfg) := s.writes_out cfg
  rw [Writes.toBytes (dynamic_writes cfg S hw), Enc.dynamic_eq_some]
  simp only [Enc.lenOf, ho, if_true]
  constructor
  · rintro ⟨l, w, hl, h1, h2, rfl⟩
    cases hl
    have h3 : (s.codec cfg).toBytes x = some w := by rw [Writes.toBytes hw, h2]
    refine ⟨_, w, _, rfl, h3, ⟨toBe_length _ _, ?_, h1⟩, (C37_all cfg s x w h3).1⟩
    rw [beVal_eq, ofBe_toBe_of_lt (Nat.lt_of_le_of_lt h1 S.maxLen_lt)]
  · rintro ⟨p, w, l, rfl, h2, ⟨h3, h4, h5⟩, h6⟩
    have h7 := (C37_all cfg s x w h2).1
    have e : l = (s.codec cfg).estimate x := by omega
    subst e
    rw [Writes.toBytes hw] at h2
    refine ⟨_, w, rfl, h5, h2, ?_⟩
    rw [← h4, ← h3, beVal_eq, toBe_ofBe]

/-- C53 with that feature, for every value: `length_prefix` foretells the length that will be announced, or the refusal. -/
theorem C53_override_all (cfg : Cfg) (ho : cfg.encLenOverride = true) (S : LenPref) (s : Schema) (x : s.Val) (w : Bytes)
    (hw : (s.codec cfg).toBytes x = some w) (l : Nat) (hl : (l : Int) = w.length + s.surplus x - s.zeros x) :
    (l ≤ S.maxLen → (s.codec cfg).lengthPrefix cfg S x = some (.ok l) ∧
      ∃ p, (dynamic cfg S (s.codec cfg)).toBytes x = some (p ++ w) ∧ Announces S p l) ∧
    (S.maxLen < l → (s.codec cfg).lengthPrefix cfg S x = some (.error (.tooWide S.maxLen l)) ∧
      (dynamic cfg S (s.codec cfg)).toBytes x = none) := by
  have he : (s.codec cfg).encLen cfg x = some l := by
    obtain ⟨l', h1, h2⟩ := C36_override_all cfg ho s x w hw
    have : l' = l := by omega
    rw [h1, this]
  refine ⟨fun h => ⟨?_, ?_⟩, fun h => ⟨?_, ?_⟩⟩
  · simp only [Codec.lengthPrefix, he, Option.map_some, lenPref_tryFrom, if_pos h]
  · have hn : (toBe S.len l).length = S.len := toBe_length _ _
    have ha : Announces S (toBe S.len l) l := ⟨hn, by rw [beVal_eq, ofBe_toBe_of_lt (Nat.lt_of_le_of_lt h S.maxLen_lt)], h⟩
    exact ⟨_, (C45_override_all cfg ho S s x _).mpr ⟨_, w, l, rfl, hw, ha, hl⟩, ha⟩
  · simp only [Codec.lengthPrefix, he, Option.map_some, lenPref_tryFrom, if_neg (Nat.not_le.mpr h)]
    rw [if_neg (fun ⟨_, h'⟩ => h' h)]
  · cases hb : (dynamic cfg S (s.codec cfg)).toBytes x with
    | none => rfl
    | some b =>
      obtain ⟨p, w', l', -, h1, ⟨-, -, h2⟩, h3⟩ := (C45_override_all cfg ho S s x b).mp hb
      rw [hw] at h1
      cases h1
      omega

/-- C52 to the letter: as C37, for every value of a recursive type that can be encoded. -/
theorem C52_estimate_all (cfg : Cfg) (d : Decls) {i : Nat} (n : Nat) (x : (d.unfold n i).Val) (b : Bytes)
    (hb : (d.codec cfg i).toBytes (d.val n x) = some b) :
    ((d.codec cfg i).estimate (d.val n x) : Int) = b.length + (d.unfold n i).surplus x - (d.unfold n i).zeros x := by
  rw [rec_toBytes] at hb
  have h := (C37_all cfg (d.unfold n i) x b hb).1
  have hk : ((d.unfold n i).codec cfg).known = none := ((d.unfold n i).known_eq cfg).trans (d.width n i)
  unfold Codec.estimate at h
  rw [hk] at h
  exact h

/-- Whether an unfilled `FixSeq` is estimated rightly depends on what stands beside it: next to a `u8` two vacancies are
counted, next to an `N` none. -/
example : let s : Schema := .record (.cons (.fixSeq 3 .bool) (.cons (.int .u8) .nil))
    let s' : Schema := .record (.cons (.fixSeq 3 .bool) (.cons .zarithN .nil))
    s.surplus (([true] : List Bool), ((7 : BitVec 8), ())) = 2 ∧ s'.surplus (([true] : List Bool), ((7 : Nat), ())) = 0 ∧
    (Schema.seq s).surplus ([(([true] : List Bool), ((7 : BitVec 8), ()))] : List (List Bool × BitVec 8 × Unit)) = 2 ∧
    (Schema.fixSeq 1 .bool).surplus ([true, false, true] : List Bool) = -2 :=
  ⟨rfl, rfl, rfl, rfl⟩

/-- The hypotheses are met by a value with both kinds of errors, which here cancel out. -/
example (cfg : Cfg) : let s : Schema := .seq (.data .u8 (.cons 0 (.fixSeq 2 .bool) (.cons 1 .zarithN .nil)))
    let x : List (List Bool ⊕ Nat ⊕ Empty) := [.inl [true], .inr (.inl 0)]
    s.surplus x = 1 ∧ s.zeros x = 1 ∧ (s.codec cfg).toBytes x = some [0, 0xff, 1, 0] := by
  refine ⟨rfl, rfl, ?_⟩
  have h0 : Enc.nat7 0 = [0x00] := by rw [Enc.nat7]; rfl
  refine (Writes.toBytes (Schema.writes_out cfg _) _).trans ?_
  show Enc.cat (some [0, 0xff]) (Enc.cat (Enc.cat (some [1]) (some (Enc.nat7 0))) (some [])) = _
  rw [h0]
  rfl

end Verif.Props
