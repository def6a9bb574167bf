import Verif.Lemmas.Printing
import Verif.Props.Schema
import Verif.Lemmas.ErrorText
/-
C75: printing values for debugging.
-/
namespace Verif.Props
open Codec

/-- What `Dynamic` prints around its contents. -/
def dynamicText (n : Nat) (prefixType contents : Text) : Text :=
  text! "[" ++ decimal n ++ prefixType ++ text! " bytes|" ++ contents ++ text! "]"

/-- C75: `{:?}` panics exactly if lengths are determined by encoding and somewhere inside is a `Dynamic` whose contents
cannot be encoded. -/
theorem C75_exact (cfg : Cfg) (W : Printing) (s : Schema) (x : s.Val) : s.debug cfg W x = none ↔
    cfg.encLenOverride = false ∧ s.someDynamic (fun t y => (t.codec cfg).toBytes y = none) x := by
  rw [s.debug_none cfg W x]
  have key : ∀ (t : Schema) (y : t.Val), Unmeasured cfg t y ↔ cfg.encLenOverride = false ∧ (t.codec cfg).toBytes y = none := by
    intro t y
    rw [Unmeasured, Codec.encLen_eq (t.writes_out cfg), Writes.toBytes (t.writes_out cfg), Enc.lenOf]
    cases cfg.encLenOverride <;> simp
  by_cases h : cfg.encLenOverride = false
  · exact ⟨fun hx => ⟨h, s.someDynamic_mono (fun t y hy => ((key t y).mp hy).2) x hx⟩,
      fun hx => s.someDynamic_mono (fun t y hy => (key t y).mpr ⟨h, hy⟩) x hx.2⟩
  · refine ⟨fun hx => ?_, fun hx => absurd hx.1 h⟩
    exact absurd (s.someDynamic_mono (fun t y hy => absurd ((key t y).mp hy).1 h) x hx) (s.someDynamic_false x)

/-- C75: what can be encoded can be printed. -/
theorem C75_encodable (cfg : Cfg) (W : Printing) (s : Schema) (x : s.Val) (h : (s.codec cfg).toBytes x ≠ none) :
    s.debug cfg W x ≠ none := by
  intro hd
  have h1 := ((C75_exact cfg W s x).mp hd).2
  rw [Writes.toBytes (s.writes_out cfg)] at h
  refine s.out_inside cfg x (Option.ne_none_iff_exists'.mp h) (s.someDynamic_mono (fun t y hy => ?_) x h1)
  rw [Writes.toBytes (t.writes_out cfg)] at hy
  exact hy

/-- C75: with estimated lengths everything can be printed. -/
theorem C75_override (cfg : Cfg) (h : cfg.encLenOverride = true) (W : Printing) (s : Schema) (x : s.Val) :
    s.debug cfg W x ≠ none := fun hd => by
  have := ((C75_exact cfg W s x).mp hd).1
  rw [h] at this
  cases this

/-- C75: a `Dynamic` is printed with the number of bytes of its contents, which is what its length prefix says, the
type of the prefix, and its contents; also if the contents are too long for the prefix. -/
theorem C75_length (cfg : Cfg) (hcfg : cfg.encLenOverride = false) (W : Printing) (S : LenPref) (s : Schema) (x : s.Val) (b : Bytes)
    (h : (s.codec cfg).toBytes x = some b) (t : Text) (ht : s.debug cfg W x = some t) :
    (Schema.dynamic S s).debug cfg W x = some (dynamicText b.length (match S with
      | .u8 => text! "u8" | .u16 => text! "u16" | .u30 => text! "u30") t) ∧
    (b.length ≤ S.maxLen → (Schema.codec cfg (.dynamic S s)).toBytes x = some (toBe S.len b.length ++ b)) := by
  rw [Writes.toBytes (s.writes_out cfg)] at h
  have hl : (s.codec cfg).encLen cfg x = some b.length := by
    rw [Codec.encLen_eq (s.writes_out cfg), Enc.lenOf, h, hcfg]; rfl
  have e1 : ∀ (l : Option Nat) (d : Option Text), l = some b.length → d = some t →
      DebugOf.dynamic S l d = some (dynamicText b.length (match S with
        | .u8 => text! "u8" | .u16 => text! "u16" | .u30 => text! "u30") t) := by
    rintro _ _ rfl rfl
    cases S <;> simp [DebugOf.dynamic, DebugOf.suffix, dynamicText]
  refine ⟨e1 _ _ hl ht, fun hle => ?_⟩
  have e2 : ∀ (f : s.Val → Option Nat) (e : Enc s.Val), f x = some b.length → e x = some b →
      Enc.dynamic S f e x = some (toBe S.len b.length ++ b) := by
    intro f e h1 h2
    simp [Enc.dynamic, h1, h2, hle, Enc.cat]
  have e3 : Enc.lenOf cfg (s.codec cfg).estimate (s.out cfg) x = some b.length := by rw [Enc.lenOf, h, hcfg]; rfl
  exact (Writes.toBytes ((Schema.dynamic S s).writes_out cfg) x).trans (e2 _ _ e3 h)

/-- C75: the text is the same in all builds, for values that can be encoded and hold no `N` with value 0 under a length
prefix (for which length estimates are wrong). -/
theorem C75_builds (cfg cfg' : Cfg) (W : Printing) (s : Schema) (x : s.Val) (hv : s.Valid x) (he : s.PrefixOk x)
    (h : (s.codec cfg).toBytes x ≠ none) : s.debug cfg W x = s.debug cfg' W x := by
  rw [toBytes_wire (.inr ⟨hv, he⟩)] at h
  exact s.debug_builds cfg cfg' W x hv he (Option.ne_none_iff_exists'.mp h)

/-- C75: what any parser decodes can be printed, unless it has text under a length prefix that has no room for three
times the input. -/
theorem C75_decoded_partial (cfg : Cfg) (W : Printing) (s : Schema) (hz : s.sized = true) (k : Backend)
    (v : Bytes) (vs : List Bytes) (st st' : k.State) (hs : k.Holds v vs st) (a : s.Val)
    (he : (s.codec cfg).parse (k.ops cfg.prof) st = .ok a st')
    (hx : s.textFree = true ∨ s.textLimit (3 * v.length) = true) : s.debug cfg W a ≠ none := by
  by_cases hcfg : cfg.encLenOverride = false
  · obtain ⟨_, b, _, h, _⟩ := C47_reencode_partial cfg hcfg s hz k v vs st st' hs a he hx
    exact C75_encodable cfg W s a (by rw [h]; exact nofun)
  · exact C75_override cfg (by simpa using hcfg) W s a

/-- C75 fails for decoded text: `Dynamic<u8, Dynamic<u8, String>>` decodes 86 ill-formed bytes to 86 replacement
characters, which take 258 bytes, and printing them panics. -/
theorem C75_decoded_fails (cfg : Cfg) (hcfg : cfg.encLenOverride = false) (W : Printing) : ∃ v a,
    (Schema.codec cfg (.dynamic .u8 (.dynamic .u8 .string))).Decodes cfg v a [] ∧
    (Schema.dynamic .u8 (.dynamic .u8 .string)).debug cfg W a = none := by
  obtain ⟨v, a, h1, h2⟩ : ∃ v a, (Schema.dynamic .u8 (.dynamic .u8 .string)).dec cfg v = .ok a [] ∧
      (Schema.codec cfg (.dynamic .u8 .string)).toBytes a = none := by
    refine ⟨87 :: 86 :: List.replicate 86 0xff, (List.replicate 86 replacement : List Char), ?_, ?_⟩
    · have hd : ∀ w : Bytes, w.length = 86 →
          (Schema.dynamic .u8 (.dynamic .u8 .string)).dec cfg (87 :: 86 :: w) = .ok (lossy w) [] := by
        intro w h
        refine D.bind_eq_ok.mpr ⟨87, 86 :: w, rfl, D.window_eq_ok.mpr ⟨by simp [h], ?_, by
          rw [List.drop_of_length_le (by simp [h])]⟩⟩
        rw [List.take_of_length_le (by simp [h])]
        refine D.bind_eq_ok.mpr ⟨86, w, rfl, D.window_eq_ok.mpr ⟨by omega, ?_, by rw [List.drop_of_length_le (by omega)]⟩⟩
        show DecRes.ok (lossy (List.take 86 w)) [] = _
        rw [List.take_of_length_le (by omega)]
        rfl
      exact (hd _ List.length_replicate).trans (congrArg (fun a => DecRes.ok a []) (lossy_ff 86))
    · refine (toBytes_wire (s := .dynamic .u8 .string) (.inl hcfg)).trans ?_
      have hl : (utf8 (List.replicate 86 replacement)).length = 258 := by decide +kernel
      have hn : ∀ cs : List Char, (utf8 cs).length = 258 → (Schema.dynamic .u8 .string).wire cs = none := by
        intro cs h
        show Enc.dynamic .u8 (fun x => (Enc.string x).map List.length) Enc.string cs = none
        simp [Enc.dynamic, Enc.string, h, LenPref.maxLen]
      exact hn _ hl
  exact ⟨v, a, Parses.decodes (Schema.parses cfg (.dynamic .u8 (.dynamic .u8 .string))) h1,
    (C75_exact cfg W _ a).mpr ⟨hcfg, .inl h2⟩⟩

/-- C75: the number need not be the length if lengths are estimated: `[0u8 bytes|ℕ(0)]` is encoded with one byte. -/
theorem C75_estimate_fails (cfg : Cfg) (h : cfg.encLenOverride = true) (W : Printing) :
    (Schema.dynamic .u8 .zarithN).debug cfg W (0 : Nat) = some text! "[0u8 bytes|ℕ(0)]" ∧
    (Schema.codec cfg .zarithN).toBytes (0 : Nat) = some [0] := by
  refine ⟨?_, (Writes.toBytes (Schema.writes_out cfg .zarithN) _).trans (by with_unfolding_all rfl)⟩
  have hl : (Schema.codec cfg .zarithN).encLen cfg (0 : Nat) = some 0 := by
    unfold Codec.encLen
    rw [if_pos h]
    exact congrArg some (by with_unfolding_all rfl)
  show DebugOf.dynamic .u8 ((Schema.codec cfg .zarithN).encLen cfg (0 : Nat)) (some (DebugOf.tuple text! "ℕ" (decimal 0))) = _
  rw [hl]
  decide +kernel

/-- C75: different values of a type are printed differently, where no doubles are involved and the names in the program
are distinct names. -/
theorem C75_identifies (cfg : Cfg) (W : Printing) (hW : W.Proper) (s : Schema) (hf : s.floatFree = true) (x y : s.Val)
    (hx : s.debug cfg W x ≠ none) (h : s.debug cfg W x = s.debug cfg W y) : x = y := by
  obtain ⟨t, ht⟩ := Option.ne_none_iff_exists'.mp hx
  exact ((s.readable cfg W hW hf).reads x y t t [] [] ht (h.symm.trans ht) rfl rfl rfl).1

/-- C75: how the types of the library are printed: numbers in decimal, wrappers with their names, `VPadded` and `AutoBox`
as what they hold. -/
theorem C75_texts (cfg : Cfg) (W : Printing) :
    (∀ n : Nat, Schema.zarithN.debug cfg W n = some (text! "ℕ(" ++ decimal n ++ text! ")")) ∧
    (∀ z : Int, Schema.zarithZ.debug cfg W z = some (text! "ℤ(" ++ signed z ++ text! ")")) ∧
    (∀ (t : IntTy) (x : t.Val), (Schema.int t).debug cfg W x = some (signed (t.toInt x)) ∧
      ∀ min max, (Schema.rangedInt t min max).debug cfg W x = some (text! "RangedInt(" ++ signed (t.toInt x) ++ text! ")")) ∧
    (∀ bs : Bytes, Schema.bytes.debug cfg W bs = some (text! "Bytes(" ++ debugList (bs.map (·.toNat)) ++ text! ")")) ∧
    (∀ (n : Nat) (a : ByteArr n),
      (Schema.fixedBytes n).debug cfg W a = some (text! "FixedBytes(" ++ debugList (a.1.map (·.toNat)) ++ text! ")") ∧
      (Schema.fixedString n).debug cfg W a =
        some (text! "FixedString { contents: " ++ debugList (a.1.map (·.toNat)) ++ text! " }")) ∧
    (∀ (s : Schema) (x : s.Val) (n : Nat), (Schema.vpadded n s).debug cfg W x = s.debug cfg W x ∧
      (Schema.autobox s).debug cfg W x = s.debug cfg W x ∧
      (Schema.padded n s).debug cfg W x = (s.debug cfg W x).map fun t => text! "Padded(" ++ t ++ text! ")") := by
  refine ⟨fun _ => rfl, fun _ => rfl, fun _ _ => ⟨rfl, fun _ _ => rfl⟩, fun _ => rfl, fun _ _ => ⟨rfl, rfl⟩,
    fun s x n => ⟨rfl, rfl, ?_⟩⟩
  show Option.map _ (s.debug cfg W x) = _
  cases s.debug cfg W x <;> rfl

/-! ### examples -/

/-- Quotes, backslashes and the ends of lines are escaped. -/
def escape (c : Char) : Text := if c = '"' ∨ c = '\\' then ['\\', c] else if c = '\n' then ['\\', 'n'] else [c]

def quoted (cs : List Char) : Text := cs.flatMap escape ++ ['"']

private theorem quoted_cut : ∀ (a b : List Char) (x y : Text), quoted a ++ x = quoted b ++ y → a = b ∧ x = y
  | [], [], x, y, h => ⟨rfl, by simpa [quoted] using h⟩
  | [], d :: b, x, y, h => by
    have hd : ∀ r, ∃ c r', escape d ++ r = c :: r' ∧ c ≠ '"' := fun r => by
      unfold escape
      split
      · exact ⟨_, _, rfl, by decide⟩
      · split
        · exact ⟨_, _, rfl, by decide⟩
        · exact ⟨_, _, rfl, by simp_all⟩
    obtain ⟨c, r', e, hc⟩ := hd (quoted b ++ y)
    have : '"' :: x = escape d ++ (quoted b ++ y) := by simpa [quoted] using h
    rw [e] at this
    exact absurd (List.cons.inj this).1.symm hc
  | d :: a, [], x, y, h => by
    have hd : ∀ r, ∃ c r', escape d ++ r = c :: r' ∧ c ≠ '"' := fun r => by
      unfold escape
      split
      · exact ⟨_, _, rfl, by decide⟩
      · split
        · exact ⟨_, _, rfl, by decide⟩
        · exact ⟨_, _, rfl, by simp_all⟩
    obtain ⟨c, r', e, hc⟩ := hd (quoted a ++ x)
    have : escape d ++ (quoted a ++ x) = '"' :: y := by simpa [quoted] using h
    rw [e] at this
    exact absurd (List.cons.inj this).1 hc
  | c :: a, d :: b, x, y, h => by
    have h' : escape c ++ (quoted a ++ x) = escape d ++ (quoted b ++ y) := by simpa [quoted] using h
    have hcd : c = d ∧ quoted a ++ x = quoted b ++ y := by
      unfold escape at h'
      repeat' split at h'
      all_goals simp_all [eq_comm]
      all_goals grind
    obtain ⟨h1, h2⟩ := quoted_cut a b x y hcd.2
    exact ⟨by rw [hcd.1, h1], h2⟩

def named (c : Char) (n : Nat) : Text := c :: decimal n

private theorem named_name (c : Char) (hc : wordChar c = true) (n : Nat) : IsName (named c n) :=
  ⟨by simp [named], fun d hd => by
    rcases List.mem_cons.mp hd with rfl | hd
    · exact hc
    · exact (isName_decimal n).2 d hd⟩

/-- A program. -/
def sampleNames : Printing where
  float _ := text! "1.5"
  str cs := '"' :: quoted cs
  variant _ t := named 'V' t
  record _ := .named text! "Point" fun i => named 'f' i
  arm _ i := .tuple (named 'A' i)

theorem sampleNames_proper : sampleNames.Proper where
  quote _ := ⟨_, rfl⟩
  str a b x y h := quoted_cut a b x y (List.cons.inj h).2
  variant _ t := named_name 'V' (by decide) t
  variant_ne _ t u _ _ h := decimal_inj (List.cons.inj h).2
  record _ := ⟨by simp [sampleNames, Shape.name], by simp only [sampleNames, Shape.name]; decide⟩
  arm _ i := named_name 'A' (by decide) i
  arm_ne _ i j h := decimal_inj (List.cons.inj h).2

private abbrev sample : Schema := .data .u8 (.cons 0 (.record .nil) (.cons 7 (.record (.cons .string (.cons
  (.dynamic .u16 (.seq (.option (.int .i8)))) .nil))) .nil))

private def v0 : sample.Val := (.inl () : Unit ⊕ (List Char × List (Option (BitVec 8)) × Unit) ⊕ Empty)
private def v1 : sample.Val := (.inr (.inl (['a', '"'], [none, some 0xfe#8], ())) :
  Unit ⊕ (List Char × List (Option (BitVec 8)) × Unit) ⊕ Empty)

example : sample.floatFree = true := rfl
example : sample.debug ⟨.debug, false, true, true⟩ sampleNames v0 = some text! "#A0" := by with_unfolding_all rfl
example : sample.debug ⟨.debug, false, true, true⟩ sampleNames v1 =
    some text! "#A1(\"a\\\"\", [3u16 bytes|Sequence([None, Some(-2)])])" := by with_unfolding_all rfl
example : (Schema.record (.cons .bool (.cons (.padded 2 .zarithN) .nil))).debug ⟨.debug, false, true, true⟩ sampleNames
    ((true, (5 : Nat), ()) : Bool × Nat × Unit) = some text! "Point { f0: true, f1: Padded(ℕ(5)) }" := by with_unfolding_all rfl
/-- Contents that are too long for the prefix are printed, but not within another prefix. -/
example (cfg : Cfg) (hcfg : cfg.encLenOverride = false) (bs : Bytes) (h : bs.length = 256) :
    (Schema.dynamic .u8 .bytes).debug cfg sampleNames bs =
      some (text! "[256u8 bytes|Bytes(" ++ debugList (bs.map (·.toNat)) ++ text! ")]") ∧
    (Schema.dynamic .u16 (.dynamic .u8 .bytes)).debug cfg sampleNames bs = none := by
  refine ⟨?_, (C75_exact _ _ _ _).mpr ⟨hcfg, .inl ?_⟩⟩
  · refine (C75_length cfg hcfg sampleNames .u8 .bytes bs bs (Writes.toBytes (Schema.writes_out cfg .bytes) bs) _ rfl).1.trans ?_
    have : decimal 256 = text! "256" := by decide +kernel
    simp [dynamicText, DebugOf.tuple, DebugOf.bytes, h, this]
  · refine (toBytes_wire (s := .dynamic .u8 .bytes) (.inl hcfg)).trans ?_
    show Enc.dynamic .u8 (fun x => (Enc.bytes x).map List.length) Enc.bytes bs = none
    simp [Enc.dynamic, Enc.bytes, h, LenPref.maxLen]

end Verif.Props
