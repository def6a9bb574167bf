import Verif.Default
import Verif.Lemmas.Sound
import Verif.Lemmas.Retext
import Verif.Props.Ranged
import Verif.Props.Schema
/-
C86: default values.
-/
namespace Verif.Props

open Codec

mutual
/-- When the default value is a proper value: ranges are not empty, the number of a range closest to zero can be stored as
such, and sequences of fixed length have length zero. -/
def DefaultOk : Schema → Prop
  | .rangedInt t min max =>
      min ≤ max ∧ Enc.inRange min max (t.toInt (t.cast (if 0 < min then min else if max < 0 then max else 0)))
  | .rangedFloat min max => FloatLe min max
  | .vpadded _ s | .padded _ s | .autobox s => DefaultOk s
  | .fixSeq n _ => n = 0
  | .record fs => DefaultsOk fs
  | _ => True
def DefaultsOk : Fields → Prop
  | .nil => True
  | .cons s fs => DefaultOk s ∧ DefaultsOk fs
end

mutual
/-- Zero is in all ranges. -/
def ZeroIn : Schema → Prop
  | .rangedInt _ min max => min ≤ 0 ∧ 0 ≤ max
  | .rangedFloat min max => FloatLe min 0 ∧ FloatLe 0 max
  | .vpadded _ s | .padded _ s | .autobox s => ZeroIn s
  | .record fs => ZerosIn fs
  | _ => True
def ZerosIn : Fields → Prop
  | .nil => True
  | .cons s fs => ZeroIn s ∧ ZerosIn fs
end

mutual
theorem default_exists : ∀ s : Schema, s.hasDefault = true → DefaultOk s →
    ∃ x b, s.default = some x ∧ s.Valid x ∧ s.wire x = some b
  | .unit, _, _ => ⟨_, _, rfl, trivial, rfl⟩
  | .bool, _, _ => ⟨_, _, rfl, trivial, rfl⟩
  | .int _, _, _ => ⟨_, _, rfl, trivial, rfl⟩
  | .f64, _, _ => ⟨_, _, rfl, trivial, rfl⟩
  | .rangedInt t min max, _, h => by
      unfold DefaultOk at h
      exact ⟨_, _, if_pos h.1, trivial, if_pos h.2⟩
  | .rangedFloat min max, _, h => by
      unfold DefaultOk at h
      obtain ⟨x, h1, h2, h3, _⟩ := (C32_default min max).1 h
      exact ⟨x, _, h1, ⟨(le_iff_floatLe _ _).mpr h2, (le_iff_floatLe _ _).mpr h3, (le_iff_floatLe _ _).mpr h⟩, rfl⟩
  | .zarithN, _, _ => ⟨_, _, rfl, trivial, rfl⟩
  | .zarithZ, _, _ => ⟨_, _, rfl, trivial, rfl⟩
  | .bytes, _, _ => ⟨_, _, rfl, trivial, rfl⟩
  | .vecU8, _, _ => ⟨_, _, rfl, trivial, rfl⟩
  | .string, _, _ => ⟨_, _, rfl, trivial, rfl⟩
  | .fixedBytes n, h, _ => ⟨_, _, if_pos (of_decide_eq_true h), trivial, rfl⟩
  | .fixedString _, h, _ => nomatch h
  | .option _, _, _ => ⟨_, _, rfl, nofun, rfl⟩
  | .nullable _, _, _ => ⟨_, _, rfl, nofun, rfl⟩
  | .dynamic _ _, h, _ => nomatch h
  | .vpadded _ s, h, ho => by unfold DefaultOk at ho; exact default_exists s h ho
  | .padded n s, h, ho => by
      unfold DefaultOk at ho
      obtain ⟨x, b, h1, h2, h3⟩ := default_exists s h ho
      refine ⟨x, b ++ List.replicate n 0, h1, h2, ?_⟩
      show Enc.cat (s.wire x) _ = _
      rw [h3]
      rfl
  | .seq _, _, _ => ⟨_, _, rfl, nofun, rfl⟩
  | .fixSeq n s, _, ho => by unfold DefaultOk at ho; exact ⟨_, _, rfl, ⟨ho.symm, nofun⟩, rfl⟩
  | .limSeq _ _, _, _ => ⟨_, _, rfl, ⟨Nat.zero_le _, nofun⟩, rfl⟩
  | .autobox s, h, ho => by unfold DefaultOk at ho; exact default_exists s h ho
  | .hole _, h, _ => nomatch h
  | .cstyle _ _, h, _ => nomatch h
  | .data _ _, h, _ => nomatch h
  | .record fs, h, ho => by unfold DefaultOk at ho; exact defaults_exist fs h ho
theorem defaults_exist : ∀ fs : Fields, fs.hasDefault = true → DefaultsOk fs →
    ∃ x b, fs.default = some x ∧ fs.Valid x ∧ fs.wire x = some b
  | .nil, _, _ => ⟨_, _, rfl, trivial, rfl⟩
  | .cons s fs, h, ho => by
      simp only [Fields.hasDefault, Bool.and_eq_true] at h
      unfold DefaultsOk at ho
      obtain ⟨x, b, h1, h2, h3⟩ := default_exists s h.1 ho.1
      obtain ⟨y, c, h4, h5, h6⟩ := defaults_exist fs h.2 ho.2
      refine ⟨(x, y), b ++ c, ?_, ⟨h2, h5⟩, ?_⟩
      · simp only [Fields.default, h1, h4]
      · show Enc.cat (s.wire x) (fs.wire y) = _
        rw [h3, h6]
        rfl
end

mutual
theorem default_ok : ∀ (s : Schema) (x : s.Val) (b : Bytes), s.default = some x → s.Valid x → s.wire x = some b → DefaultOk s
  | .rangedInt t min max, x, b, h, _, hw => by
      unfold DefaultOk
      change RangedInt.default t min max = some x at h
      unfold RangedInt.default at h
      change Enc.rangedInt t min max x = some b at hw
      unfold Enc.rangedInt at hw
      split at h
      · rename_i hm
        injection h with h
        subst h
        by_cases hr : Enc.inRange min max (t.toInt (t.cast (if 0 < min then min else if max < 0 then max else 0)))
        · exact ⟨hm, hr⟩
        · rw [if_neg hr] at hw; cases hw
      · cases h
  | .rangedFloat min max, _, _, _, h, _ => by
      unfold DefaultOk
      exact (le_iff_floatLe _ _).mp h.2.2
  | .vpadded _ s, x, b, h, hv, hw => by unfold DefaultOk; exact default_ok s x b h hv hw
  | .padded n s, x, b, h, hv, hw => by
      unfold DefaultOk
      change Enc.cat (s.wire x) _ = some b at hw
      cases hx : s.wire x with
      | none => rw [hx] at hw; cases hw
      | some c => exact default_ok s x c h hv hx
  | .fixSeq n s, x, b, h, hv, _ => by
      unfold DefaultOk
      cases h
      exact hv.1.symm
  | .autobox s, x, b, h, hv, hw => by unfold DefaultOk; exact default_ok s x b h hv hw
  | .record fs, x, b, h, hv, hw => by unfold DefaultOk; exact defaults_ok fs x b h hv hw
  | .unit, _, _, _, _, _ | .bool, _, _, _, _, _ | .int _, _, _, _, _, _ | .f64, _, _, _, _, _ | .zarithN, _, _, _, _, _
  | .zarithZ, _, _, _, _, _ | .bytes, _, _, _, _, _ | .vecU8, _, _, _, _, _ | .string, _, _, _, _, _
  | .fixedBytes _, _, _, _, _, _ | .fixedString _, _, _, _, _, _ | .option _, _, _, _, _, _ | .nullable _, _, _, _, _, _
  | .dynamic _ _, _, _, _, _, _ | .seq _, _, _, _, _, _ | .limSeq _ _, _, _, _, _, _ | .hole _, _, _, _, _, _
  | .cstyle _ _, _, _, _, _, _ | .data _ _, _, _, _, _, _ => by unfold DefaultOk; trivial
theorem defaults_ok : ∀ (fs : Fields) (x : fs.Val) (b : Bytes), fs.default = some x → fs.Valid x → fs.wire x = some b →
    DefaultsOk fs
  | .nil, _, _, _, _, _ => by unfold DefaultsOk; trivial
  | .cons s fs, (x, y), b, h, hv, hw => by
      unfold DefaultsOk
      unfold Fields.default at h
      change Enc.cat (s.wire x) (fs.wire y) = some b at hw
      cases hx : s.wire x with
      | none => rw [hx] at hw; cases hw
      | some c =>
        cases hy : fs.wire y with
        | none => rw [hx, hy] at hw; cases hw
        | some c' =>
          split at h
          · rename_i h1 h2
            cases h
            exact ⟨default_ok s x c h1 hv.1 hx, defaults_ok fs y c' h2 hv.2 hy⟩
          · cases h
end

mutual
theorem default_zero : ∀ (s : Schema) (x : s.Val) (b : Bytes), ZeroIn s → s.default = some x → s.wire x = some b →
    ∃ n, b = List.replicate n 0
  | .unit, _, _, _, h, hw => by cases h; cases hw; exact ⟨0, rfl⟩
  | .bool, _, _, _, h, hw => by cases h; cases hw; exact ⟨1, rfl⟩
  | .int t, _, _, _, h, hw => by
      cases h; cases hw
      exact ⟨t.len, by cases t <;> rfl⟩
  | .f64, _, _, _, h, hw => by cases h; cases hw; exact ⟨8, rfl⟩
  | .rangedInt t min max, x, b, hz, h, hw => by
      unfold ZeroIn at hz
      change RangedInt.default t min max = some x at h
      unfold RangedInt.default at h
      rw [if_pos (by omega), if_neg (by omega), if_neg (by omega)] at h
      cases h
      change Enc.rangedInt t min max (t.cast 0) = some b at hw
      unfold Enc.rangedInt at hw
      split at hw
      · cases hw
        exact ⟨t.len, by cases t <;> rfl⟩
      · cases hw
  | .rangedFloat min max, x, b, hz, h, hw => by
      unfold ZeroIn at hz
      change RangedFloat.default min max = some x at h
      by_cases hm : FloatLe min max
      · obtain ⟨y, h1, _, _, h2, _⟩ := (C32_default min max).1 hm
        rw [h] at h1
        cases h1
        have := h2 hz.1 hz.2
        subst this
        cases hw
        exact ⟨8, rfl⟩
      · rw [(C32_default min max).2 hm] at h
        cases h
  | .zarithN, _, _, _, h, hw => by
      cases h; cases hw
      exact ⟨1, by show Enc.nat7 0 = _; unfold Enc.nat7; rfl⟩
  | .zarithZ, _, _, _, h, hw => by cases h; cases hw; exact ⟨1, rfl⟩
  | .bytes, _, _, _, h, hw => by cases h; cases hw; exact ⟨0, rfl⟩
  | .vecU8, _, _, _, h, hw => by cases h; cases hw; exact ⟨0, rfl⟩
  | .string, _, _, _, h, hw => by cases h; cases hw; exact ⟨0, rfl⟩
  | .fixedBytes n, x, b, _, h, hw => by
      change (if n ≤ 32 then some (⟨List.replicate n 0, List.length_replicate⟩ : ByteArr n) else none) = some x at h
      split at h
      · cases h; cases hw; exact ⟨n, rfl⟩
      · cases h
  | .fixedString _, _, _, _, h, _ => nomatch h
  | .option _, _, _, _, h, hw => by cases h; cases hw; exact ⟨1, rfl⟩
  | .nullable _, _, _, _, h, hw => by cases h; cases hw; exact ⟨0, rfl⟩
  | .dynamic _ _, _, _, _, h, _ => nomatch h
  | .vpadded _ s, x, b, hz, h, hw => by unfold ZeroIn at hz; exact default_zero s x b hz h hw
  | .padded n s, x, b, hz, h, hw => by
      unfold ZeroIn at hz
      change Enc.cat (s.wire x) (some (List.replicate n 0)) = some b at hw
      cases hx : s.wire x with
      | none => rw [hx] at hw; cases hw
      | some c =>
        rw [hx] at hw
        cases hw
        obtain ⟨m, rfl⟩ := default_zero s x c hz h hx
        exact ⟨m + n, List.replicate_append_replicate⟩
  | .seq _, _, _, _, h, hw => by cases h; cases hw; exact ⟨0, rfl⟩
  | .fixSeq _ _, _, _, _, h, hw => by cases h; cases hw; exact ⟨0, rfl⟩
  | .limSeq _ _, _, _, _, h, hw => by cases h; cases hw; exact ⟨0, rfl⟩
  | .autobox s, x, b, hz, h, hw => by unfold ZeroIn at hz; exact default_zero s x b hz h hw
  | .hole _, _, _, _, h, _ => nomatch h
  | .cstyle _ _, _, _, _, h, _ => nomatch h
  | .data _ _, _, _, _, h, _ => nomatch h
  | .record fs, x, b, hz, h, hw => by unfold ZeroIn at hz; exact defaults_zero fs x b hz h hw
theorem defaults_zero : ∀ (fs : Fields) (x : fs.Val) (b : Bytes), ZerosIn fs → fs.default = some x → fs.wire x = some b →
    ∃ n, b = List.replicate n 0
  | .nil, _, _, _, h, hw => by cases h; cases hw; exact ⟨0, rfl⟩
  | .cons s fs, (x, y), b, hz, h, hw => by
      unfold ZerosIn at hz
      unfold Fields.default at h
      change Enc.cat (s.wire x) (fs.wire y) = some b at hw
      cases hx : s.wire x with
      | none => rw [hx] at hw; cases hw
      | some c =>
        cases hy : fs.wire y with
        | none => rw [hx, hy] at hw; cases hw
        | some c' =>
          rw [hx, hy] at hw
          cases hw
          split at h
          · rename_i h1 h2
            cases h
            obtain ⟨n, rfl⟩ := default_zero s x c hz.1 h1 hx
            obtain ⟨m, rfl⟩ := defaults_zero fs y c' hz.2 h2 hy
            exact ⟨n + m, List.replicate_append_replicate⟩
          · cases h
end

/-- C86: the default value is encoded, and decoded back to the default value, by all parsers.  (Missing: empty ranges and
ranges in which the number closest to zero is not stored as such, and `FixSeq`: see `C86_exact`, `C86_fix_fails`,
`C86_ranged_fails`.) -/
theorem C86_round_trip_partial (cfg : Cfg) (hcfg : cfg.encLenOverride = false) (s : Schema) (hd : s.hasDefault = true)
    (ho : DefaultOk s) (ht : s.tagsOk) {tl : Tail} (htl : s.tail = some tl) :
    ∃ x b, s.default = some x ∧ (s.codec cfg).toBytes x = some b ∧
      ∀ rest, tl.Allows rest → (s.codec cfg).Decodes cfg (b ++ rest) x rest := by
  obtain ⟨x, b, h1, h2, h3⟩ := default_exists s hd ho
  have h4 : (s.codec cfg).toBytes x = some b := by rw [toBytes_wire (.inl hcfg), h3]
  exact ⟨x, b, h1, h4, fun rest hr => C51_round_trip_partial cfg s ht htl x h2 (.inl hcfg) b h4 rest hr⟩

/-- C86: these conditions are needed: if the default value can be encoded, and decoded from any input at all, they hold. -/
theorem C86_exact (cfg : Cfg) (hcfg : cfg.encLenOverride = false) (s : Schema) (hz : s.sized = true) (x : s.Val)
    (hx : s.default = some x) (b : Bytes) (hb : (s.codec cfg).toBytes x = some b) (k : Backend) (v : Bytes) (vs : List Bytes)
    (st st' : k.State) (hs : k.Holds v vs st) (he : (s.codec cfg).parse (k.ops cfg.prof) st = .ok x st') : DefaultOk s := by
  obtain ⟨rest, h1, _⟩ := s.inv cfg hz hs he
  rw [toBytes_wire (.inl hcfg)] at hb
  exact default_ok s x b hx (s.yields cfg _ _ _ h1) hb

/-- C86: if zero is in all ranges, the default value is encoded as zero bytes only. -/
theorem C86_zero (cfg : Cfg) (hcfg : cfg.encLenOverride = false) (s : Schema) (hz : ZeroIn s) (x : s.Val)
    (hx : s.default = some x) (b : Bytes) (hb : (s.codec cfg).toBytes x = some b) : ∀ c ∈ b, c = 0 := by
  rw [toBytes_wire (.inl hcfg)] at hb
  obtain ⟨n, rfl⟩ := default_zero s x b hz hx hb
  exact fun c hc => List.eq_of_mem_replicate hc

/-- C86: sound ranges that do not start above zero meet the conditions. -/
theorem C86_ranges (t : IntTy) (min max : Int) (hs : SoundRange min max) (hb : Backs t min max) (hm : min ≤ 0) :
    DefaultOk (.rangedInt t min max) := by
  unfold SoundRange at hs
  unfold Backs at hb
  rw [if_pos hm] at hb
  unfold DefaultOk
  refine ⟨by omega, ?_⟩
  have hc : ∀ n, min ≤ n → n ≤ max → t.toInt (t.cast n) = n := fun n h1 h2 =>
    toInt_tryFrom (t := t) (if_pos (by omega))
  unfold Enc.inRange
  rw [if_neg (by omega), if_neg (by omega)]
  split
  · rw [hc max (by omega) (by omega)]; omega
  · rw [hc 0 (by omega) (by omega)]; omega

/-- C86 fails for sequences of fixed length: the default value has no elements.  It is encoded as nothing, and this is not
accepted. -/
theorem C86_fix_fails (cfg : Cfg) (hcfg : cfg.encLenOverride = false) (n : Nat) (hn : n ≠ 0) (s : Schema)
    (hz : (Schema.fixSeq n s).sized = true) : ∃ x, (Schema.fixSeq n s).default = some x ∧
      ((Schema.fixSeq n s).codec cfg).toBytes x = some [] ∧
      ∀ (k : Backend) (v : Bytes) (vs : List Bytes) (st st' : k.State), k.Holds v vs st →
        ((Schema.fixSeq n s).codec cfg).parse (k.ops cfg.prof) st ≠ .ok x st' := by
  have hw : ∀ x, (Schema.fixSeq n s).default = some x → ((Schema.fixSeq n s).codec cfg).toBytes x = some [] := fun x hx => by
    rw [toBytes_wire (.inl hcfg)]
    cases hx
    rfl
  refine ⟨_, rfl, hw _ rfl, fun k v vs st st' hs he => ?_⟩
  have := C86_exact cfg hcfg (.fixSeq n s) hz _ rfl [] (hw _ rfl) k v vs st st' hs he
  unfold DefaultOk at this
  exact hn this

/-- C86 fails for ranges that start above zero: the default value of `RangedInt<u8, 200, 255>` cannot be encoded, and that of
`RangedInt<u8, 10, 100>` stands for 20. -/
theorem C86_ranged_fails (cfg : Cfg) :
    (∃ x, (Schema.rangedInt .u8 200 255).default = some x ∧ ((Schema.rangedInt .u8 200 255).codec cfg).toBytes x = none) ∧
    ∃ x, (Schema.rangedInt .u8 10 100).default = some x ∧ number .u8 10 x = 20 :=
  ⟨⟨_, rfl, (Writes.toBytes (Schema.writes_out cfg (.rangedInt .u8 200 255)) _).trans rfl⟩, _, rfl, by decide⟩

/-- The hypotheses are met. -/
example : let s : Schema := .record (.cons (.padded 2 (.int .u16)) (.cons (.option (.fixedString 3)) (.cons (.rangedInt .i8 (-5) 100)
      (.cons .zarithN (.cons (.seq (.dynamic .u8 .bool)) .nil)))))
    s.hasDefault = true ∧ DefaultOk s ∧ ZeroIn s ∧ s.tagsOk ∧ s.tail = some (.exact 0) ∧ s.sized = true := by
  refine ⟨rfl, ?_, ?_, ?_, rfl, rfl⟩
  · simp only [DefaultOk, DefaultsOk, true_and, and_true]; decide
  · simp only [ZeroIn, ZerosIn, true_and, and_true]; decide
  · simp [Schema.tagsOk, Fields.tagsOk]

end Verif.Props
