import Verif.Lemmas.Width
import Verif.Props.Prims
/-
C19 (`Dynamic`), C20 (`VPadded`), C21 (`Padded`), C45 (length prefixes are never truncated), over arbitrary
payload codecs.
-/
namespace Verif.Props

open Codec

variable {α : Type} {c : Codec α} {cfg : Cfg}

/-! ### C19 -/

/-- `p` is a length prefix of type `S` that announces `n` bytes. -/
def Announces (S : LenPref) (p : Bytes) (n : Nat) : Prop := p.length = S.len ∧ beVal p = n ∧ n ≤ S.maxLen

/-- C19: the widths of length prefixes in bytes and the longest payloads they can announce. -/
theorem C19_limits : (LenPref.u8.len = 1 ∧ LenPref.u8.maxLen = 255) ∧ (LenPref.u16.len = 2 ∧ LenPref.u16.maxLen = 65535) ∧
    LenPref.u30.len = 4 ∧ LenPref.u30.maxLen = 2 ^ 30 - 1 := by decide

theorem lenPref_run {S : LenPref} {p v : Bytes} {n : Nat} (h : Announces S p n) : Dec.lenPref S (p ++ v) = .ok n v := by
  obtain ⟨h1, h2, h3⟩ := h
  rw [beVal_eq] at h2
  simp only [Dec.lenPref, D.bind_run, D.map_run, D.take_append h1, DecRes.bind_ok, h2, if_pos h3]
  rfl

/-- C19, encoding (without the feature that trusts length estimates, for which see C45): the number of payload
bytes and then the payload; there is an encoding exactly if the payload has one that is short enough. -/
theorem C19_encode (hc : c.Appending) (hcfg : cfg.encLenOverride = false) (S : LenPref) (x : α) (b : Bytes) :
    (dynamic cfg S c).toBytes x = some b ↔
      ∃ p w, b = p ++ w ∧ c.toBytes x = some w ∧ Announces S p w.length := by
  rw [Writes.toBytes (dynamic_writes cfg S hc)]
  simp only [Enc.dynamic, Enc.lenOf, hcfg, Bool.false_eq_true, if_false]
  cases hx : c.toBytes x with
  | none => simp
  | some w =>
    simp only [Option.map_some]
    constructor
    · intro h
      split at h
      · rename_i hl
        cases h
        exact ⟨_, w, rfl, rfl, toBe_length _ _, by
          rw [beVal_eq, ofBe_toBe_of_lt (Nat.lt_of_le_of_lt hl S.maxLen_lt)], hl⟩
      · cases h
    · rintro ⟨p, w', rfl, h, h1, h2, h3⟩
      cases h
      rw [if_pos h3]
      have : toBe S.len w.length = p := by rw [← h2, beVal_eq, ← h1, toBe_ofBe]
      rw [this]
      rfl

/-- C19, decoding: the payload codec sees exactly the announced bytes and nothing of what follows. -/
theorem C19_decode {S : LenPref} {p v : Bytes} {a : α} (hp : Announces S p v.length) (h : c.Decodes cfg v a [])
    (rest : Bytes) : (dynamic cfg S c).Decodes cfg (p ++ v ++ rest) a rest := by
  refine On.decodes (win := True) (fun k => dynamic_refines (k.lawful cfg.prof) (fun h => ⟨trivial, h⟩) cfg S (Decodes.on h k)) ?_
  simp only [Dec.dynamic, D.bind_run, List.append_assoc, lenPref_run hp, DecRes.bind_ok, D.window, List.length_append,
    Nat.le_add_right, if_true, List.take_left', List.drop_left', spot_self]

theorem dynamic_fits {S : LenPref} {p v rest : Bytes} {d : D α} (hp : Announces S p v.length) {r : DecRes α}
    (h : c.On False cfg d) (hr : D.window v.length d (v ++ rest) = r) (k : Backend) (vs : List Bytes) (s : k.State)
    (hs : k.Holds (p ++ v ++ rest) vs s) :
    Meets (False ∧ k.panics cfg.prof) k.Holds vs ((dynamic cfg S c).parse (k.ops cfg.prof) s) r := by
  rw [List.append_assoc] at hs
  rw [← hr]
  exact dynamic_meets (k.lawful cfg.prof) cfg S (h k) hs (lenPref_run hp) (by simp)

theorem meets_err {α : Type} {k : Backend} {p : Profile} {vs : List Bytes} {o : Out k.State ParseError α} {e : ParseError}
    (h : Meets (False ∧ k.panics p) k.Holds vs o (.err e)) : ∃ e' s', o = .err e' s' ∧ e'.kind = e := by
  rcases h with h | ⟨⟨h, _⟩, _⟩
  · exact h
  · exact h.elim

/-- C19, a payload codec that leaves some of the announced bytes: an error with their number. -/
theorem C19_residue {S : LenPref} {p v left : Bytes} {a : α} (hp : Announces S p v.length)
    (h : c.Decodes cfg v a left) (hl : left ≠ []) (rest : Bytes) :
    (dynamic cfg S c).Rejects cfg (p ++ v ++ rest) (.window (.closeWithResidue left.length)) := fun k vs s hs => by
  refine meets_err (dynamic_fits hp (Decodes.on h) ?_ k vs s hs)
  simp only [D.window, List.length_append, Nat.le_add_right, if_true, List.take_left', spot_self, DecRes.bind_ok,
    if_neg hl]

/-- C19, a payload that does not decode within the announced bytes (whether or not it would with more). -/
theorem C19_payload_error {S : LenPref} {p v : Bytes} {e : ParseError} (hp : Announces S p v.length)
    (h : c.Rejects cfg v e) (rest : Bytes) : (dynamic cfg S c).Rejects cfg (p ++ v ++ rest) e := fun k vs s hs => by
  refine meets_err (dynamic_fits hp (Rejects.on h) ?_ k vs s hs)
  simp only [D.window, List.length_append, Nat.le_add_right, if_true, List.take_left', spot_self, DecRes.bind_err]

/-- C19, more bytes announced than there are: an error whatever the payload codec is – or, with ByteParser and
MemoParser in debug builds, possibly a panic (`C19_too_long_debug`). -/
theorem C19_too_long (c : Codec α) (cfg : Cfg) {S : LenPref} {p v : Bytes} {n : Nat} (hp : Announces S p n)
    (hn : v.length < n) : (dynamic cfg S c).RejectsOrPanics cfg (p ++ v) Cursor.openErr := by
  refine On.rejectsOrPanics (win := True)
    (fun k => dynamic_refines (k.lawful cfg.prof) (fun h => ⟨trivial, h⟩) cfg S (On.any c cfg k)) ?_
  simp only [Dec.dynamic, D.bind_run, lenPref_run hp, DecRes.bind_ok, D.window, if_neg (Nat.not_le.mpr hn), D.short,
    if_pos (Nat.le_trans hp.2.2 S.maxLen_le)]

theorem C19_too_long_release (c : Codec α) (cfg : Cfg) (hr : cfg.prof = .release) {S : LenPref} {p v : Bytes} {n : Nat}
    (hp : Announces S p n) (hn : v.length < n) : (dynamic cfg S c).Rejects cfg (p ++ v) Cursor.openErr := by
  refine On.rejects (win := True)
    (fun k => dynamic_refines (k.lawful cfg.prof) (fun h => ⟨trivial, h⟩) cfg S (On.any c cfg k)) (.inr hr) ?_
  simp only [Dec.dynamic, D.bind_run, lenPref_run hp, DecRes.bind_ok, D.window, if_neg (Nat.not_le.mpr hn), D.short,
    if_pos (Nat.le_trans hp.2.2 S.maxLen_le)]

/-- The code violates C19 in debug builds: a prefix larger than the whole buffer makes ByteParser (and
MemoParser) panic instead of returning an error. -/
theorem C19_too_long_debug :
    (dynamic ⟨.debug, false, false, false⟩ .u8 Codec.bytes).parse (Backend.byte.ops .debug) (Backend.byte.init [5, 1, 2])
      = .panic ∧
    (dynamic ⟨.debug, false, false, false⟩ .u8 Codec.bytes).parse (Backend.memo.ops .debug) (Backend.memo.init [5, 1, 2])
      = .panic := ⟨rfl, rfl⟩

/-- C19, a 30-bit prefix out of range is refused, whatever follows. -/
theorem C19_prefix_range (c : Codec α) (cfg : Cfg) {p : Bytes} (hl : p.length = 4) (hb : 2 ^ 30 ≤ beVal p) (v : Bytes) :
    (dynamic cfg .u30 c).Rejects cfg (p ++ v)
      (.external (.intRangeViolation (.overflow (2 ^ 30 - 1) (beVal p)))) := fun k vs s hs => by
  have hd : Dec.lenPref .u30 (p ++ v) = .err (.external (.intRangeViolation (.overflow (2 ^ 30 - 1) (beVal p)))) := by
    have hb' : ¬ ofBe p ≤ LenPref.u30.maxLen := by
      rw [← beVal_eq]
      simp only [LenPref.maxLen, LenPref.u30Max]
      omega
    simp only [Dec.lenPref, D.bind_run, D.map_run, D.take_append (show p.length = LenPref.u30.len from hl),
      DecRes.bind_ok, if_neg hb', D.throw_run, beVal_eq]
    rfl
  have h1 := Refines.lenPref (pan' := False) (k.lawful cfg.prof) .u30 _ vs s hs
  rw [hd] at h1
  rcases h1 with ⟨e', s', h1, h2⟩ | ⟨h1, _⟩
  · exact ⟨e', s', by simp [dynamic, M.bind_run, h1], h2⟩
  · exact h1.elim

/-- C19, not even a prefix. -/
theorem C19_prefix_short (c : Codec α) (cfg : Cfg) (S : LenPref) (v : Bytes) (h : v.length < S.len) :
    (dynamic cfg S c).Rejects cfg v (D.shortErr S.len v.length) := fun k vs s hs => by
  have hd : Dec.lenPref S v = .err (D.shortErr S.len v.length) := by
    simp only [Dec.lenPref, D.bind_run, D.map_run, D.take, if_neg (Nat.not_le.mpr h), D.short, if_pos S.len_le,
      DecRes.bind_err]
  have h1 := Refines.lenPref (pan' := False) (k.lawful cfg.prof) S _ vs s hs
  rw [hd] at h1
  rcases h1 with ⟨e', s', h1, h2⟩ | ⟨h1, _⟩
  · exact ⟨e', s', by simp [dynamic, M.bind_run, h1], h2⟩
  · exact h1.elim

/-- The four cases are all there is. -/
theorem C19_cases (S : LenPref) (v : Bytes) :
    v.length < S.len ∨ (∃ p r, v = p ++ r ∧ p.length = S.len ∧ S.maxLen < beVal p) ∨
    (∃ p r n, v = p ++ r ∧ Announces S p n ∧ r.length < n) ∨ ∃ p w r, v = p ++ w ++ r ∧ Announces S p w.length := by
  by_cases h : v.length < S.len
  · exact .inl h
  refine .inr ?_
  have hv : v = v.take S.len ++ v.drop S.len := (List.take_append_drop _ _).symm
  have hl : (v.take S.len).length = S.len := by rw [List.length_take]; omega
  by_cases h1 : S.maxLen < beVal (v.take S.len)
  · exact .inl ⟨_, _, hv, hl, h1⟩
  refine .inr ?_
  have ha : Announces S (v.take S.len) (beVal (v.take S.len)) := ⟨hl, rfl, by omega⟩
  by_cases h2 : (v.drop S.len).length < beVal (v.take S.len)
  · exact .inl ⟨_, _, _, hv, ha, h2⟩
  · refine .inr ⟨v.take S.len, (v.drop S.len).take (beVal (v.take S.len)),
      (v.drop S.len).drop (beVal (v.take S.len)), ?_, ?_⟩
    · rw [List.append_assoc, List.take_append_drop, ← hv]
    · rw [List.length_take, Nat.min_eq_left (by omega)]
      exact ha

/-- C19, round trip. -/
theorem C19_roundtrip (hc : c.Appending) (hcfg : cfg.encLenOverride = false) {S : LenPref} {x : α} {b : Bytes}
    (h : ∀ w, c.toBytes x = some w → c.Decodes cfg w x []) (hb : (dynamic cfg S c).toBytes x = some b) (rest : Bytes) :
    (dynamic cfg S c).Decodes cfg (b ++ rest) x rest := by
  obtain ⟨p, w, rfl, hw, ha⟩ := (C19_encode hc hcfg S x b).mp hb
  exact C19_decode ha (h w hw) rest

example : Announces .u16 [1, 4] 260 := ⟨rfl, rfl, by decide⟩
example (cfg : Cfg) : (dynamic cfg .u16 Codec.bytes).Decodes cfg [0, 2, 7, 8, 9] [7, 8] [9] :=
  C19_decode (p := [0, 2]) (v := [7, 8]) ⟨rfl, rfl, by decide⟩ (C22_bytes cfg [7, 8]).2.2.1 [9]
example (cfg : Cfg) : (dynamic cfg .u8 (Codec.int .u8)).Rejects cfg [2, 7, 8, 9] (.window (.closeWithResidue 1)) :=
  C19_residue (p := [2]) (v := [7, 8]) (left := [8]) ⟨rfl, rfl, by decide⟩
    (C10_int_roundtrip cfg .u8 7 [7] [8] (by decide)) (by decide) [9]

/-! ### C45 -/

/-- C45: whenever there is output, its first bytes are a prefix that announces exactly the payload that
follows; a payload that is too long yields no output (`none`: `to_bytes` panics). -/
theorem C45_prefix_exact (hc : c.Appending) (hcfg : cfg.encLenOverride = false) (S : LenPref) (x : α) :
    (∀ b, (dynamic cfg S c).toBytes x = some b →
      ∃ p w, b = p ++ w ∧ c.toBytes x = some w ∧ p.length = S.len ∧ beVal p = w.length) ∧
    (∀ w, c.toBytes x = some w → S.maxLen < w.length → (dynamic cfg S c).toBytes x = none) := by
  refine ⟨fun b hb => ?_, fun w hw hl => ?_⟩
  · obtain ⟨p, w, h1, h2, h3, h4, _⟩ := (C19_encode hc hcfg S x b).mp hb
    exact ⟨p, w, h1, h2, h3, h4⟩
  · cases hb : (dynamic cfg S c).toBytes x with
    | none => rfl
    | some b =>
      obtain ⟨p, w', h1, h2, h3, h4, h5⟩ := (C19_encode hc hcfg S x b).mp hb
      rw [hw] at h2
      cases h2
      omega

/-- C45 on every kind of target: a payload that is too long makes `write_to` panic on all of them. -/
theorem C45_all_targets (hc : c.Appending) (hcfg : cfg.encLenOverride = false) (S : LenPref) (x : α) (w : Bytes)
    (hw : c.toBytes x = some w) (hl : S.maxLen < w.length) {τ : Type} {T : TargetOps τ} {R : Bytes → τ → Prop}
    (L : LawfulTarget T R) {b : Bytes} {t : τ} (ht : R b t) : (dynamic cfg S c).write T x t = none := by
  have h := dynamic_writes cfg S hc L x b t ht
  have : Enc.dynamic S (Enc.lenOf cfg c.estimate c.toBytes) c.toBytes x = none := by
    simp only [Enc.dynamic, Enc.lenOf, hcfg, Bool.false_eq_true, if_false, hw, Option.map_some,
      if_neg (Nat.not_le.mpr hl)]
  rw [this] at h
  exact h

/-- C45 with the feature that trusts length estimates, for payloads whose estimate is right. -/
theorem C45_override_partial (hc : c.Appending) (S : LenPref) (x : α)
    (hest : ∀ w, c.toBytes x = some w → c.estimate x = w.length) (b : Bytes)
    (hb : (dynamic cfg S c).toBytes x = some b) :
    ∃ p w, b = p ++ w ∧ c.toBytes x = some w ∧ Announces S p w.length := by
  cases hcfg : cfg.encLenOverride with
  | false => exact (C19_encode hc hcfg S x b).mp hb
  | true =>
    rw [Writes.toBytes (dynamic_writes cfg S hc)] at hb
    simp only [Enc.dynamic, Enc.lenOf, hcfg, if_true] at hb
    split at hb
    · rename_i hl
      cases hx : c.toBytes x with
      | none => rw [hx] at hb; cases hb
      | some w =>
        rw [hx] at hb
        cases hb
        rw [hest w hx] at hl ⊢
        exact ⟨_, w, rfl, rfl, toBe_length _ _, by
          rw [beVal_eq, ofBe_toBe_of_lt (Nat.lt_of_le_of_lt hl S.maxLen_lt)], hl⟩
    · cases hb

/-- The code violates C45 with that feature: `Dynamic<u8, N>` of zero writes prefix 0 and one payload byte. -/
theorem C45_override_fails (p : Profile) (a b : Bool) :
    (dynamic ⟨p, true, a, b⟩ .u8 Codec.zarithN).toBytes 0 = some [0x00, 0x00] ∧ Codec.zarithN.toBytes 0 = some [0x00] := by
  refine ⟨?_, (C16_N_estimate_fails_at_zero).1⟩
  rw [Writes.toBytes (dynamic_writes _ _ zarithN_writes)]
  simp only [Enc.dynamic, Enc.lenOf, if_true, (C16_N_estimate_fails_at_zero).2, Nat.zero_le, Enc.zarithN]
  simp [Enc.nat7, Enc.cat, LenPref.len, toBe]

example (cfg : Cfg) (hcfg : cfg.encLenOverride = false) :
    (dynamic cfg .u8 Codec.bytes).toBytes (List.replicate 256 0) = none :=
  (C45_prefix_exact (Writes.appending bytes_writes) hcfg .u8 _).2 _ (Writes.toBytes bytes_writes _)
    (by rw [List.length_replicate]; decide)

/-! ### C20 -/

/-- C20, decoding: the payload sees all but the last `n` bytes; these stay unread. -/
theorem C20_decode {n : Nat} {v t : Bytes} {a : α} (ht : t.length = n) (h : c.Decodes cfg v a []) :
    (vpadded cfg n c).Decodes cfg (v ++ t) a t := by
  refine On.decodes (win := False) (fun k => vpadded_refines (k.lawful cfg.prof) cfg n (Decodes.on h k)) ?_
  simp only [Dec.vpadded, List.length_append, ht, Nat.le_add_left, if_true, Nat.add_sub_cancel, D.window,
    Nat.le_add_right, List.take_left', List.drop_left', spot_self, DecRes.bind_ok]

/-- C20, the payload has to use all of the bytes in front of the last `n`. -/
theorem C20_residue {n : Nat} {v t left : Bytes} {a : α} (ht : t.length = n) (h : c.Decodes cfg v a left)
    (hl : left ≠ []) : (vpadded cfg n c).Rejects cfg (v ++ t) (.window (.closeWithResidue left.length)) := by
  refine On.rejects (win := False) (fun k => vpadded_refines (k.lawful cfg.prof) cfg n (Decodes.on h k)) (.inl id) ?_
  simp only [Dec.vpadded, List.length_append, ht, Nat.le_add_left, if_true, Nat.add_sub_cancel, D.window,
    Nat.le_add_right, List.take_left', spot_self, DecRes.bind_ok, if_neg hl]

theorem C20_payload_error {n : Nat} {v t : Bytes} {e : ParseError} (ht : t.length = n) (h : c.Rejects cfg v e) :
    (vpadded cfg n c).Rejects cfg (v ++ t) e := by
  refine On.rejects (win := False) (fun k => vpadded_refines (k.lawful cfg.prof) cfg n (Rejects.on h k)) (.inl id) ?_
  simp only [Dec.vpadded, List.length_append, ht, Nat.le_add_left, if_true, Nat.add_sub_cancel, D.window,
    Nat.le_add_right, List.take_left', spot_self, DecRes.bind_err]

/-- C20, encoding: the payload, nothing else. -/
theorem C20_encode (cfg : Cfg) (n : Nat) (x : α) : (vpadded cfg n c).toBytes x = c.toBytes x := rfl

/-- C20, fewer than `n` bytes: debug builds panic. -/
theorem C20_short_debug (c : Codec α) (hp : cfg.prof = .debug) {n : Nat} {v : Bytes} (h : v.length < n) :
    (vpadded cfg n c).Panics cfg v :=
  On.panics (win := False) (fun k => vpadded_refines (k.lawful cfg.prof) cfg n (On.any c cfg k)) (by
    simp only [Dec.vpadded, if_neg (Nat.not_le.mpr h), hp])

/-- The code violates C20 (and C04) in release builds when there are fewer than `n` bytes: the number of payload
bytes wraps around, a window that ends before the current position is opened, and reading the payload of the
record `{ u32, VPadded<Bytes, 4> }` from six input bytes is undefined behaviour with ByteParser and
MemoParser; SliceParser reports an error. -/
theorem C20_short_release (a b d : Bool) :
    let cfg : Cfg := ⟨.release, a, b, d⟩
    let c := record (FCodec.cons (Codec.int .u32) (FCodec.cons (vpadded cfg 4 Codec.bytes) FCodec.nil))
    c.parse (Backend.byte.ops .release) (Backend.byte.init [1, 2, 3, 4, 5, 6]) = .ub ∧
    c.parse (Backend.memo.ops .release) (Backend.memo.init [1, 2, 3, 4, 5, 6]) = .ub ∧
    ∃ e s, c.parse (Backend.slice.ops .release) (Backend.slice.init [1, 2, 3, 4, 5, 6]) = .err e s := by
  intro cfg c
  have h1 : (vpadded cfg 4 Codec.bytes).parse (ByteParser.ops .release) ⟨[1, 2, 3, 4, 5, 6], ⟨6, [], 4⟩⟩ = .ub := by
    run_wide [vpadded, Codec.bytes, cfg, ParserOps.takeDynamic]
  have h2 : (vpadded cfg 4 Codec.bytes).parse (MemoParser.ops .release) ⟨[1, 2, 3, 4, 5, 6], ⟨6, [], 4⟩, [4]⟩ = .ub := by
    run_wide [vpadded, Codec.bytes, cfg, ParserOps.takeDynamic]
  have h3 : ∃ e s, (vpadded cfg 4 Codec.bytes).parse SliceParser.ops ⟨[[5, 6]]⟩ = .err e s := by
    run_wide [vpadded, Codec.bytes, cfg, ParserOps.takeDynamic]
  let k {σ : Type} (o : Out σ ParseError Bytes) : Out σ ParseError (BitVec 32 × Bytes × Unit) :=
    (o.bind fun b s => .ok (b, ()) s).bind fun b s => .ok (0x01020304#32, b) s
  refine ⟨?_, ?_, ?_⟩
  · exact congrArg k h1
  · exact congrArg k h2
  · obtain ⟨e, s, h3⟩ := h3
    exact ⟨e, s, congrArg k h3⟩

example (cfg : Cfg) : (vpadded cfg 2 Codec.bytes).Decodes cfg [1, 2, 3, 4, 5] [1, 2, 3] [4, 5] :=
  C20_decode (v := [1, 2, 3]) (t := [4, 5]) rfl (C22_bytes cfg _).2.2.1

/-! ### C21 -/

/-- C21, encoding. -/
theorem C21_encode (hc : c.Appending) (cfg : Cfg) (n : Nat) (x : α) :
    (padded cfg n c).toBytes x = (c.toBytes x).map (· ++ List.replicate n 0) := by
  rw [Writes.toBytes (padded_writes cfg n hc)]
  simp only [Enc.padded, Enc.cat]
  cases c.toBytes x <;> rfl

/-- C21, decoding: the `n` bytes behind the payload are skipped, whatever they are unless padding is checked. -/
theorem C21_decode {n : Nat} {v pad rest : Bytes} {a : α} (hl : pad.length = n)
    (hz : cfg.checkPadding = true → pad = List.replicate n 0) (h : c.Decodes cfg v a (pad ++ rest)) :
    (padded cfg n c).Decodes cfg v a rest := by
  refine On.decodes (win := False) (fun k => padded_refines (k.lawful cfg.prof) cfg n (Decodes.on h k)) ?_
  simp only [Dec.padded, D.bind_run, spot_self, DecRes.bind_ok, D.take_append hl]
  rw [if_neg (by rintro ⟨h1, h2⟩; exact h2 (hz h1))]
  rfl

/-- C21, checked padding: anything but zeros is refused and reported. -/
theorem C21_reject {n : Nat} {v pad rest : Bytes} {a : α} (hl : pad.length = n) (hz : cfg.checkPadding = true)
    (hp : pad ≠ List.replicate n 0) (h : c.Decodes cfg v a (pad ++ rest)) :
    (padded cfg n c).Rejects cfg v (.token (.nonNullPaddingByte pad)) := by
  refine On.rejects (win := False) (fun k => padded_refines (k.lawful cfg.prof) cfg n (Decodes.on h k)) (.inl id) ?_
  simp only [Dec.padded, D.bind_run, spot_self, DecRes.bind_ok, D.take_append hl]
  rw [if_pos ⟨hz, hp⟩]
  rfl

/-- C21, too few bytes behind the payload.  (Missing: `N` above `isize::MAX + 1`, which `C21_short_exact` settles: the code does not
always refuse.) -/
theorem C21_short_partial {n : Nat} (hn : n ≤ isizeMax + 1) {v left : Bytes} {a : α} (hl : left.length < n)
    (h : c.Decodes cfg v a left) : (padded cfg n c).Rejects cfg v (D.shortErr n left.length) := by
  refine On.rejects (win := False) (fun k => padded_refines (k.lawful cfg.prof) cfg n (Decodes.on h k)) (.inl id) ?_
  simp only [Dec.padded, D.bind_run, spot_self, DecRes.bind_ok, D.take, if_neg (Nat.not_le.mpr hl), D.short, if_pos hn,
    DecRes.bind_err]

theorem C21_payload_error {n : Nat} {v : Bytes} {e : ParseError} (h : c.Rejects cfg v e) :
    (padded cfg n c).Rejects cfg v e := by
  refine On.rejects (win := False) (fun k => padded_refines (k.lawful cfg.prof) cfg n (Rejects.on h k)) (.inl id) ?_
  simp only [Dec.padded, D.bind_run, spot_self, DecRes.bind_err]

/-- C21, round trip, with either setting of the padding check. -/
theorem C21_roundtrip (hc : c.Appending) {n : Nat} {x : α} {b t : Bytes}
    (h : ∀ w, c.toBytes x = some w → c.Decodes cfg (w ++ (List.replicate n 0 ++ t)) x (List.replicate n 0 ++ t))
    (hb : (padded cfg n c).toBytes x = some b) : (padded cfg n c).Decodes cfg (b ++ t) x t := by
  rw [C21_encode hc] at hb
  cases hx : c.toBytes x with
  | none => rw [hx] at hb; cases hb
  | some w =>
    rw [hx] at hb
    cases hb
    rw [List.append_assoc]
    exact C21_decode (List.length_replicate ..) (fun _ => rfl) (h w hx)

example (cfg : Cfg) : (padded cfg 2 (Codec.int .u8)).Decodes cfg [7, 0, 0, 9] 7 [9] :=
  C21_roundtrip (b := [7, 0, 0]) (t := [9]) (x := 7) (Writes.appending (int_writes .u8))
    (fun w hw => C10_int_roundtrip cfg .u8 7 w _ hw) (by
      rw [C21_encode (Writes.appending (int_writes .u8))]; decide)
example (p : Profile) (a b : Bool) : (padded ⟨p, a, true, b⟩ 2 (Codec.int .u8)).Rejects ⟨p, a, true, b⟩ [7, 0, 1, 9]
    (.token (.nonNullPaddingByte [0, 1])) :=
  C21_reject (pad := [0, 1]) (rest := [9]) rfl rfl (by decide) (C10_int_roundtrip _ .u8 7 [7] [0, 1, 9] (by decide))

end Verif.Props
