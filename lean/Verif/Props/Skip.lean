import Verif.Props.Dynamic
import Verif.Lemmas.Sound
/-
The remaining part of C44: `skip_dynamic`.
-/
namespace Verif.Props

open Codec

theorem ofBe_lt_len {S : LenPref} {p : Bytes} (h : p.length = S.len) : ofBe p < 256 ^ S.len := by
  rw [← h]; exact ofBe_lt p

/-- Reading a prefix that announces `n` bytes by `parse_as_usize`. -/
theorem marshall_announces {S : LenPref} {p : Bytes} {n : Nat} (h : Announces S p n) : S.marshall p = some n := by
  obtain ⟨h1, h2, h3⟩ := h
  rw [beVal_eq] at h2
  subst h2
  cases S with
  | u8 => rfl
  | u16 => rfl
  | u30 =>
    have hi : (BitVec.ofNat 32 (ofBe p)).toInt = (ofBe p : Int) := by
      simp only [LenPref.maxLen, LenPref.u30Max] at h3
      rw [BitVec.toInt_eq_toNat_of_lt (by rw [BitVec.toNat_ofNat]; omega), BitVec.toNat_ofNat]
      omega
    have hr : restrict (ofBe p : Int) 0 LenPref.u30Max = .ok () := by
      simp only [LenPref.maxLen] at h3
      simp only [restrict, Int.lt_irrefl, if_false]
      rw [if_pos (by omega), if_pos (by omega)]
    simp only [LenPref.marshall, hi, hr, Int.toNat_natCast]

theorem marshall_range {p : Bytes} (hl : p.length = 4) (hb : 2 ^ 30 ≤ beVal p) : LenPref.u30.marshall p = none := by
  have hlt := ofBe_lt p
  rw [hl] at hlt
  rw [beVal_eq] at hb
  have hr : ∀ x : Int, x < 0 ∨ LenPref.u30Max < x → ∃ e, restrict x 0 LenPref.u30Max = .error e := by
    intro x hx
    simp only [restrict, Int.lt_irrefl, if_false]
    split
    · split
      · omega
      · split <;> exact ⟨_, rfl⟩
    · split <;> exact ⟨_, rfl⟩
  have hi : (BitVec.ofNat 32 (ofBe p)).toInt < 0 ∨ (LenPref.u30Max : Int) < (BitVec.ofNat 32 (ofBe p)).toInt := by
    rw [BitVec.toInt_eq_toNat_cond, BitVec.toNat_ofNat, Nat.mod_eq_of_lt (by omega)]
    simp only [LenPref.u30Max]
    split <;> omega
  obtain ⟨e, he⟩ := hr _ hi
  simp only [LenPref.marshall, he]

variable {α : Type}

/-- C44, `skip_dynamic` on a well-formed prefix: it reports the announced number of bytes and moves past the
prefix and that many bytes, in every state of every parser. -/
theorem C44_skip_dynamic {S : LenPref} {p w rest : Bytes} (hp : Announces S p w.length) (pr : Profile) (k : Backend)
    (vs : List Bytes) (s : k.State) (hs : k.Holds (p ++ w ++ rest) vs s) :
    ∃ s', (k.ops pr).skipDynamic S s = .ok w.length s' ∧ k.Holds rest vs s' := by
  have L := k.lawful pr
  rw [List.append_assoc] at hs
  obtain ⟨s1, h1, r1⟩ := L.consume_ok S.len hs (by rw [← hp.1]; simp)
  rw [← hp.1, List.take_left] at h1
  rw [← hp.1, List.drop_left] at r1
  obtain ⟨s2, h2, r2⟩ := L.setFit_ok w.length r1 (by simp)
  rw [List.take_left, List.drop_left] at r2
  obtain ⟨s3, h3, r3⟩ := L.skipExactly_ok w.length r2 (Nat.le_refl _)
  rw [List.drop_length] at r3
  obtain ⟨s4, h4, r4⟩ := L.enforce_ok r3
  refine ⟨s4, ?_, r4⟩
  simp only [ParserOps.skipDynamic, ParserOps.processPrefix, LenPref.parseAsUsize, M.bind_run, ← hp.1, h1, Out.bind_ok,
    marshall_announces hp, M.ofOption, M.pure_run, h2, h3, h4]

/-- C44, `skip_dynamic` where there is not even a prefix: the error of the short read. -/
theorem C44_skip_dynamic_short (S : LenPref) {v : Bytes} (hv : v.length < S.len) (pr : Profile) (k : Backend)
    (vs : List Bytes) (s : k.State) (hs : k.Holds v vs s) :
    ∃ e s', (k.ops pr).skipDynamic S s = .err e s' ∧ e.kind = D.shortErr S.len v.length ∧ k.Holds v vs s' := by
  obtain ⟨e, s', h1, h2, h3⟩ := (k.lawful pr).consume_err S.len hs hv S.len_le
  exact ⟨e, s', by simp [ParserOps.skipDynamic, ParserOps.processPrefix, LenPref.parseAsUsize, M.bind_run, h1], h2, h3⟩

/-- C44, `skip_dynamic` when more bytes are announced than there are: an error, or (ByteParser and MemoParser in
debug builds) possibly the panic known from C19. -/
theorem C44_skip_dynamic_too_long {S : LenPref} {p v : Bytes} {n : Nat} (hp : Announces S p n) (hn : v.length < n)
    (pr : Profile) (k : Backend) (vs : List Bytes) (s : k.State) (hs : k.Holds (p ++ v) vs s) :
    (∃ e s', (k.ops pr).skipDynamic S s = .err e s' ∧ e.kind = Cursor.openErr) ∨
      (k ≠ .slice ∧ pr = .debug ∧ (k.ops pr).skipDynamic S s = .panic) := by
  have L := k.lawful pr
  obtain ⟨s1, h1, r1⟩ := L.consume_ok S.len hs (by rw [← hp.1]; simp)
  rw [← hp.1, List.take_left] at h1
  rw [← hp.1, List.drop_left] at r1
  rcases L.setFit_err n r1 hn (Nat.le_trans hp.2.2 S.maxLen_le) with ⟨e, s2, h2, h3, _⟩ | ⟨h0, h2⟩
  · refine .inl ⟨e, s2, ?_, h3⟩
    simp [ParserOps.skipDynamic, ParserOps.processPrefix, LenPref.parseAsUsize, M.bind_run, ← hp.1, h1,
      marshall_announces hp, M.ofOption, h2]
  · refine .inr ⟨?_, ?_, ?_⟩
    · rintro rfl; exact h0
    · cases k with
      | byte => exact h0
      | memo => exact h0
      | slice => exact h0.elim
    · simp [ParserOps.skipDynamic, ParserOps.processPrefix, LenPref.parseAsUsize, M.bind_run, ← hp.1, h1,
        marshall_announces hp, M.ofOption, h2]

/-- Finding: a 30-bit prefix out of range makes `skip_dynamic` (and `parse_as_usize`) panic on every parser,
where decoding the `Dynamic` returns an error (`C19_prefix_range`). -/
theorem C44_skip_dynamic_range_panics {p : Bytes} (hl : p.length = 4) (hb : 2 ^ 30 ≤ beVal p) (v : Bytes) (pr : Profile)
    (k : Backend) (vs : List Bytes) (s : k.State) (hs : k.Holds (p ++ v) vs s) :
    (k.ops pr).skipDynamic .u30 s = .panic := by
  obtain ⟨s1, h1, _⟩ := (k.lawful pr).consume_ok 4 hs (by rw [← hl]; simp)
  rw [← hl, List.take_left] at h1
  rw [hl] at h1
  simp [ParserOps.skipDynamic, ParserOps.processPrefix, LenPref.parseAsUsize, LenPref.len, M.bind_run, h1,
    marshall_range hl hb, M.ofOption]

theorem no_long_prefix {S : LenPref} {p : Bytes} (h1 : p.length = S.len) (h2 : S.maxLen < beVal p) :
    S = .u30 ∧ 2 ^ 30 ≤ beVal p := by
  have := ofBe_lt p
  rw [h1, ← beVal_eq] at this
  cases S with
  | u8 => simp only [LenPref.maxLen, LenPref.len] at this h2; omega
  | u16 => simp only [LenPref.maxLen, LenPref.len] at this h2; omega
  | u30 => simp only [LenPref.maxLen, LenPref.u30Max] at h2; exact ⟨rfl, by omega⟩

theorem dynamic_wellformed {c : Codec α} {cfg : Cfg} {S : LenPref} {k : Backend} {v : Bytes} {vs : List Bytes}
    {s s' : k.State} {a : α} (hs : k.Holds v vs s) (he : (dynamic cfg S c).parse (k.ops cfg.prof) s = .ok a s') :
    ∃ p w r, v = p ++ w ++ r ∧ Announces S p w.length := by
  rcases C19_cases S v with h | ⟨p, r, rfl, h1, h2⟩ | ⟨p, r, n, rfl, h1, h2⟩ | h
  · obtain ⟨_, _, h3, _⟩ := C19_prefix_short c cfg S v h k vs s hs
    rw [he] at h3; cases h3
  · obtain ⟨rfl, h2⟩ := no_long_prefix h1 h2
    obtain ⟨_, _, h3, _⟩ := C19_prefix_range c cfg h1 h2 r k vs s hs
    rw [he] at h3; cases h3
  · rcases C19_too_long c cfg h1 h2 k vs s hs with ⟨_, _, h3, _⟩ | ⟨_, _, h3⟩ <;> rw [he] at h3 <;> cases h3
  · exact h

theorem skip_wellformed {pr : Profile} {S : LenPref} {k : Backend} {v : Bytes} {vs : List Bytes}
    {s s' : k.State} {n : Nat} (hs : k.Holds v vs s) (he : (k.ops pr).skipDynamic S s = .ok n s') :
    ∃ p w r, v = p ++ w ++ r ∧ Announces S p w.length := by
  rcases C19_cases S v with h | ⟨p, r, rfl, h1, h2⟩ | ⟨p, r, n, rfl, h1, h2⟩ | h
  · obtain ⟨_, _, h3, _⟩ := C44_skip_dynamic_short S h pr k vs s hs
    rw [he] at h3; cases h3
  · obtain ⟨rfl, h2⟩ := no_long_prefix h1 h2
    have h3 := C44_skip_dynamic_range_panics h1 h2 r pr k vs s hs
    rw [he] at h3; cases h3
  · rcases C44_skip_dynamic_too_long h1 h2 pr k vs s hs with ⟨_, _, h3, _⟩ | ⟨_, _, h3⟩ <;>
      rw [he] at h3 <;> cases h3
  · exact h

/-- C44: whenever decoding a `Dynamic` succeeds, whatever the payload type, `skip_dynamic` succeeds in the same
state and leaves the same bytes unread. -/
theorem C44_skip_dynamic_is_decoding {win : Prop} {c : Codec α} {cfg : Cfg} {d : D α} (hc : c.On win cfg d)
    (hd : ∀ w, d w ≠ .wild) (S : LenPref) {k : Backend} {v : Bytes} {vs : List Bytes} {s s' : k.State} {a : α}
    (hs : k.Holds v vs s) (he : (dynamic cfg S c).parse (k.ops cfg.prof) s = .ok a s') :
    ∃ n s'' rest, (k.ops cfg.prof).skipDynamic S s = .ok n s'' ∧ k.Holds rest vs s'' ∧ k.Holds rest vs s' := by
  have hon : (dynamic cfg S c).On True cfg (Dec.dynamic S d) := fun k =>
    dynamic_refines (k.lawful cfg.prof) (fun h => ⟨trivial, h⟩) cfg S ((hc k).mono fun h => ⟨trivial, h.2⟩)
  obtain ⟨p, w, r, rfl, h1⟩ := dynamic_wellformed hs he
  have hrun : Dec.dynamic S d (p ++ w ++ r) = (d w).bind fun a left =>
      if left = [] then .ok a r else .err (.window (.closeWithResidue left.length)) := by
    simp only [Dec.dynamic, D.bind_run, List.append_assoc, lenPref_run h1, DecRes.bind_ok, D.window,
      List.length_append, Nat.le_add_right, if_true, List.take_left', List.drop_left']
  obtain ⟨rest, h2, h3⟩ := On.inv hon hs he (by
    rw [hrun]
    cases hw : d w with
    | ok a left => rw [DecRes.bind_ok]; split <;> nofun
    | wild => exact (hd w hw).elim
    | _ => nofun)
  have hr : rest = r := by
    rw [hrun] at h2
    cases hw : d w with
    | ok a left =>
      rw [hw, DecRes.bind_ok] at h2
      split at h2
      · cases h2; rfl
      · cases h2
    | err e => rw [hw] at h2; cases h2
    | panic => rw [hw] at h2; cases h2
    | diverge => rw [hw] at h2; cases h2
    | wild => rw [hw] at h2; cases h2
  subst hr
  obtain ⟨s'', h4, h5⟩ := C44_skip_dynamic h1 cfg.prof k vs s hs
  exact ⟨_, s'', _, h4, h5, h3⟩

/-- C44: in particular for payloads of all types. -/
theorem C44_skip_dynamic_schema (cfg : Cfg) (S : LenPref) (t : Schema) (hz : t.sized = true) {k : Backend} {v : Bytes}
    {vs : List Bytes} {s s' : k.State} {a : t.Val} (hs : k.Holds v vs s)
    (he : (dynamic cfg S (t.codec cfg)).parse (k.ops cfg.prof) s = .ok a s') :
    ∃ n s'' rest, (k.ops cfg.prof).skipDynamic S s = .ok n s'' ∧ k.Holds rest vs s'' ∧ k.Holds rest vs s' := by
  obtain ⟨rest, h1, h2⟩ := Schema.inv cfg (.dynamic S t) hz hs he
  obtain ⟨p, w, r, rfl, h3⟩ := dynamic_wellformed hs he
  obtain ⟨s'', h4, h5⟩ := C44_skip_dynamic h3 cfg.prof k vs s hs
  have h1 : Dec.dynamic S (t.dec cfg) (p ++ w ++ r) = .ok a rest := h1
  simp only [Dec.dynamic, D.bind_run, List.append_assoc, lenPref_run h3, DecRes.bind_ok, D.window,
    List.length_append, Nat.le_add_right, if_true, List.take_left', List.drop_left'] at h1
  have hr : rest = r := by
    cases hw : t.dec cfg w with
    | ok a left =>
      rw [hw, DecRes.bind_ok] at h1
      split at h1
      · cases h1; rfl
      · cases h1
    | _ => rw [hw] at h1; cases h1
  subst hr
  exact ⟨_, s'', _, h4, h5, h2⟩

/-- C44, the converse: `skip_dynamic` succeeds exactly where an uninterpreted payload (`Dynamic<S, Bytes>`)
would be decoded, and reports its length. -/
theorem C44_skip_dynamic_iff (S : LenPref) (cfg : Cfg) {k : Backend} {v : Bytes} {vs : List Bytes} {s : k.State}
    (hs : k.Holds v vs s) (n : Nat) :
    (∃ s', (k.ops cfg.prof).skipDynamic S s = .ok n s') ↔
      ∃ b s', (dynamic cfg S Codec.bytes).parse (k.ops cfg.prof) s = .ok b s' ∧ b.length = n := by
  constructor
  · rintro ⟨s', he⟩
    obtain ⟨p, w, r, rfl, h1⟩ := skip_wellformed hs he
    obtain ⟨s2, h2, _⟩ := C44_skip_dynamic h1 cfg.prof k vs s hs
    rw [he] at h2
    obtain ⟨s3, h3, _⟩ := C19_decode h1 (C22_bytes cfg w).2.2.1 r k vs s hs
    exact ⟨w, s3, h3, (Out.ok.inj h2).1.symm⟩
  · rintro ⟨b, s', he, rfl⟩
    obtain ⟨p, w, r, rfl, h1⟩ := dynamic_wellformed hs he
    obtain ⟨s3, h3, _⟩ := C19_decode h1 (C22_bytes cfg w).2.2.1 r k vs s hs
    rw [he] at h3
    obtain ⟨s2, h2, _⟩ := C44_skip_dynamic h1 cfg.prof k vs s hs
    exact ⟨s2, by rw [(Out.ok.inj h3).1]; exact h2⟩

/-- Non-vacuity: a value of two bytes is skipped. -/
example : ∃ s', (Backend.byte.ops .debug).skipDynamic .u16 (Backend.byte.init [0, 2, 7, 8, 9]) = .ok 2 s' ∧
    Backend.byte.Holds [9] [] s' :=
  C44_skip_dynamic (p := [0, 2]) (w := [7, 8]) (rest := [9]) ⟨rfl, rfl, by decide⟩ .debug .byte [] _
    (Backend.byte.holds_init (by decide))

example : (Backend.slice.ops .release).skipDynamic .u30 (Backend.slice.init [0x40, 0, 0, 0, 1]) = .panic :=
  C44_skip_dynamic_range_panics (p := [0x40, 0, 0, 0]) rfl (by decide) [1] .release .slice [] _
    (Backend.slice.holds_init (by decide))

end Verif.Props
