import Verif.Refine.Twins
import Verif.Props.Fault
import Verif.Props.Fall
import Verif.Props.Checked
import Verif.Props.Wider
/-
C95: what an error says about where decoding stopped; C46: when exactly decoding panics.
-/
namespace Verif

/-- The types the theorems of this file speak about: those of the library, recursive ones, and those whose `parse` was written
by hand and makes up no errors that look as if the parser had found them.  (`Schema.tame`: no `VPadded` in release builds and no
arrays of more than `isize::MAX + 1` bytes.) -/
inductive Codec.Covered : {α : Type} → Codec α → Prop
  | library (cfg : Cfg) (s : Schema) (ht : s.tame cfg.prof = true) : Covered (s.codec cfg)
  | recursive (cfg : Cfg) (d : Decls) (ht : ∀ j, (d.body j).tame cfg.prof = true) (i : Nat) : Covered (d.codec cfg i)
  | written {α : Type} (c : Codec α) (h : c.Composed fun e => e.isWindow = false) : Covered c

/-- Does `e` tell the truth about a parser that was left at position `off`, with the innermost window ending at `lim`, in an
input of `len` bytes?  Nothing is asked of the number of bytes said to be left in the buffer. -/
def Points (len off lim : Nat) : ParseError → Prop
  | .window (.consumeWouldExceedLimit o n l) => o = off ∧ l = lim ∧ lim - off < n
  | .window (.openWouldExceedWindow l r) => l = lim ∧ lim < r ∧ r ≤ len ∧ off < r
  | .window (.openWouldExceedBuffer _ n) => len - off < n
  | .window (.closeWithResidue k) => 0 < k ∧ k ≤ lim - off
  | .window .closeWithoutWindow => False
  | .window (.offsetOverflow _) => False
  | _ => True

/-- The same error, told by a parser that counts from where it stands. -/
def fromHere (off lim : Nat) : ParseError → ParseError
  | .window (.consumeWouldExceedLimit o n l) => .window (.consumeWouldExceedLimit 0 n (l - o))
  | .window (.openWouldExceedWindow l r) => .window (.openWouldExceedWindow (l - off) (r - off))
  | .window (.openWouldExceedBuffer _ n) => .window (.openWouldExceedWindow (lim - off) n)
  | e => e

namespace Backend

/-- The state of a parser over `buf` by the cursor it stands for. -/
def Rep (buf : Bytes) : (k : Backend) → k.State → Cursor → Prop
  | .byte => ByteRep buf
  | .memo => MemoRep buf
  | .slice => SliceRep

theorem exactly (p : Profile) {buf : Bytes} (hb : buf.length ≤ isizeMax) : {k : Backend} → k ≠ .slice →
    Exactly (k.ops p) p buf.length (k.Rep buf)
  | .byte, _ => byte_exactly p hb
  | .memo, _ => memo_exactly p hb
  | .slice, h => absurd rfl h

theorem rep_init {buf : Bytes} (hb : buf.length ≤ isizeMax) : (k : Backend) → k.Rep buf (k.init buf) (Cursor.start buf)
  | .byte => ByteRep.start hb
  | .memo => MemoRep.start hb
  | .slice => rfl

theorem Rep.holds {buf : Bytes} : {k : Backend} → k ≠ .slice → {st : k.State} → {c : Cursor} → k.Rep buf st c →
    k.Holds c.top c.outer st
  | .byte, _, _, _, h => ⟨buf, _, h⟩
  | .memo, _, _, _, h => ⟨buf, _, h⟩
  | .slice, h, _, _, _ => absurd rfl h

theorem Rep.offset {buf : Bytes} (p : Profile) : {k : Backend} → k ≠ .slice → {st : k.State} → {c : Cursor} → k.Rep buf st c →
    (k.ops p).offset st = c.pos
  | .byte, _, _, _, ⟨_, _, h⟩ => h ▸ rfl
  | .memo, _, _, _, ⟨_, h⟩ => h ▸ rfl
  | .slice, h, _, _, _ => absurd rfl h

theorem Rep.viewLen {buf : Bytes} (p : Profile) : {k : Backend} → k ≠ .slice → {st : k.State} → {c : Cursor} → k.Rep buf st c →
    (k.ops p).viewLen st = c.pos + c.top.length
  | .byte, _, _, _, ⟨_, hi, h⟩ => h ▸ hi.viewLen
  | .memo, _, _, _, h => h.2 ▸ h.1.off.viewLen
  | .slice, h, _, _, _ => absurd rfl h

end Backend

theorem Told.points {p : Profile} {len : Nat} {c : Cursor} {e e' : ParseError} (h : Told p len c e e')
    (hl : c.pos + c.top.length ≤ len) : Points len c.pos (c.pos + c.top.length) e := by
  cases h with
  | short n h => exact ⟨rfl, rfl, by omega⟩
  | buffer n h _ => show _ - _ < _; omega
  | window n h h' => exact ⟨rfl, by omega, h', by omega⟩
  | residue k h0 h => exact ⟨h0, by omega⟩

theorem Told.fromHere {p : Profile} {len : Nat} {c : Cursor} {e e' : ParseError} (h : Told p len c e e') :
    e' = fromHere c.pos (c.pos + c.top.length) e := by
  cases h <;> simp only [Verif.fromHere, Nat.add_sub_cancel_left]

theorem Points.own {len off lim : Nat} {e : ParseError} (h : e.isWindow = false) : Points len off lim e := by
  cases e with
  | window w => cases h
  | _ => trivial

theorem fromHere_own {off lim : Nat} {e : ParseError} (h : e.isWindow = false) : fromHere off lim e = e := by
  cases e with
  | window w => cases h
  | _ => rfl

namespace Props

variable {α : Type}

theorem covered_steady {c : Codec α} (h : c.Covered) : c.Steady := by
  cases h with
  | library cfg s ht => exact (s.composed cfg ht).steady
  | recursive cfg d ht i => exact d.steady cfg ht i
  | written c h => exact h.steady

/-- The run of a parser that knows its position next to the run of `SliceParser`. -/
theorem covered_lock {c : Codec α} (h : c.Covered) (p : Profile) {k : Backend} (hk : k ≠ .slice) {buf : Bytes}
    (hb : buf.length ≤ isizeMax) : ∃ y : Out SliceParser ParseError α, c.parse (Backend.slice.ops p) (Backend.slice.init buf) = y ∧
      Lock (k.Rep buf) p buf.length (fun e => e.isWindow = false) (fun _ => True) (Cursor.start buf)
        (c.parse (k.ops p) (k.init buf)) y :=
  ⟨_, rfl, (covered_steady h).locks (Backend.exactly p hb hk) _ _ _ (Backend.rep_init hb k) (SliceRep.start buf)⟩

/-! ### C95 -/

/-- C95: the numbers in an error of the parser are those of the parser when decoding stopped: the position, the end of the innermost
window, how many bytes there were.  (Not so the number of bytes said to be left in the buffer, see `C95_bytes_left_fails`.) -/
theorem C95_position_partial {c : Codec α} (h : c.Covered) (p : Profile) (k : Backend) (hk : k ≠ .slice) (buf : Bytes)
    (hb : buf.length ≤ isizeMax) (e : ParseError) (st : k.State) (he : c.parse (k.ops p) (k.init buf) = .err e st) :
    (k.ops p).offset st ≤ (k.ops p).viewLen st ∧ (k.ops p).viewLen st ≤ buf.length ∧
    Points buf.length ((k.ops p).offset st) ((k.ops p).viewLen st) e := by
  obtain ⟨y, hy, hl⟩ := covered_lock h p hk hb
  rw [he] at hl
  cases hl with
  | own _ _ t' c' hw ha hp =>
    rw [ha.offset p hk, ha.viewLen p hk]
    exact ⟨Nat.le_add_right _ _, (Backend.exactly p hb hk).bound ha, Points.own (hw.elim id id)⟩
  | told _ e' _ t' c' ha hp ht =>
    rw [ha.offset p hk, ha.viewLen p hk]
    exact ⟨Nat.le_add_right _ _, (Backend.exactly p hb hk).bound ha, ht.points ((Backend.exactly p hb hk).bound ha)⟩

/-- C95: `SliceParser` reports the same error, with the numbers counted from where decoding stopped. -/
theorem C95_slice {c : Codec α} (h : c.Covered) (p : Profile) (k : Backend) (hk : k ≠ .slice) (buf : Bytes)
    (hb : buf.length ≤ isizeMax) (e : ParseError) (st : k.State) (he : c.parse (k.ops p) (k.init buf) = .err e st) :
    ∃ t, c.parse (Backend.slice.ops p) (Backend.slice.init buf) =
      .err (fromHere ((k.ops p).offset st) ((k.ops p).viewLen st) e) t := by
  obtain ⟨y, hy, hl⟩ := covered_lock h p hk hb
  rw [he] at hl
  cases hl with
  | own _ _ t' c' hw ha hp => exact ⟨t', by rw [fromHere_own (hw.elim id id)]; exact hy⟩
  | told _ e' _ t' c' ha hp ht =>
    rw [ha.offset p hk, ha.viewLen p hk]
    exact ⟨t', by rw [← ht.fromHere]; exact hy⟩

/-- C95: bytes from the position of the error on have not been looked at.  Whatever they are, and with either parser that knows its
position, the error is the same, to the letter, and the parser is left at the same position. -/
theorem C95_unread {c : Codec α} (h : c.Covered) (p : Profile) (k k' : Backend) (hk : k ≠ .slice) (hk' : k' ≠ .slice)
    (buf buf' : Bytes) (hb : buf.length ≤ isizeMax) (e : ParseError) (st : k.State)
    (he : c.parse (k.ops p) (k.init buf) = .err e st) (hl : buf'.length = buf.length)
    (hp : buf'.take ((k.ops p).offset st) = buf.take ((k.ops p).offset st)) :
    ∃ st', c.parse (k'.ops p) (k'.init buf') = .err e st' ∧ (k'.ops p).offset st' = (k.ops p).offset st ∧
      (k'.ops p).viewLen st' = (k.ops p).viewLen st := by
  have hb' : buf'.length ≤ isizeMax := hl ▸ hb
  have X' : Exactly (k'.ops p) p buf.length (k'.Rep buf') := hl ▸ Backend.exactly p hb' hk'
  have ht : Twin _ _ _ _ (c.parse (k'.ops p)) (c.parse (k.ops p) (k.init buf)) :=
    (covered_steady h).twins (Backend.exactly p hb hk) X' _ _ (Backend.rep_init hb k)
  rw [he] at ht
  obtain ⟨c1, h1, h2, h3⟩ := ht
  rw [h1.offset p hk] at hp
  obtain ⟨st', c1', e', h4, h5⟩ := h3 (Cursor.start buf') (k'.init buf') (Backend.rep_init hb' k') ⟨rfl, hl.symm, rfl⟩
    (by simp only [Agree, Cursor.start, Cursor.unread, List.flatten_nil, List.append_nil, Nat.sub_zero]; exact hp.symm)
  refine ⟨st', e', ?_, ?_⟩
  · rw [h4.offset p hk', h1.offset p hk, h5.pos]
  · rw [h4.viewLen p hk', h1.viewLen p hk, h5.pos, h5.top]

/-- C95: likewise for a value: it is determined by the bytes up to where decoding ended, and by the length of the input. -/
theorem C95_unread_value {c : Codec α} (h : c.Covered) (p : Profile) (k k' : Backend) (hk : k ≠ .slice) (hk' : k' ≠ .slice)
    (buf buf' : Bytes) (hb : buf.length ≤ isizeMax) (a : α) (st : k.State)
    (he : c.parse (k.ops p) (k.init buf) = .ok a st) (hl : buf'.length = buf.length)
    (hp : buf'.take ((k.ops p).offset st) = buf.take ((k.ops p).offset st)) :
    ∃ st', c.parse (k'.ops p) (k'.init buf') = .ok a st' ∧ (k'.ops p).offset st' = (k.ops p).offset st := by
  have hb' : buf'.length ≤ isizeMax := hl ▸ hb
  have X' : Exactly (k'.ops p) p buf.length (k'.Rep buf') := hl ▸ Backend.exactly p hb' hk'
  have ht : Twin _ _ _ _ (c.parse (k'.ops p)) (c.parse (k.ops p) (k.init buf)) :=
    (covered_steady h).twins (Backend.exactly p hb hk) X' _ _ (Backend.rep_init hb k)
  rw [he] at ht
  obtain ⟨_, c1, h1, h2, h3⟩ := ht
  rw [h1.offset p hk] at hp
  obtain ⟨st', c1', e', h4, h5, _⟩ := h3 (Cursor.start buf') (k'.init buf') (Backend.rep_init hb' k') ⟨rfl, hl.symm, rfl⟩
    (by simp only [Agree, Cursor.start, Cursor.unread, List.flatten_nil, List.append_nil, Nat.sub_zero]; exact hp.symm)
  exact ⟨st', e', by rw [h4.offset p hk', h1.offset p hk, h5.pos]⟩

/-- C95 for `try_decode`: the error of decoding points at a place in the input; `SliceParser` reports the same, counted from there;
and the bytes from there on have no part in it. -/
theorem C95_try_decode_partial {c : Codec α} (h : c.Covered) (cfg : Cfg) (k : Backend) (hk : k ≠ .slice) (buf : Bytes)
    (hb : buf.length ≤ isizeMax) (e : ParseError) (he : c.tryDecode cfg k buf = .err (.parse e) ()) :
    ∃ off lim, off ≤ lim ∧ lim ≤ buf.length ∧ Points buf.length off lim e ∧
      c.tryDecode cfg .slice buf = .err (.parse (fromHere off lim e)) () ∧
      ∀ k' buf', k' ≠ .slice → buf'.length = buf.length → buf'.take off = buf.take off →
        c.tryDecode cfg k' buf' = .err (.parse e) () := by
  unfold Codec.tryDecode at he
  cases hx : c.parse (k.ops cfg.prof) (k.init buf) with
  | ok a st =>
    rw [hx] at he
    obtain ⟨y, hy, hl⟩ := covered_lock h cfg.prof hk hb
    rw [hx] at hl
    cases hl with
    | ok _ _ t' c' _ ha _ ho _ =>
      have hs := ha.holds hk
      rw [show c'.outer = [] from ho] at hs
      exact (finish_parse hs he).elim
  | err e' st =>
    rw [hx] at he
    cases he
    obtain ⟨h1, h2, h3⟩ := C95_position_partial h cfg.prof k hk buf hb e st hx
    obtain ⟨t, h4⟩ := C95_slice h cfg.prof k hk buf hb e st hx
    have h4 : c.parse (Backend.slice.ops cfg.prof) (Backend.slice.init buf) = _ := h4
    refine ⟨_, _, h1, h2, h3, ?_, fun k' buf' hk' hl hp => ?_⟩
    · unfold Codec.tryDecode
      rw [h4]
    · obtain ⟨st', h5, _⟩ := C95_unread h cfg.prof k k' hk hk' buf buf' hb e st hx hl hp
      unfold Codec.tryDecode
      rw [h5]
  | panic => rw [hx] at he; cases he
  | ub => rw [hx] at he; cases he
  | diverge => rw [hx] at he; cases he

/-! ### C46 -/

/-- C46, exactly when `try_decode` panics with `ByteParser` and `MemoParser`: when it panics with `SliceParser`, and in debug builds
also when `SliceParser` reports a window larger than the whole input. -/
theorem C46_panic_exact {c : Codec α} (h : c.Covered) (cfg : Cfg) (k : Backend) (hk : k ≠ .slice) (buf : Bytes)
    (hb : buf.length ≤ isizeMax) : c.tryDecode cfg k buf = .panic ↔ c.tryDecode cfg .slice buf = .panic ∨
      (cfg.prof = .debug ∧ ∃ l n, buf.length < n ∧
        c.tryDecode cfg .slice buf = .err (.parse (.window (.openWouldExceedWindow l n))) ()) := by
  obtain ⟨y, hy, hl⟩ := covered_lock h cfg.prof hk hb
  unfold Codec.tryDecode
  rw [hy]
  generalize c.parse (k.ops cfg.prof) (k.init buf) = x at hl
  cases hl with
  | ok a s' t' c' _ ha ht ho _ =>
    have ho : c'.outer = [] := ho
    have hs := ha.holds hk
    rw [ho] at hs
    have hbd := (Backend.exactly cfg.prof hb hk).bound ha
    have hs' : Backend.Holds .slice c'.top [] t' := ⟨c'.pos, by rw [← ho]; exact ht, by simp; omega⟩
    have no : ∀ (k : Backend) (st : k.State), k.Holds c'.top [] st → k.finish cfg a st ≠ .panic := by
      intro k st hst he
      rcases finish_ended cfg k a hst with h' | h'
      · obtain ⟨b, h'⟩ := h'; rw [h'] at he; cases he
      · obtain ⟨e, h'⟩ := h'; rw [h'] at he; cases he
    constructor
    · exact fun e => absurd e (no k s' hs)
    · rintro (e | ⟨_, l, n, _, e⟩)
      · exact absurd e (no .slice t' hs')
      · exact (finish_parse hs' e).elim
  | own e s' t' c' hw ha hp =>
    constructor
    · nofun
    · rintro (e' | ⟨_, l, n, _, e'⟩)
      · cases e'
      · cases e'
        exact absurd (hw.elim id id) nofun
  | told e e' s' t' c' ha hp ht =>
    constructor
    · nofun
    · rintro (e1 | ⟨hd, l, n, hn, e1⟩)
      · cases e1
      · cases e1
        cases ht with
        | buffer _ _ h1 => exact absurd (h1 hd) (by omega)
        | window _ _ h1 => omega
  | panic => exact ⟨fun _ => .inl rfl, fun _ => rfl⟩
  | oversized l n t' hp hl hn => exact ⟨fun _ => .inr ⟨hp, l, n, hn, rfl⟩, fun _ => rfl⟩
  | diverge =>
    constructor
    · nofun
    · rintro (e1 | ⟨hd, l, n, hn, e1⟩) <;> cases e1

/-! ### `VPadded` in release builds -/

/-- C95 in release builds, all types, those with `VPadded` included: on all inputs on which a debug build of the decoder does not
panic.  The bytes from the place of the error on have no part in it even if they would make a debug build panic. -/
theorem C95_vpadded_partial (cfg : Cfg) (hr : cfg.prof = .release) (s : Schema) (ht : s.tame .debug = true) (k : Backend)
    (hk : k ≠ .slice) (buf : Bytes) (hb : buf.length ≤ isizeMax) (hc : Calm s.codec cfg buf) (e : ParseError)
    (he : (s.codec cfg).tryDecode cfg k buf = .err (.parse e) ()) :
    ∃ off lim, off ≤ lim ∧ lim ≤ buf.length ∧ Points buf.length off lim e ∧
      (s.codec cfg).tryDecode cfg .slice buf = .err (.parse (fromHere off lim e)) () ∧
      ∀ k' buf', k' ≠ .slice → buf'.length = buf.length → buf'.take off = buf.take off →
        (s.codec cfg).tryDecode cfg k' buf' = .err (.parse e) () := by
  have hx : ∀ k : Backend, (s.codec cfg).tryDecode cfg k buf = (s.codec (checkedCfg cfg)).tryDecode cfg k buf := by
    intro k
    unfold Codec.tryDecode
    rw [checked_parse (k.lawful cfg.prof) cfg (calm_panics k cfg) s (.inr hc) ht (Backend.holds_init k hb)]
  rw [hx] at he
  obtain ⟨off, lim, h1, h2, h3, h4, h5⟩ := C95_try_decode_partial (.library (checkedCfg cfg) s ht) cfg k hk buf hb e he
  refine ⟨off, lim, h1, h2, h3, by rw [hx]; exact h4, fun k' buf' hk' hl hp => ?_⟩
  have h6 := h5 k' buf' hk' hl hp
  unfold Codec.tryDecode at h6 ⊢
  rcases checked_strict (k'.ops cfg.prof) cfg hr s (k'.init buf') with h7 | h7
  · rw [h7] at h6
    cases h6
  · rw [← h7]
    exact h6

theorem unfold_errs {cfg cfg' : Cfg} {d : Decls} {i n : Nat} {k : Backend} {buf : Bytes} {e : DecodeError}
    (h : ((d.unfold n i).codec cfg').parse (k.ops cfg.prof) (k.init buf) ≠ .diverge) :
    (d.codec cfg' i).tryDecode cfg k buf = .err e () ↔ ((d.unfold n i).codec cfg').tryDecode cfg k buf = .err e () := by
  unfold Codec.tryDecode
  rw [d.parse_eq h, M.map_run]
  cases ((d.unfold n i).codec cfg').parse (k.ops cfg.prof) (k.init buf) with
  | ok a s =>
    show k.finish cfg (d.val n a) s = _ ↔ k.finish cfg a s = _
    rw [finish_map (d.val n)]
    cases k.finish cfg a s <;> exact ⟨fun h => by cases h <;> rfl, fun h => by cases h <;> rfl⟩
  | err e s => exact ⟨fun h => by cases h; rfl, fun h => by cases h; rfl⟩
  | panic => exact ⟨nofun, nofun⟩
  | ub => exact ⟨nofun, nofun⟩
  | diverge => exact ⟨nofun, nofun⟩

/-- C95 in release builds, recursive types with `VPadded`. -/
theorem C95_recursive_vpadded_partial (cfg : Cfg) (hr : cfg.prof = .release) (d : Decls) (ht : ∀ j, (d.body j).tame .debug = true)
    (i : Nat) (k : Backend) (hk : k ≠ .slice) (buf : Bytes) (hb : buf.length ≤ isizeMax) (hc : Calm (fun cfg => d.codec cfg i) cfg buf)
    (e : ParseError) (he : (d.codec cfg i).tryDecode cfg k buf = .err (.parse e) ()) :
    ∃ off lim, off ≤ lim ∧ lim ≤ buf.length ∧ Points buf.length off lim e ∧
      (d.codec cfg i).tryDecode cfg .slice buf = .err (.parse (fromHere off lim e)) () ∧
      ∀ k' buf', k' ≠ .slice → buf'.length = buf.length → buf'.take off = buf.take off →
        (d.codec cfg i).tryDecode cfg k' buf' = .err (.parse e) () := by
  have hex : ∃ n, ((d.unfold n i).codec cfg).parse (k.ops cfg.prof) (k.init buf) ≠ .diverge := by
    apply Classical.byContradiction
    intro hn
    have : (d.codec cfg i).parse (k.ops cfg.prof) (k.init buf) = .diverge := dif_neg hn
    unfold Codec.tryDecode at he
    rw [this] at he
    cases he
  obtain ⟨n, hn⟩ := hex
  have he' := (unfold_errs hn).mp he
  have hc' : Calm (d.unfold n i).codec cfg buf := by
    intro hp
    refine hc ?_
    show (d.codec (checkedCfg cfg) i).parse _ _ = _
    rw [d.parse_eq (n := n) (by rw [hp]; nofun), M.map_run, hp]
    rfl
  obtain ⟨off, lim, h1, h2, h3, h4, h5⟩ := C95_vpadded_partial cfg hr (d.unfold n i) (d.tame_unfold ht n i) k hk buf hb hc' e he'
  have hup : ∀ {k : Backend} {buf : Bytes} {e : ParseError}, ((d.unfold n i).codec cfg).tryDecode cfg k buf = .err (.parse e) () →
      (d.codec cfg i).tryDecode cfg k buf = .err (.parse e) () := by
    intro k buf e h
    refine (unfold_errs fun hd => ?_).mpr h
    unfold Codec.tryDecode at h
    rw [hd] at h
    cases h
  exact ⟨off, lim, h1, h2, h3, hup h4, fun k' buf' hk' hl hp => hup (h5 k' buf' hk' hl hp)⟩

/-! ### what fails, and examples -/

/-- C95: what the error says instead: the length of the whole input less the size of the window asked for.  In debug builds the
window is then no larger than the input; in release builds the difference wraps around. -/
theorem C95_bytes_left_exact {c : Codec α} (h : c.Covered) (p : Profile) (k : Backend) (hk : k ≠ .slice) (buf : Bytes)
    (hb : buf.length ≤ isizeMax) (b n : Nat) (st : k.State)
    (he : c.parse (k.ops p) (k.init buf) = .err (.window (.openWouldExceedBuffer b n)) st) :
    b = (buf.length + usizeMod - n) % usizeMod ∧ (p = .debug → n ≤ buf.length ∧ b = buf.length - n) := by
  obtain ⟨y, hy, hl⟩ := covered_lock h p hk hb
  rw [he] at hl
  cases hl with
  | own _ _ t' c' hw ha hp => exact absurd (hw.elim id id) nofun
  | told _ e' _ t' c' ha hp ht =>
    cases ht with
    | buffer _ h1 h2 =>
      refine ⟨rfl, fun hd => ⟨h2 hd, ?_⟩⟩
      have := h2 hd
      have := usizeMod_eq
      rw [show buf.length + usizeMod - n = buf.length - n + usizeMod by omega, Nat.add_mod_right, Nat.mod_eq_of_lt (by omega)]

/-- A message whose prefix promises more than there is. -/
def promising : Schema := .dynamic .u8 .bytes

/-- C95 fails for the number of bytes said to be left in the buffer: it is the length of the input less the size of the window, not
what is left after the prefix (here 1 byte, said to be 0); and in release builds it wraps around when the window is larger than the
input. -/
theorem C95_bytes_left_fails (enc pad compl : Bool) :
    (∀ p k, k ≠ .slice → (promising.codec ⟨p, enc, pad, compl⟩).tryDecode ⟨p, enc, pad, compl⟩ k [2, 7] =
      .err (.parse (.window (.openWouldExceedBuffer 0 2))) ()) ∧
    ∀ k, k ≠ .slice → (promising.codec ⟨.release, enc, pad, compl⟩).tryDecode ⟨.release, enc, pad, compl⟩ k [5, 7] =
      .err (.parse (.window (.openWouldExceedBuffer (usizeMod - 3) 5))) () := by
  refine ⟨fun p k hk => ?_, fun k hk => ?_⟩
  · cases k with
    | slice => exact absurd rfl hk
    | byte => cases p <;> rfl
    | memo => cases p <;> rfl
  · have hm := usizeMod_ge
    have hm' := usizeMod_eq
    have hb : ([5, 7] : Bytes).length ≤ isizeMax := by show 2 ≤ isizeMax; omega
    obtain ⟨y, hy, hl⟩ := covered_lock (.library ⟨.release, enc, pad, compl⟩ promising rfl) .release hk hb
    obtain ⟨t0, hy'⟩ : ∃ t0, y = .err (.window (.openWouldExceedWindow 1 5)) t0 := ⟨_, hy.symm.trans rfl⟩
    rw [hy'] at hl
    unfold Codec.tryDecode
    generalize (promising.codec ⟨.release, enc, pad, compl⟩).parse (k.ops .release) (k.init [5, 7]) = x at hl ⊢
    cases hl with
    | own _ _ t' c' hw ha hp => exact absurd (hw.elim id id) nofun
    | oversized _ _ _ hp => cases hp
    | told e _ st t' c' ha hp ht =>
      obtain ⟨e2, h2, ht⟩ : ∃ e2, ParseError.window (.openWouldExceedWindow 1 5) = e2 ∧ Told _ _ c' e e2 := ⟨_, rfl, ht⟩
      cases ht with
      | short => cases h2
      | residue => cases h2
      | buffer n h1 _ =>
        obtain rfl : n = 5 := by injection h2 with h2; injection h2 with _ h2; exact h2.symm
        show Out.err (DecodeError.parse (.window (.openWouldExceedBuffer ((2 + usizeMod - 5) % usizeMod) 5))) () = _
        rw [Nat.mod_eq_of_lt (by omega), show 2 + usizeMod - 5 = usizeMod - 3 by omega]
      | window n h1 h3 =>
        obtain rfl : n = 5 := by injection h2 with h2; injection h2 with _ h2; exact h2.symm
        exact absurd h3 (by show ¬ _ ≤ 2; omega)

/-- A window holding a pair of numbers. -/
def boxed : Schema := .dynamic .u8 (.record (.cons (.int .u8) (.cons (.int .u32) .nil)))

example (cfg : Cfg) : (boxed.codec cfg).Covered := .library cfg boxed rfl

-- `Pair` of src/parse/mod.rs:1334-1360, whose codec is written by hand
example : pairCodec.Covered :=
  .written _ (.bind (Composed.takeFixed 2 (by decide)) fun _ _ => .bind (Composed.int .i8) fun _ _ =>
    Composed.dite (fun _ => .pure _ trivial) fun _ => .panic)

-- the window ends before the second number does: at byte 2, with the window ending at 5, four bytes were asked for
example (cfg : Cfg) (k : Backend) (hk : k ≠ .slice) : (boxed.codec cfg).tryDecode cfg k [4, 9, 1, 2, 3, 4, 5] =
    .err (.parse (.window (.consumeWouldExceedLimit 2 4 5))) () := by
  cases cfg; rename_i p _ _ _; cases k <;> cases p <;> first | rfl | exact absurd rfl hk

-- `SliceParser` says: at 0, with three bytes left
example (cfg : Cfg) : (boxed.codec cfg).tryDecode cfg .slice [4, 9, 1, 2, 3, 4, 5] =
    .err (.parse (fromHere 2 5 (.window (.consumeWouldExceedLimit 2 4 5)))) () := by
  cases cfg; rename_i p _ _ _; cases p <;> rfl

-- and the bytes after the place named do not matter
example (cfg : Cfg) : (boxed.codec cfg).tryDecode cfg .byte [4, 9, 7, 7, 7, 7, 7] =
    .err (.parse (.window (.consumeWouldExceedLimit 2 4 5))) () := by
  cases cfg; rename_i p _ _ _; cases p <;> rfl

-- release builds with `VPadded`: of two bytes one is kept back
example (enc pad compl : Bool) : (Schema.vpadded 1 (.int .u16)).tame .debug = true ∧
    Calm (Schema.vpadded 1 (.int .u16)).codec ⟨.release, enc, pad, compl⟩ [1, 2] ∧
    ((Schema.vpadded 1 (.int .u16)).codec ⟨.release, enc, pad, compl⟩).tryDecode ⟨.release, enc, pad, compl⟩ .byte [1, 2] =
      .err (.parse (.window (.consumeWouldExceedLimit 0 2 1))) () :=
  ⟨rfl, (by intro h; cases h), rfl⟩

-- C46: the three ways to end of `C46_panic_exact`: debug builds panic where `SliceParser` reports a window larger than the input
example (enc pad compl : Bool) :
    (promising.codec ⟨.debug, enc, pad, compl⟩).parse (Backend.byte.ops .debug) (Backend.byte.init [5, 7]) = .panic ∧
    ∃ t, (promising.codec ⟨.debug, enc, pad, compl⟩).parse (Backend.slice.ops .debug) (Backend.slice.init [5, 7]) =
      .err (.window (.openWouldExceedWindow 1 5)) t := ⟨rfl, _, rfl⟩

end Props

end Verif
