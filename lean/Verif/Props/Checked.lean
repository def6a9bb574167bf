import Verif.Props.Leaves
import Verif.Props.Fault
import Verif.Props.Builds
import Verif.Props.UserParsers
import Verif.Lemmas.Ends
/-
C09, C46, C57, C74, C82, C85 in release builds for all types, those with `VPadded` included: on all inputs on which a debug build
of the decoder does not panic.
-/
namespace Verif.Props

open Codec

/-- The features of a debug build. -/
def checkedCfg (cfg : Cfg) : Cfg := ⟨.debug, cfg.encLenOverride, cfg.checkPadding, cfg.completeParse⟩

/-- A debug build that decodes the bytes with `SliceParser` does not panic. -/
def Calm {α : Type} (c : Cfg → Codec α) (cfg : Cfg) (v : Bytes) : Prop :=
  (c (checkedCfg cfg)).parse SliceParser.ops (SliceParser.fromBuffer v) ≠ .panic

theorem calm_dec {cfg : Cfg} {s : Schema} {v : Bytes} (hv : v.length ≤ isizeMax) (h : Calm s.codec cfg v) :
    s.dec (checkedCfg cfg) v ≠ .panic := by
  intro hd
  have := Parses.on (s.parses (checkedCfg cfg)) (checkedCfg cfg) .slice v [] _ (Backend.holds_init .slice hv)
  rw [hd] at this
  exact h this

theorem checked_strict {σ : Type} (P : ParserOps σ) (cfg : Cfg) (hp : cfg.prof = .release) (s : Schema) (st : σ) :
    (s.codec (checkedCfg cfg)).parse P st = .panic ∨ (s.codec (checkedCfg cfg)).parse P st = (s.codec cfg).parse P st := by
  obtain ⟨p, a, b, c⟩ := cfg
  cases hp
  exact (Stricter.related (P := P) (P' := P) a a b c c (.refl _) (.refl _) (fun _ => .refl _) (fun _ => .refl _)
    (.refl _)).schema s nofun st

/-- Where a debug build does not panic, the check for enough input in `VPadded` makes no difference. -/
theorem checked_parse {σ : Type} {P : ParserOps σ} {pan : Prop} {R : Bytes → List Bytes → σ → Prop} (L : Lawful P pan R)
    (cfg : Cfg) (hpan : cfg.prof = .release → ¬ pan) (s : Schema) {v : Bytes} (hc : cfg.prof = .debug ∨ Calm s.codec cfg v)
    (ht : s.tame .debug = true) {vs : List Bytes} {st : σ} (hs : R v vs st) :
    (s.codec cfg).parse P st = (s.codec (checkedCfg cfg)).parse P st := by
  cases hp : cfg.prof with
  | debug =>
    have : checkedCfg cfg = cfg := by
      obtain ⟨p, a, b, c⟩ := cfg
      cases hp
      rfl
    rw [this]
  | release =>
    have hc := hc.resolve_left (by rw [hp]; nofun)
    rcases checked_strict P cfg hp s st with h | h
    · exfalso
      have hm := s.parses (checkedCfg cfg) L v vs st hs
      have h1 := calm_dec (L.small hs) hc
      have h2 := s.tame_dec (checkedCfg cfg) ht v
      rw [h] at hm
      cases hd : s.dec (checkedCfg cfg) v with
      | ok a r => rw [hd] at hm; obtain ⟨_, h, _⟩ := hm; cases h
      | err e =>
        rw [hd] at hm
        rcases hm with ⟨_, _, h, _⟩ | ⟨⟨_, h⟩, _⟩
        · cases h
        · exact hpan hp h
      | panic => exact h1 hd
      | diverge => rw [hd] at hm; cases hm
      | wild => exact h2 hd
    · exact h.symm

theorem calm_panics (k : Backend) (cfg : Cfg) (hp : cfg.prof = .release) : ¬ k.panics cfg.prof := by
  rw [hp]
  cases k <;> nofun

open Classical in
/-- What the three parsers do on such inputs. -/
noncomputable def checkedDec (cfg : Cfg) (s : Schema) : D s.Val := fun v =>
  if cfg.prof = .debug ∨ Calm s.codec cfg v then s.dec (checkedCfg cfg) v else .wild

theorem checked_on (cfg : Cfg) (s : Schema) (ht : s.tame .debug = true) :
    (s.codec cfg).On (s.windowed = true) cfg (checkedDec cfg s) := by
  intro k v vs st hs
  unfold checkedDec
  split
  · next h =>
    rw [checked_parse (k.lawful cfg.prof) cfg (calm_panics k cfg) s h ht hs]
    exact s.parses (checkedCfg cfg) (k.lawful cfg.prof) v vs st hs
  · trivial


theorem checkedDec_eq {cfg : Cfg} {s : Schema} {v : Bytes} (h : cfg.prof = .debug ∨ Calm s.codec cfg v) :
    checkedDec cfg s v = s.dec (checkedCfg cfg) v := if_pos h

theorem checkedDec_tame {cfg : Cfg} {s : Schema} (ht : s.tame .debug = true) {v : Bytes}
    (h : cfg.prof = .debug ∨ Calm s.codec cfg v) : checkedDec cfg s v ≠ .wild := by
  rw [checkedDec_eq h]
  exact s.tame_dec (checkedCfg cfg) ht v

/-! ### C09 -/

theorem on_agree {α : Type} {win : Prop} {c : Codec α} {cfg : Cfg} {d : D α} (h : c.On win cfg d) {buf : Bytes}
    (hw : d buf ≠ .wild) (hb : buf.length ≤ isizeMax) (k k' : Backend)
    (hk : cfg.completeParse = true → k ≠ .slice ∧ k' ≠ .slice) :
    (∃ a, c.tryDecode cfg k buf = .ok a () ∧ c.tryDecode cfg k' buf = .ok a ()) ∨
    (Fails (c.tryDecode cfg k buf) ∧ Fails (c.tryDecode cfg k' buf)) ∨
    (c.tryDecode cfg k buf = .diverge ∧ c.tryDecode cfg k' buf = .diverge) := by
  have h1 := tryDecode_cases h k hb
  have h' := tryDecode_cases h k' hb
  cases hd : d buf with
  | ok a rest =>
    rw [hd] at h1 h'
    obtain ⟨st, hs, e⟩ := h1
    obtain ⟨st', hs', e'⟩ := h'
    cases hc : cfg.completeParse with
    | false => exact .inl ⟨a, by rw [← finish_plain hc k a st, ← e], by rw [← finish_plain hc k' a st', ← e']⟩
    | true =>
      obtain ⟨h1, h2⟩ := hk hc
      rw [finish_complete hc h1 a hs] at e
      rw [finish_complete hc h2 a hs'] at e'
      by_cases hr : rest = []
      · rw [if_pos hr] at e e'
        exact .inl ⟨a, e, e'⟩
      · rw [if_neg hr] at e e'
        exact .inr (.inl ⟨.inl ⟨_, e⟩, .inl ⟨_, e'⟩⟩)
  | err e =>
    rw [hd] at h1 h'
    refine .inr (.inl ⟨?_, ?_⟩)
    · rcases h1 with ⟨e1, h, _⟩ | ⟨_, _, _, h⟩
      · exact .inl ⟨_, h⟩
      · exact .inr h
    · rcases h' with ⟨e1, h', _⟩ | ⟨_, _, _, h'⟩
      · exact .inl ⟨_, h'⟩
      · exact .inr h'
  | panic => rw [hd] at h1 h'; exact .inr (.inl ⟨.inr h1, .inr h'⟩)
  | diverge => rw [hd] at h1 h'; exact .inr (.inr ⟨h1, h'⟩)
  | wild => exact absurd hd hw

/-- C09 for all types, those with `VPadded` in release builds included: any two parsers agree on every input on which a debug
build (with `SliceParser`) does not panic.  (Missing: inputs on which it does, see `C09_fails`; arrays of more than `isize::MAX + 1`
bytes; `SliceParser` with the complete-parse check, see `C43_slice_fails`.) -/
theorem C09_checked_partial (cfg : Cfg) (s : Schema) (ht : s.tame .debug = true) (buf : Bytes) (hb : buf.length ≤ isizeMax)
    (hc : cfg.prof = .debug ∨ Calm s.codec cfg buf) (k k' : Backend)
    (hk : cfg.completeParse = true → k ≠ .slice ∧ k' ≠ .slice) :
    let r := (s.codec cfg).tryDecode cfg k buf
    let r' := (s.codec cfg).tryDecode cfg k' buf
    (∃ a, r = .ok a () ∧ r' = .ok a ()) ∨ (Fails r ∧ Fails r') ∨ (r = .diverge ∧ r' = .diverge) :=
  on_agree (checked_on cfg s ht) (checkedDec_tame ht hc) hb k k' hk

theorem on_error {α : Type} {win : Prop} {c : Codec α} {cfg : Cfg} {d : D α} (h : c.On win cfg d) {buf : Bytes}
    (hw : d buf ≠ .wild) (hb : buf.length ≤ isizeMax) (k : Backend) {e : ParseError}
    (he : c.tryDecode cfg k buf = .err (.parse e) ()) : d buf = .err e.kind := by
  have h := tryDecode_cases h k hb
  cases hd : d buf with
  | ok a rest =>
    rw [hd] at h
    obtain ⟨st, hs, h3⟩ := h
    rw [h3] at he
    exact (finish_parse hs he).elim
  | err e2 =>
    rw [hd] at h
    rcases h with ⟨e3, h, hk⟩ | ⟨_, _, _, h⟩
    · rw [he] at h; cases h; rw [hk]
    · rw [he] at h; cases h
  | panic => rw [hd] at h; rw [show _ = _ from h] at he; cases he
  | diverge => rw [hd] at h; rw [show _ = _ from h] at he; cases he
  | wild => exact absurd hd hw

/-- C09: … and when two parsers report an error of `parse`, it is of the same class. -/
theorem C09_checked_errors (cfg : Cfg) (s : Schema) (ht : s.tame .debug = true) (buf : Bytes) (hb : buf.length ≤ isizeMax)
    (hc : cfg.prof = .debug ∨ Calm s.codec cfg buf) (k k' : Backend) (e e' : ParseError)
    (h1 : (s.codec cfg).tryDecode cfg k buf = .err (.parse e) ())
    (h2 : (s.codec cfg).tryDecode cfg k' buf = .err (.parse e') ()) : e.kind = e'.kind :=
  have h1 := on_error (checked_on cfg s ht) (checkedDec_tame ht hc) hb k h1
  have h2 := on_error (checked_on cfg s ht) (checkedDec_tame ht hc) hb k' h2
  DecRes.err.inj (h1.symm.trans h2)

/-! ### C46 -/

/-- C46 for all types the elements of whose sequences read something, where they are given something to read, so for sequences
of strings as well: decoding comes back, with any parser and any build.  In release builds it comes back with a value or an
error, on every input on which a debug build (with `SliceParser`) does not panic; so `VPadded` is no obstacle when there is
enough input.  (Missing: debug panics; inputs of release builds on which debug builds panic; sequences of elements that may
read nothing; arrays of more than `isize::MAX + 1` bytes; see `C46_fails`.) -/
theorem C46_checked_partial (cfg : Cfg) (s : Schema) (ht : s.tame .debug = true) (he : s.ends = true) (buf : Bytes)
    (hb : buf.length ≤ isizeMax) (hc : cfg.prof = .debug ∨ Calm s.codec cfg buf) (k : Backend) :
    (∃ a, (s.codec cfg).tryDecode cfg k buf = .ok a ()) ∨ (∃ e, (s.codec cfg).tryDecode cfg k buf = .err e ()) ∨
      (cfg.prof = .debug ∧ (s.codec cfg).tryDecode cfg k buf = .panic) := by
  have h := tryDecode_cases (checked_on cfg s ht) k hb
  rw [checkedDec_eq hc] at h
  cases hd : s.dec (checkedCfg cfg) buf with
  | ok a rest =>
    rw [hd] at h
    obtain ⟨st, hst, e⟩ := h
    rw [e]
    cases hc : cfg.completeParse with
    | false => exact .inl ⟨a, finish_plain hc k a st⟩
    | true =>
      by_cases hk : k = .slice
      · subst hk
        obtain ⟨l, h1, _⟩ := finish_slice hc a hst
        exact .inr (.inl ⟨_, h1⟩)
      · rw [finish_complete hc hk a hst]
        split
        · exact .inl ⟨a, rfl⟩
        · exact .inr (.inl ⟨_, rfl⟩)
  | err e =>
    rw [hd] at h
    rcases h with ⟨e', h, _⟩ | ⟨_, _, h⟩
    · exact .inr (.inl ⟨_, h⟩)
    · exact .inr (.inr h)
  | panic =>
    rw [hd] at h
    exact .inr (.inr ⟨hc.resolve_right fun hc => calm_dec hb hc hd, h⟩)
  | diverge => exact absurd hd (s.ends_dec (checkedCfg cfg) he buf)
  | wild => exact absurd hd (s.tame_dec (checkedCfg cfg) ht buf)

/-- Sequences of strings or of optional parts end; sequences of nothing, or of parts that leave what they find, need not. -/
example : (Schema.seq (.nullable .string)).ends = true ∧ (Schema.seq (.vpadded 2 .bytes)).ends = false ∧
    (Schema.dynamic .u30 (.record (.cons (.vpadded 2 (.seq .bytes)) (.cons (.int .u16) .nil)))).ends = true ∧
    (Schema.seq (.nullable .string)).safe = false := by decide

/-- The last of the missing parts is one: such a sequence does not end. -/
example (cfg : Cfg) (k : Backend) : ((Schema.seq (.vpadded 2 .bytes)).codec cfg).tryDecode cfg k [1, 2] = .diverge := by
  have h := tryDecode_cases (Parses.on ((Schema.seq (.vpadded 2 .bytes)).parses cfg) cfg) k (buf := [1, 2]) (by decide)
  rw [show (Schema.seq (.vpadded 2 .bytes)).dec cfg [1, 2] = .diverge by
    show D.many _ _ = _
    rw [D.many]
    rfl] at h
  exact h

/-! ### C57 -/

theorem on_no_ub {α : Type} {win : Prop} {c : Codec α} {cfg : Cfg} {d : D α} (h : c.On win cfg d) {buf : Bytes}
    (hw : d buf ≠ .wild) (hb : buf.length ≤ isizeMax) (k : Backend) : c.tryDecode cfg k buf ≠ .ub := by
  have h := tryDecode_cases h k hb
  cases hd : d buf with
  | ok a rest =>
    rw [hd] at h
    obtain ⟨st, hst, e⟩ := h
    rw [e]
    exact finish_no_ub cfg k a hst
  | err e => rw [hd] at h; rcases h with ⟨_, h, _⟩ | ⟨_, _, _, h⟩ <;> rw [h] <;> nofun
  | panic => rw [hd] at h; rw [show _ = _ from h]; nofun
  | diverge => rw [hd] at h; rw [show _ = _ from h]; nofun
  | wild => exact absurd hd hw

/-- C57: nor is a byte outside of the input read in release builds, for any type, on any input on which a debug build does not
panic.  (Missing: inputs on which it does, see `C57_fails`; arrays of more than `isize::MAX + 1` bytes.) -/
theorem C57_checked_partial (cfg : Cfg) (s : Schema) (ht : s.tame .debug = true) (buf : Bytes) (hb : buf.length ≤ isizeMax)
    (hc : cfg.prof = .debug ∨ Calm s.codec cfg buf) (k : Backend) : (s.codec cfg).tryDecode cfg k buf ≠ .ub :=
  on_no_ub (checked_on cfg s ht) (checkedDec_tame ht hc) hb k

/-! ### C82 -/

theorem own_checked {cfg : Cfg} {t : Schema} {q : Bytes} {e : ParseError} (h : Own (checkedCfg cfg) t q e) : Own cfg t q e := by
  cases t <;> exact h

/-- C82 for all types: errors are truthful on every input on which a debug build does not panic.  (Missing: inputs on which it
does, see `C82_wrapped`, and arrays larger than memory.) -/
theorem C82_checked_partial (cfg : Cfg) (s : Schema) (ht : s.tame .debug = true) (k : Backend) (v : Bytes) (vs : List Bytes)
    (hc : cfg.prof = .debug ∨ Calm s.codec cfg v) (st st' : k.State) (hs : k.Holds v vs st) (e : ParseError)
    (he : (s.codec cfg).parse (k.ops cfg.prof) st = .err e st') : ∃ q, q <:+: v ∧ Fault cfg s q e := by
  have hm := s.parses (checkedCfg cfg) (k.lawful cfg.prof) v vs st hs
  rw [← checked_parse (k.lawful cfg.prof) cfg (calm_panics k cfg) s hc ht hs, he] at hm
  cases hd : s.dec (checkedCfg cfg) v with
  | wild => exact absurd hd (s.tame_dec (checkedCfg cfg) ht v)
  | ok a r => rw [hd] at hm; obtain ⟨_, h, _⟩ := hm; cases h
  | panic => rw [hd] at hm; cases hm
  | diverge => rw [hd] at hm; cases hm
  | err e' =>
    rw [hd] at hm
    rcases hm with ⟨e1, s1, h1, hk⟩ | ⟨_, h1⟩
    · cases h1
      subst hk
      obtain ⟨q, hq, t, ht, ho⟩ := dec_finds (checkedCfg cfg) s v _ hd
      exact ⟨q, hq, t, ht, own_checked (own_kind ho)⟩
    · cases h1

/-- C82 for `try_decode`.  (Missing as above.) -/
theorem C82_checked_try_decode_partial (cfg : Cfg) (s : Schema) (ht : s.tame .debug = true) (k : Backend) (buf : Bytes)
    (hb : buf.length ≤ isizeMax) (hc : cfg.prof = .debug ∨ Calm s.codec cfg buf) (e : ParseError)
    (he : (s.codec cfg).tryDecode cfg k buf = .err (.parse e) ()) : ∃ q, q <:+: buf ∧ Fault cfg s q e := by
  have h := on_error (checked_on cfg s ht) (checkedDec_tame ht hc) hb k he
  rw [checkedDec_eq hc] at h
  obtain ⟨q, hq, t, ht, ho⟩ := dec_finds (checkedCfg cfg) s buf _ h
  exact ⟨q, hq, t, ht, own_checked (own_kind ho)⟩

/-! ### C85 -/

/-- C85 for all types: after a failed decoding the parser is in order, on every input on which a debug build does not panic.
(Missing: inputs on which it does, with `ByteParser` and `MemoParser`, see `C57_fails`; arrays of more than `isize::MAX + 1` bytes.) -/
theorem C85_checked_partial (cfg : Cfg) (s : Schema) (ht : s.tame .debug = true) (k : Backend) (v : Bytes) (vs : List Bytes)
    (hc : cfg.prof = .debug ∨ Calm s.codec cfg v) (st st' : k.State) (hs : k.Holds v vs st) (e : ParseError)
    (he : (s.codec cfg).parse (k.ops cfg.prof) st = .err e st') :
    ∃ gone v' us, v = gone ++ (v' ++ us.flatten) ∧ us.length ≤ s.nesting ∧ k.Holds v' (us ++ vs) st' := by
  rw [checked_parse (k.lawful cfg.prof) cfg (calm_panics k cfg) s hc ht hs] at he
  have := s.leaves (k.stays cfg.prof) (checkedCfg cfg) (.inr ht) v vs st hs
  rw [he] at this
  obtain ⟨v', us, ⟨gone, h1⟩, h2⟩ := this
  exact ⟨gone, v', us, h1.symm, h2⟩

/-- C85: … so that who has opened a window around the part can go on behind it.  (Missing as above.) -/
theorem C85_checked_go_on_partial (cfg : Cfg) (s : Schema) (ht : s.tame .debug = true) (k : Backend) (v w : Bytes)
    (vs : List Bytes) (hc : cfg.prof = .debug ∨ Calm s.codec cfg v) (st st' : k.State) (hs : k.Holds v (w :: vs) st)
    (e : ParseError) (he : (s.codec cfg).parse (k.ops cfg.prof) st = .err e st') :
    ∃ n, n ≤ s.nesting ∧ ∃ st'', giveUps (k.ops cfg.prof) (n + 1) st' = .ok () st'' ∧ k.Holds w vs st'' := by
  obtain ⟨gone, v', us, _, h2, h3⟩ := C85_checked_partial cfg s ht k v _ hc st st' hs e he
  exact ⟨us.length, h2, giveUps_run k cfg.prof us h3⟩

/-! ### recursive types -/

theorem calm_unfold {cfg : Cfg} {d : Decls} {i : Nat} {v : Bytes} (h : Calm (fun c => d.codec c i) cfg v) (n : Nat) :
    Calm (d.unfold n i).codec cfg v := by
  intro hp
  refine h ?_
  show (d.codec (checkedCfg cfg) i).parse _ _ = .panic
  rw [d.parse_eq (n := n) (by rw [hp]; nofun), M.map_run, hp]
  rfl

/-- C85 for recursive types, where a debug build does not panic.  (Missing as above.) -/
theorem C85_checked_recursive_partial (cfg : Cfg) (d : Decls) (i : Nat) (ht : ∀ j, (d.body j).tame .debug = true) (k : Backend)
    (v : Bytes) (vs : List Bytes) (hc : cfg.prof = .debug ∨ Calm (fun c => d.codec c i) cfg v) (st st' : k.State)
    (hs : k.Holds v vs st) (e : ParseError) (he : (d.codec cfg i).parse (k.ops cfg.prof) st = .err e st') :
    ∃ n gone v' us, v = gone ++ (v' ++ us.flatten) ∧ us.length ≤ (d.unfold n i).nesting ∧ k.Holds v' (us ++ vs) st' := by
  by_cases hex : ∃ n, ((d.unfold n i).codec cfg).parse (k.ops cfg.prof) st ≠ .diverge
  · obtain ⟨n, hn⟩ := hex
    rw [d.parse_eq hn, M.map_run] at he
    refine ⟨n, ?_⟩
    cases h : ((d.unfold n i).codec cfg).parse (k.ops cfg.prof) st with
    | err e' s' =>
      rw [h] at he
      cases he
      exact C85_checked_partial cfg _ (d.tame .debug ht n i) k v vs (hc.imp_right (calm_unfold · n)) st _ hs e h
    | _ => rw [h] at he; cases he
  · rw [show (d.codec cfg i).parse (k.ops cfg.prof) st = .diverge from dif_neg hex] at he
    cases he

/-- C82 for recursive types.  (Missing as above.) -/
theorem C82_checked_recursive_partial (cfg : Cfg) (d : Decls) (i : Nat) (ht : ∀ j, (d.body j).tame .debug = true) (k : Backend)
    (v : Bytes) (vs : List Bytes) (hc : cfg.prof = .debug ∨ Calm (fun c => d.codec c i) cfg v) (st st' : k.State)
    (hs : k.Holds v vs st) (e : ParseError) (he : (d.codec cfg i).parse (k.ops cfg.prof) st = .err e st') :
    ∃ n q, q <:+: v ∧ Fault cfg (d.unfold n i) q e := by
  by_cases hex : ∃ n, ((d.unfold n i).codec cfg).parse (k.ops cfg.prof) st ≠ .diverge
  · obtain ⟨n, hn⟩ := hex
    rw [d.parse_eq hn, M.map_run] at he
    refine ⟨n, ?_⟩
    cases h : ((d.unfold n i).codec cfg).parse (k.ops cfg.prof) st with
    | err e' s' =>
      rw [h] at he
      cases he
      exact C82_checked_partial cfg _ (d.tame .debug ht n i) k v vs (hc.imp_right (calm_unfold · n)) st _ hs e h
    | _ => rw [h] at he; cases he
  · rw [show (d.codec cfg i).parse (k.ops cfg.prof) st = .diverge from dif_neg hex] at he
    cases he

/-- C57 for recursive types.  (Missing as above.) -/
theorem C57_checked_recursive_partial (cfg : Cfg) (d : Decls) (i : Nat) (ht : ∀ j, (d.body j).tame .debug = true) (k : Backend)
    (buf : Bytes) (hb : buf.length ≤ isizeMax) (hc : cfg.prof = .debug ∨ Calm (fun c => d.codec c i) cfg buf) :
    (d.codec cfg i).tryDecode cfg k buf ≠ .ub := by
  by_cases hex : ∃ n, ((d.unfold n i).codec cfg).parse (k.ops cfg.prof) (k.init buf) ≠ .diverge
  · obtain ⟨n, hn⟩ := hex
    have hc := hc.imp_right (calm_unfold · n)
    have h := checked_on cfg (d.unfold n i) (d.tame .debug ht n i) k buf [] _ (k.holds_init hb)
    have h2 := checkedDec_tame (d.tame .debug ht n i) hc
    unfold Codec.tryDecode
    rw [d.parse_eq hn, M.map_run]
    cases hd : checkedDec cfg (d.unfold n i) buf with
    | ok a rest =>
      rw [hd] at h
      obtain ⟨st, h, hs⟩ := h
      rw [h]
      exact finish_no_ub cfg k _ hs
    | err e => rw [hd] at h; rcases h with ⟨_, _, h, _⟩ | ⟨_, h⟩ <;> rw [h] <;> nofun
    | panic => rw [hd] at h; rw [show _ = _ from h]; nofun
    | diverge => rw [hd] at h; rw [show _ = _ from h]; nofun
    | wild => exact absurd hd h2
  · have : (d.codec cfg i).parse (k.ops cfg.prof) (k.init buf) = .diverge := dif_neg hex
    unfold Codec.tryDecode
    rw [this]
    nofun

/-! ### C74 -/

/-- C74 for all types: on every input on which a debug build does not panic, decoding with any parser that acts like the
windowed cursor comes out as on `ByteParser`. -/
theorem C74_checked {σ : Type} {P : ParserOps σ} (cfg : Cfg) (s : Schema) (ht : s.tame .debug = true) (buf : Bytes)
    (hb : buf.length ≤ isizeMax) (hc : cfg.prof = .debug ∨ Calm s.codec cfg buf) (st : σ) (hP : P.ActsAs st (Cursor.start buf)) :
    let r := (s.codec cfg).parse P st
    let r' := (s.codec cfg).parse (ByteParser.ops cfg.prof) (ByteParser.fromBuffer buf)
    (∃ a st' b', r = .ok a st' ∧ r' = .ok a b' ∧
      ∃ c, P.ActsAs st' c ∧ c.outer = [] ∧ c.top = buf.drop ((ByteParser.ops cfg.prof).offset b')) ∨
    (∃ e st', r = .err e st' ∧ ((∃ e' b', r' = .err e' b' ∧ e.kind = e'.kind) ∨ (cfg.prof = .debug ∧ r' = .panic))) ∨
    (r = .panic ∧ r' = .panic) ∨ (r = .diverge ∧ r' = .diverge) := by
  intro r r'
  have hR : (fun v vs s => ∃ pos, P.ActsAs s ⟨pos, v, vs⟩ ∧ (Cursor.mk pos v vs).unread.length ≤ isizeMax) buf [] st :=
    ⟨0, hP, by simpa [Cursor.unread] using hb⟩
  have h := s.parses (checkedCfg cfg) (acts_lawful (P := P)) buf [] st hR
  rw [← checked_parse (acts_lawful (P := P)) cfg (fun _ h => h) s hc ht hR] at h
  have h' := s.parses (checkedCfg cfg) (byteLawful cfg.prof buf) buf [] _ ⟨0, ByteRep.start hb⟩
  rw [← checked_parse (byteLawful cfg.prof buf) cfg (fun h => by rw [h]; nofun) s hc ht ⟨0, ByteRep.start hb⟩] at h'
  cases hd : s.dec (checkedCfg cfg) buf with
  | ok a rest =>
    rw [hd] at h h'
    obtain ⟨st', e1, pos, h2, _⟩ := h
    obtain ⟨b', e1', h2'⟩ := h'
    exact .inl ⟨a, st', b', e1, e1', _, h2, rfl, byteR_position cfg.prof h2'⟩
  | err e =>
    rw [hd] at h h'
    rcases h with ⟨e1, st', e2, hk⟩ | ⟨⟨_, hf⟩, _⟩
    · refine .inr (.inl ⟨e1, st', e2, ?_⟩)
      rcases h' with ⟨e1', b', e2', hk'⟩ | ⟨⟨_, hp⟩, e2'⟩
      · exact .inl ⟨e1', b', e2', hk.trans hk'.symm⟩
      · exact .inr ⟨hp, e2'⟩
    · exact hf.elim
  | panic => rw [hd] at h h'; exact .inr (.inr (.inl ⟨h, h'⟩))
  | diverge => rw [hd] at h h'; exact .inr (.inr (.inr ⟨h, h'⟩))
  | wild => exact absurd hd (s.tame_dec (checkedCfg cfg) ht buf)

/-- What is left out is small: with a type that leaves two bytes, input of three bytes is decoded without a panic, input of
one byte is not; and an input where decoding fails without a panic. -/
example (cfg : Cfg) :
    Calm (Schema.vpadded 2 .bytes).codec cfg [1, 2, 3] ∧ ¬ Calm (Schema.vpadded 2 .bytes).codec cfg [1] ∧
    Calm (Schema.vpadded 2 .bool).codec cfg [9, 2, 3] ∧ (Schema.vpadded 2 .bool).tame .debug = true ∧
    ∃ e st, ((Schema.vpadded 2 .bool).codec cfg).parse (ByteParser.ops cfg.prof) (ByteParser.fromBuffer [9, 2, 3]) = .err e st := by
  obtain ⟨p, a, b, c⟩ := cfg
  refine ⟨?_, ?_, ?_, rfl, ?_⟩
  · intro h; cases h
  · intro h; exact h rfl
  · intro h; cases h
  · cases p <;> exact ⟨_, _, rfl⟩

end Verif.Props
