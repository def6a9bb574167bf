import Verif.Lemmas.HandWritten
import Verif.Lemmas.UserTypes
import Verif.Props.Checked
import Verif.Props.Targets
/-
C94: types whose `Encode`, `Decode` and `Estimable` are implemented by hand go together with the types of the library.
-/
namespace Verif.Props

open Codec

variable {α β : Type} {c : Codec α}

theorem written_means (h : c.Written) : ∃ d, Means (fun _ P => c.parse P) (fun _ => True) d := Composed.means h

theorem means_parses {d : D α} (h : Means (fun _ P => c.parse P) (fun _ => True) d) : c.Parses True d :=
  fun L v vs s hs => (h.refines L v vs s hs).mono fun h => ⟨trivial, h⟩

/-! ### decoding -/

/-- C94: whatever the bytes, a decoder that is written with the methods of `Parser` gives the same with every parser of the
library: the same value, or all fail, or none comes back.  (With the complete-parse check `SliceParser` never succeeds, see
`C43_slice_fails`.) -/
theorem C94_parsers_agree (h : c.Written) (cfg : Cfg) (buf : Bytes) (hb : buf.length ≤ isizeMax) (k k' : Backend)
    (hk : cfg.completeParse = true → k ≠ .slice ∧ k' ≠ .slice) :
    (∃ a, c.tryDecode cfg k buf = .ok a () ∧ c.tryDecode cfg k' buf = .ok a ()) ∨
    (Fails (c.tryDecode cfg k buf) ∧ Fails (c.tryDecode cfg k' buf)) ∨
    (c.tryDecode cfg k buf = .diverge ∧ c.tryDecode cfg k' buf = .diverge) := by
  obtain ⟨d, hd⟩ := written_means h
  exact on_agree (Parses.on (means_parses hd) cfg) (hd.tame buf hb) hb k k' hk

/-- C94: … and errors of `parse` are of the same class. -/
theorem C94_errors (h : c.Written) (cfg : Cfg) (buf : Bytes) (hb : buf.length ≤ isizeMax) (k k' : Backend) (e e' : ParseError)
    (h1 : c.tryDecode cfg k buf = .err (.parse e) ()) (h2 : c.tryDecode cfg k' buf = .err (.parse e') ()) :
    e.kind = e'.kind := by
  obtain ⟨d, hd⟩ := written_means h
  have h1 := on_error (Parses.on (means_parses hd) cfg) (hd.tame buf hb) hb k h1
  have h2 := on_error (Parses.on (means_parses hd) cfg) (hd.tame buf hb) hb k' h2
  rw [h1] at h2
  exact DecRes.err.inj h2

/-- C94: … and in release builds the outcome is the same with all three parsers, panics included. -/
theorem C94_release (h : c.Written) (cfg : Cfg) (hp : cfg.prof = .release) (hc : cfg.completeParse = false) (buf : Bytes)
    (hb : buf.length ≤ isizeMax) (k k' : Backend) :
    (∃ a, c.tryDecode cfg k buf = .ok a () ∧ c.tryDecode cfg k' buf = .ok a ()) ∨
    (∃ e e', c.tryDecode cfg k buf = .err (.parse e) () ∧ c.tryDecode cfg k' buf = .err (.parse e') () ∧ e.kind = e'.kind) ∨
    (c.tryDecode cfg k buf = .panic ∧ c.tryDecode cfg k' buf = .panic) ∨
    (c.tryDecode cfg k buf = .diverge ∧ c.tryDecode cfg k' buf = .diverge) := by
  obtain ⟨d, hd⟩ := written_means h
  have h1 := tryDecode_cases (Parses.on (means_parses hd) cfg) k hb
  have h2 := tryDecode_cases (Parses.on (means_parses hd) cfg) k' hb
  cases hr : d buf with
  | ok a rest =>
    rw [hr] at h1 h2
    obtain ⟨s, _, e⟩ := h1
    obtain ⟨s', _, e'⟩ := h2
    rw [finish_plain hc] at e e'
    exact .inl ⟨a, e, e'⟩
  | err e =>
    rw [hr] at h1 h2
    rcases h1 with ⟨e1, h1, hk1⟩ | ⟨_, _, h1, _⟩
    · rcases h2 with ⟨e2, h2, hk2⟩ | ⟨_, _, h2, _⟩
      · exact .inr (.inl ⟨e1, e2, h1, h2, hk1.trans hk2.symm⟩)
      · rw [hp] at h2; cases h2
    · rw [hp] at h1; cases h1
  | panic => rw [hr] at h1 h2; exact .inr (.inr (.inl ⟨h1, h2⟩))
  | diverge => rw [hr] at h1 h2; exact .inr (.inr (.inr ⟨h1, h2⟩))
  | wild => exact absurd hr (hd.tame buf hb)

/-- C94: such a decoder never reads outside the buffer, in any build. -/
theorem C94_no_ub (h : c.Written) (cfg : Cfg) (buf : Bytes) (hb : buf.length ≤ isizeMax) (k : Backend) :
    c.tryDecode cfg k buf ≠ .ub := by
  obtain ⟨d, hd⟩ := written_means h
  have h := tryDecode_cases (Parses.on (means_parses hd) cfg) k hb
  cases hr : d buf with
  | ok a rest => rw [hr] at h; obtain ⟨s, hs, e⟩ := h; rw [e]; exact finish_no_ub cfg k a hs
  | err e => rw [hr] at h; rcases h with ⟨_, e, _⟩ | ⟨_, _, _, e⟩ <;> rw [e] <;> nofun
  | panic => rw [hr] at h; rw [show _ = _ from h]; nofun
  | diverge => rw [hr] at h; rw [show _ = _ from h]; nofun
  | wild => exact absurd hr (hd.tame buf hb)

/-- C94: in the middle of a buffer, with windows open, such a decoder consumes some of the bytes of the innermost window, and
leaves all windows open. -/
theorem C94_reads_prefix (h : c.Written) (cfg : Cfg) (k : Backend) (v : Bytes) (vs : List Bytes) (st st' : k.State)
    (hv : v.length ≤ isizeMax) (hs : k.Holds v vs st) (a : α) (he : c.parse (k.ops cfg.prof) st = .ok a st') :
    ∃ p rest, v = p ++ rest ∧ k.Holds rest vs st' := by
  obtain ⟨d, hd⟩ := written_means h
  have hm := Parses.on (means_parses hd) cfg k v vs st hs
  rw [he] at hm
  cases hr : d v with
  | ok a' rest =>
    rw [hr] at hm
    obtain ⟨s', e, h3⟩ := hm
    cases e
    obtain ⟨_, p, rfl⟩ := hd.back v a rest hv hr
    exact ⟨p, rest, rfl, h3⟩
  | err e => rw [hr] at hm; rcases hm with ⟨_, _, e, _⟩ | ⟨_, e⟩ <;> cases e
  | panic => rw [hr] at hm; cases hm
  | diverge => rw [hr] at hm; cases hm
  | wild => exact absurd hr (hd.tame v hv)

/-- C94: a parser written by a user, that answers as the windowed cursor does, gives such a decoder what `ByteParser` gives
it. -/
theorem C94_user_parsers {σ : Type} {P : ParserOps σ} (h : c.Written) (p : Profile) (buf : Bytes) (hb : buf.length ≤ isizeMax)
    (st : σ) (hP : P.ActsAs st (Cursor.start buf)) :
    let r := c.parse P st
    let r' := c.parse (ByteParser.ops p) (ByteParser.fromBuffer buf)
    (∃ a st' b', r = .ok a st' ∧ r' = .ok a b' ∧
      ∃ c, P.ActsAs st' c ∧ c.outer = [] ∧ c.top = buf.drop ((ByteParser.ops p).offset b')) ∨
    (∃ e st', r = .err e st' ∧ ((∃ e' b', r' = .err e' b' ∧ e.kind = e'.kind) ∨ (p = .debug ∧ r' = .panic))) ∨
    (r = .panic ∧ r' = .panic) ∨ (r = .diverge ∧ r' = .diverge) := by
  intro r r'
  obtain ⟨d, hd⟩ := written_means h
  have h := hd.refines (acts_lawful (P := P)) buf [] st ⟨0, hP, by simpa [Cursor.unread] using hb⟩
  have h' := hd.refines (byteLawful p buf) buf [] _ ⟨0, ByteRep.start hb⟩
  cases hr : d buf with
  | ok a rest =>
    rw [hr] at h h'
    obtain ⟨st', e1, pos, h2, _⟩ := h
    obtain ⟨b', e1', h2'⟩ := h'
    exact .inl ⟨a, st', b', e1, e1', _, h2, rfl, byteR_position p h2'⟩
  | err e =>
    rw [hr] at h h'
    rcases h with ⟨e1, st', e2, hk⟩ | ⟨hf, _⟩
    · refine .inr (.inl ⟨e1, st', e2, ?_⟩)
      rcases h' with ⟨e1', b', e2', hk'⟩ | ⟨hp, e2'⟩
      · exact .inl ⟨e1', b', e2', hk.trans hk'.symm⟩
      · exact .inr ⟨hp, e2'⟩
    · exact hf.elim
  | panic => rw [hr] at h h'; exact .inr (.inr (.inl ⟨h, h'⟩))
  | diverge => rw [hr] at h h'; exact .inr (.inr (.inr ⟨h, h'⟩))
  | wild => exact absurd hr (hd.tame buf hb)

theorem marshall_le {S : LenPref} {bs : Bytes} (hl : bs.length = S.len) {n : Nat} (h : S.marshall bs = some n) :
    n ≤ isizeMax + 1 := by
  have h1 := isizeMax_ge
  have h2 := ofBe_lt bs
  rw [hl] at h2
  cases S with
  | u8 =>
    cases h
    have h2 : ofBe bs < 256 ^ 1 := h2
    omega
  | u16 =>
    cases h
    have h2 : ofBe bs < 256 ^ 2 := h2
    omega
  | u30 =>
    simp only [LenPref.marshall] at h
    split at h
    · rename_i hr
      cases h
      have hr := restrict_ok_iff.mp hr
      rw [Enc.inRange, if_neg (by decide)] at hr
      have h3 : ((LenPref.u30Max : Nat) : Int) = 1073741823 := rfl
      omega
    · cases h

theorem skipDynamic_eq {σ : Type} (P : ParserOps σ) (S : LenPref) : P.skipDynamic S =
    (S.parseAsUsize P >>= fun lp => do
      P.setFit lp
      let a ← (do P.skipExactly lp; pure lp)
      P.enforceTarget
      pure a) := by
  funext s
  simp only [ParserOps.skipDynamic, ParserOps.processPrefix, M.bind_run]
  cases S.parseAsUsize P s with
  | ok lp s =>
    simp only [Out.bind_ok]
    cases P.setFit lp s with
    | ok _ s =>
      simp only [Out.bind_ok, M.pure_run]
      cases P.skipExactly lp s <;> rfl
    | _ => rfl
  | _ => rfl

/-- C94: the further methods of `Parser` and `ParserExt` are written with those listed in `Written`. -/
theorem C94_methods (n : Nat) (hn : n ≤ isizeMax + 1) :
    Written (fun _ P => P.takeBool) (fun _ => True) ∧ Written (fun _ P => P.takeDynamic n) (fun bs => bs.length = n) ∧
    Written (fun _ P => P.consumeArr n) (fun bs => bs.length = n) ∧ Written (fun _ P => P.takeFixed n) (fun bs => bs.length = n) ∧
    (∀ w valid, Written (fun _ P => ParserOps.takeTagword w (w.parse P) valid) (· ∈ valid)) ∧
    (∀ S : LenPref, Written (fun _ P => P.skipDynamic S) (fun _ => True)) ∧
    (∀ (key : Bytes) (V : Type) (f : Bytes → V), key.length ≤ isizeMax + 1 →
      Written (fun _ P => P.fastKvSearch key n f) (fun _ => True)) := by
  have arr : ∀ {m}, m ≤ isizeMax + 1 → Written (fun _ P => P.consumeArr m) (fun bs => bs.length = m) := fun h =>
    .bind (.consume _ h) fun _ hb => Composed.ite (fun _ => .pure _ hb) fun _ => .throw _ trivial
  refine ⟨?_, .consume n hn, arr hn, arr hn, fun w valid => ?_, fun S => ?_, fun key V f hk => ?_⟩
  · exact .bind .consumeByte fun _ _ => Composed.ite (fun _ => .pure _ trivial) fun _ =>
      Composed.ite (fun _ => .pure _ trivial) fun _ => .throw _ trivial
  · exact .bind (Composed.map (Q' := fun _ => True) _ (Composed.takeFixed _ w.len_le) fun _ _ => trivial) fun t _ =>
      Composed.ite (fun h => .pure _ (List.contains_iff_mem.mp h)) fun _ => Composed.ite (fun _ => .throw _ trivial) fun _ => .throw _ trivial
  · have h1 : Written (fun _ P => S.parseAsUsize P) (· ≤ isizeMax + 1) := .bind (.consume _ S.len_le) fun bs hb => by
      cases hm : S.marshall bs with
      | none => exact .panic
      | some n => exact .pure n (marshall_le hb hm)
    simp only [skipDynamic_eq]
    exact .bind h1 fun lp hl => .window lp hl (.bind (.skipExactly lp hl) fun _ _ => .pure _ trivial)
  · exact .loop (I := fun _ => True) () trivial fun _ _ => .bind .remainder fun _ _ => Composed.ite (fun _ =>
      .bind (arr hk) fun _ _ => Composed.ite (fun _ => .bind (arr hn) fun _ _ => .pure _ trivial)
        fun _ => .bind (.skipExactly n hn) fun _ _ => .pure _ trivial) fun _ => .pure _ trivial

/-- C94: all of this can be used in every hand-written decoder: the decoders of the library's types are written with the
methods of `Parser` as well (`VPadded` only in debug builds, see `C09_fails`). -/
theorem C94_library_types (cfg : Cfg) (s : Schema) (ht : s.tame cfg.prof = true) : (s.codec cfg).Written := s.written cfg ht

/-- C94: the type constructors of the library keep to it, too, around types written by hand. -/
theorem C94_constructors (cfg : Cfg) (h : c.Written) :
    (Codec.option c).Written ∧ (Codec.nullable c).Written ∧ (∀ S, (Codec.dynamic cfg S c).Written) ∧
    (∀ n, n ≤ isizeMax + 1 → (Codec.padded cfg n c).Written) ∧ (cfg.prof = .debug → ∀ n, (Codec.vpadded cfg n c).Written) ∧
    (Codec.seq c).Written ∧ (∀ n, (Codec.fixSeq n c).Written) ∧ (∀ n, (Codec.limSeq n c).Written) ∧
    (Codec.autobox c).Written :=
  ⟨Composed.option h, Composed.nullable h, fun S => Composed.dynamic cfg S h, fun _ hn => Composed.padded cfg hn h,
    fun hp n => Composed.vpadded hp n h, Composed.seq h, fun n => Composed.fixSeq n h, fun n => Composed.limSeq n h,
    Composed.autobox h⟩

/-- C94: … and `data!` and records derived by the macros. -/
theorem C94_derived (h : c.Written) (v : VCodec β) (hv : v.Written) (f : FCodec β) (hf : f.Written) (w : TagWidth) (t : Nat) :
    (VCodec.nil).Written ∧ (VCodec.cons t c v).Written ∧ (Codec.data w v).Written ∧
    (FCodec.nil).Written ∧ (FCodec.cons c f).Written ∧ (Codec.record f).Written :=
  ⟨Composed.vnil, Composed.vcons t h hv, Composed.data w hv, Composed.fnil, Composed.fcons h hf, Composed.record hf⟩

/-! ### encoding -/

/-- C94: an encoder that is written with the methods of `Target` appends the same bytes to every target and returns their
number, or panics on all of them. -/
theorem C94_targets (h : c.Pushes) : c.Appending := h.writes

/-- C94: … and on every target that keeps the documented equations, user-defined ones included, has the visible effect of these
bytes, one after the other. -/
theorem C94_user_targets {τ β : Type} {T : TargetOps τ} {obs : τ → β} {feed : β → Byte → β} (h : c.Pushes)
    (hT : T.Documented obs feed) (x : α) (t : τ) :
    (c.toBytes x = none ∧ c.write T x t = none) ∨
    ∃ b t', c.toBytes x = some b ∧ c.write T x t = some (b.length, t') ∧ obs t' = b.foldl feed (obs t) := by
  have ha := h.writes (documented_lawful hT t) x [] t rfl
  cases he : c.toBytes x with
  | none => rw [he] at ha; exact .inl ⟨rfl, ha⟩
  | some b =>
    rw [he] at ha
    obtain ⟨t', h1, h2⟩ := ha
    exact .inr ⟨b, t', rfl, h1, h2⟩

/-- C94: … and those of the library and its constructors are such. -/
theorem C94_library_encoders (cfg : Cfg) (s : Schema) : (s.codec cfg).Pushes := s.pushes cfg

theorem C94_constructors_encode (cfg : Cfg) (h : c.Pushes) :
    (Codec.option c).Pushes ∧ (Codec.nullable c).Pushes ∧ (∀ S, (Codec.dynamic cfg S c).Pushes) ∧
    (∀ n, (Codec.padded cfg n c).Pushes) ∧ (∀ n, (Codec.vpadded cfg n c).Pushes) ∧
    (Codec.seq c).Pushes ∧ (∀ n, (Codec.fixSeq n c).Pushes) ∧ (∀ n, (Codec.limSeq n c).Pushes) ∧ (Codec.autobox c).Pushes :=
  ⟨Pushed.option h, Pushed.nullable h, fun S => Pushed.dynamic cfg S h, fun n => Pushed.padded cfg n h,
    fun n => Pushed.vpadded cfg n h, Pushed.seq h, fun n => Pushed.fixSeq n h, fun n => Pushed.limSeq n h, Pushed.autobox h⟩

theorem C94_derived_encode (h : c.Pushes) (v : VCodec β) (hv : v.Pushes) (f : FCodec β) (hf : f.Pushes) (w : TagWidth)
    (t : Nat) :
    (VCodec.nil).Pushes ∧ (VCodec.cons t c v).Pushes ∧ (Codec.data w v).Pushes ∧
    (FCodec.nil).Pushes ∧ (FCodec.cons c f).Pushes ∧ (Codec.record f).Pushes :=
  ⟨Pushed.vnil, Pushed.vcons t h hv, Pushed.data w hv, Pushed.fnil, Pushed.fcons h hf, Pushed.record hf⟩

/-! ### both -/

section
variable {cfg : Cfg} {V : α → Prop} {k : Tail} {ne : Bool} {w : Option Nat}

/-- C94: for a type whose implementations go together, decoding gives back what was encoded, with every parser, in the middle of
any input. -/
theorem C94_round_trip (h : Contract cfg c V k ne w) (x : α) (hv : V x) (b : Bytes) (hb : c.toBytes x = some b) (rest : Bytes)
    (hr : k.Allows rest) : c.Decodes cfg (b ++ rest) x rest := by
  obtain ⟨d, hp, ht⟩ := h.parses
  exact Parses.decodes hp (ht x b rest hv hb hr)

/-- C94: … and `T::decode(x.to_bytes())` is `x`. -/
theorem C94_try_decode (h : Contract cfg c V k ne w) (hk : k.Allows []) (x : α) (hv : V x) (b : Bytes)
    (hb : c.toBytes x = some b) (hl : b.length ≤ isizeMax) (p : Backend) (hp : cfg.completeParse = false ∨ p ≠ .slice) :
    c.tryDecode cfg p b = .ok x () := by
  obtain ⟨d, hd, ht⟩ := h.parses
  have h1 := ht x b [] hv hb hk
  rw [List.append_nil] at h1
  have h2 := tryDecode_cases (Parses.on hd cfg) p hl
  rw [h1] at h2
  obtain ⟨s, hs, e⟩ := h2
  rw [e]
  cases hc : cfg.completeParse with
  | false => exact finish_plain hc p x s
  | true => rw [finish_complete hc (hp.resolve_left (by rw [hc]; nofun)) x hs, if_pos rfl]

/-- C94: … so that no two values have the same encoding. -/
theorem C94_injective (h : Contract cfg c V k ne w) (hk : k.Allows []) (x y : α) (hx : V x) (hy : V y) (b : Bytes)
    (h1 : c.toBytes x = some b) (h2 : c.toBytes y = some b) : x = y := by
  obtain ⟨d, _, ht⟩ := h.parses
  have e1 := ht x b [] hx h1 hk
  rw [ht y b [] hy h2 hk] at e1
  exact (DecRes.ok.inj e1).1.symm

/-- C94: it is enough to check this with one parser: if `write_to` and `parse` are written with the methods of `Target` and
`Parser`, and `SliceParser` reads back what was encoded, then so does every parser; what remains to be promised are the lengths. -/
theorem C94_one_parser (hw : c.Pushes) (hp : c.Written)
    (hr : ∀ x b t, V x → c.toBytes x = some b → k.Allows t →
      c.parse SliceParser.ops (SliceParser.fromBuffer (b ++ t)) = .ok x (SliceParser.fromBuffer t))
    (hn : ne = true → ∀ x b, V x → c.toBytes x = some b → b ≠ [])
    (hl : ∀ n, w = some n → ∀ x b, V x → c.toBytes x = some b → b.length = n)
    (he : cfg.encLenOverride = true → ∀ x b, V x → c.toBytes x = some b →
      c.unknown x = b.length ∧ ∀ n, c.known = some n → n = b.length) : Contract cfg c V k ne w := by
  obtain ⟨d, hd⟩ := written_means hp
  refine ⟨hw.writes, ⟨fun v => if v.length ≤ isizeMax then d v else
    match c.parse SliceParser.ops (SliceParser.fromBuffer v) with
    | .ok a s => .ok a (s.views.head?.getD [])
    | _ => .wild, ?_, ?_⟩, hn, hl, he⟩
  · intro σ P pan R L v vs s hs
    simp only [if_pos (L.small hs)]
    exact means_parses hd L v vs s hs
  · intro x b t hv hb ht
    have h1 := hr x b t hv hb ht
    by_cases h : (b ++ t).length ≤ isizeMax
    · simp only [if_pos h]
      have hm := Parses.on (means_parses hd) cfg .slice (b ++ t) [] _ (Backend.holds_init .slice h)
      have h1 : c.parse (Backend.ops cfg.prof .slice) (Backend.init .slice (b ++ t)) = .ok x (SliceParser.fromBuffer t) := h1
      rw [h1] at hm
      cases hq : d (b ++ t) with
      | ok a rest =>
        rw [hq] at hm
        obtain ⟨s', e, h3⟩ := hm
        cases e
        have := slice_views h3
        cases this
        rfl
      | err e => rw [hq] at hm; rcases hm with ⟨_, _, e, _⟩ | ⟨_, e⟩ <;> cases e
      | panic => rw [hq] at hm; cases hm
      | diverge => rw [hq] at hm; cases hm
      | wild => exact absurd hq (hd.tame _ h)
    · simp only [if_neg h, h1]
      rfl

/-- C94: the types of the library go together … -/
theorem C94_schema (s : Schema) (ht : s.tagsOk) (hk : s.tail = some k) :
    Contract cfg (s.codec cfg) (fun x => s.Valid x ∧ (cfg.encLenOverride = true → s.EstOk x)) k s.nonempty s.width :=
  Contract.schema s ht hk

/-- C94: … and the constructors of the library make types that go together out of such types, hand-written ones included:
those that may stand anywhere … -/
theorem C94_compose (h : Contract cfg c V k ne w) :
    Contract cfg (.option c) (fun o => ∀ x, o = some x → V x) k true none ∧ Contract cfg (.autobox c) V k ne w ∧
    (k.Allows [] → ∀ S, Contract cfg (.dynamic cfg S c) V .any true (w.map (S.len + ·))) ∧
    (k.Allows [] → ∀ n, Contract cfg (.vpadded cfg n c) V (.exact n) ne w) ∧
    (∀ n k', (∀ t, k'.Allows t → k.Allows (List.replicate n 0 ++ t)) →
      Contract cfg (.padded cfg n c) V k' (ne || decide (0 < n)) (w.map (· + n))) :=
  ⟨h.option, h.autobox, fun hk S => h.dynamic S hk, fun hk n => h.vpadded n hk, fun n _ hk => h.padded n hk⟩

/-- C94: … those that need something to be there … -/
theorem C94_compose_nonempty (h : Contract cfg c V k true w) (hk : k.Allows []) :
    Contract cfg (.nullable c) (fun o => ∀ x, o = some x → V x) (.exact 0) false none ∧
    (k = .any → Contract cfg (.seq c) (fun xs => ∀ x ∈ xs, V x) (.exact 0) false none ∧
      (∀ n, Contract cfg (.limSeq n c) (fun xs => xs.length ≤ n ∧ ∀ x ∈ xs, V x) (.exact 0) false none) ∧
      ∀ n, Contract cfg (.fixSeq n c) (fun xs => xs.length = n ∧ ∀ x ∈ xs, V x) .any (decide (0 < n)) (w.map (n * ·))) := by
  refine ⟨h.nullable hk, ?_⟩
  rintro rfl
  exact ⟨h.seq, fun n => h.limSeq n, fun n => h.fixSeq n⟩

/-- C94: … the arms of `data!` … -/
theorem C94_compose_data (tw : TagWidth) (h : Contract cfg c V k ne w) (v : VCodec β) (V' : β → Prop) :
    VContract cfg tw .nil (fun _ => True) k ∧
    (VContract cfg tw v V' k → ∀ tag, tag ∉ v.tags → VContract cfg tw (.cons tag c v) (Sum.elim V V') k) ∧
    (VContract cfg tw v V' k → (∀ t ∈ v.tags, t < 256 ^ tw.len) → Contract cfg (.data tw v) V' k true none) :=
  ⟨.nil, fun hv tag ht => .cons tag h hv ht, fun hv ht => Contract.data tw hv ht⟩

/-- C94: … and the fields of records. -/
theorem C94_compose_record (h : Contract cfg c V k ne w) (f : FCodec β) (V' : β → Prop) (k' : Tail) (ne' : Bool)
    (w' : Option Nat) (hf : FContract cfg f V' k' ne' w') :
    FContract cfg .nil (fun _ => True) .any false (some 0) ∧
    (∀ k'' : Tail, (∀ t, k''.Allows t → k'.Allows t ∧
        (k = .any ∨ ∃ m, w' = some m ∧ ∀ b : Bytes, b.length = m → k.Allows (b ++ t))) →
      FContract cfg (.cons c f) (fun x => V x.1 ∧ V' x.2) k'' (ne || ne') (w.bind fun m => w'.map (m + ·))) ∧
    Contract cfg (.record f) V' k' ne' w' := by
  refine ⟨.nil, fun k'' hk => ?_, .record hf⟩
  have := FContract.cons h hf hk
  cases w <;> cases w' <;> exact this

/-- C94: the contract says that `Dynamic` announces the right length: what follows the prefix is the encoding of the value. -/
theorem C94_prefix (S : LenPref) (h : Contract cfg c V k ne w) (x : α) (hv : V x) (b : Bytes)
    (hb : (Codec.dynamic cfg S c).toBytes x = some b) :
    ∃ b', c.toBytes x = some b' ∧ b'.length ≤ S.maxLen ∧ b = toBe S.len b'.length ++ b' := by
  rw [Writes.toBytes (Codec.dynamic_writes cfg S h.writes) x] at hb
  obtain ⟨l, b', h1, h2, h3, rfl⟩ := Enc.dynamic_eq_some.mp hb
  obtain rfl := h.lenOf x b' l hv h3 h1
  exact ⟨b', h3, h2, rfl⟩

end

/-! ### the examples of the documentation -/

theorem pair_pushes : pairCodec.Pushes := fun x => .add (.pushMany _) (Pushed.int .i8 x.2)

theorem pair_written : pairCodec.Written :=
  .bind (Composed.takeFixed 2 (by decide)) fun _ _ => .bind (Composed.int .i8) fun _ _ =>
    Composed.dite (fun _ => .pure _ trivial) fun _ => .panic

theorem elem_pushes : myTypeElem.Pushes := fun x => .add (Pushed.done (.pushOne _)) (Pushed.int .u8 x.2)

theorem elem_written : myTypeElem.Written :=
  .bind (Schema.written ⟨.debug, false, false, false⟩ .bool rfl) fun _ _ => .bind (Composed.int .u8) fun _ _ => .pure _ trivial

theorem pair_bytes (x : ByteArr 2 × IntTy.Val .i8) : pairCodec.toBytes x = some (x.1.1 ++ toBe 1 x.2.toNat) := by
  rfl

theorem elem_bytes (x : Bool × IntTy.Val .u8) :
    myTypeElem.toBytes x = some ((if x.1 then 0xff else 0x00) :: toBe 1 x.2.toNat) := by
  obtain ⟨a, b⟩ := x
  cases a <;> rfl

theorem run_ok {σ α β : Type} {m : PM σ α} {f : α → PM σ β} {s s' : σ} {a : α} (h : m s = .ok a s') :
    (m >>= f) s = f a s' := by
  show (m s).bind _ = _
  rw [h]
  rfl

theorem slice_take (a t : Bytes) :
    SliceParser.ops.takeFixed a.length (SliceParser.fromBuffer (a ++ t)) = .ok a (SliceParser.fromBuffer t) := by
  have : SliceParser.ops.consume a.length (SliceParser.fromBuffer (a ++ t)) = .ok a (SliceParser.fromBuffer t) := by
    simp [SliceParser.ops, SliceParser.consume, SliceParser.fromBuffer, SliceParser.splitUnchecked]
  show (SliceParser.ops.consume a.length _).bind _ = _
  rw [this]
  show (if a.length = a.length then _ else _ : PM _ _) _ = _
  rw [if_pos rfl]
  rfl

theorem slice_int (ty : IntTy) (x : ty.Val) (t : Bytes) :
    (Codec.int ty).parse SliceParser.ops (SliceParser.fromBuffer (toBe ty.len x.toNat ++ t)) =
      .ok x (SliceParser.fromBuffer t) := by
  have := slice_take (toBe ty.len x.toNat) t
  rw [toBe_length] at this
  show (SliceParser.ops.takeFixed ty.len _).bind _ = _
  rw [this]
  exact congrArg (Out.ok · _) (IntTy.ofBe_toBe ty x)

/-- C94: `Pair`, for which `Encode`, `Decode` and `FixedLength` are implemented by hand (src/parse/mod.rs:1334-1360), goes
together, and so can stand wherever a type of the library can. -/
theorem C94_pair (cfg : Cfg) : Contract cfg pairCodec (fun _ => True) .any true (some 3) := by
  have hl : ∀ (x : ByteArr 2 × IntTy.Val .i8) b, pairCodec.toBytes x = some b → b.length = 3 := by
    rintro ⟨⟨a, ha⟩, y⟩ b hb
    rw [pair_bytes] at hb
    cases hb
    rw [List.length_append, toBe_length, ha]
  refine C94_one_parser pair_pushes pair_written ?_ ?_ ?_ ?_
  · rintro ⟨⟨a, ha⟩, y⟩ b t _ hb _
    rw [pair_bytes] at hb
    cases hb
    have h1 := slice_take a (toBe 1 y.toNat ++ t)
    have h2 := slice_int .i8 y t
    rw [ha, ← List.append_assoc] at h1
    refine (run_ok h1).trans ((run_ok h2).trans ?_)
    rw [dif_pos ha]
    rfl
  · rintro _ x b _ hb rfl
    cases hl x [] hb
  · rintro n ⟨⟩ x b _ hb
    exact hl x b hb
  · intro _ x b _ hb
    rw [hl x b hb]
    exact ⟨rfl, fun n hn => (Option.some.inj hn).symm⟩

/-- C94: the element type of the documentation of `Decode` (src/conv/mod.rs:233-249). -/
theorem C94_my_type_elem (cfg : Cfg) : Contract cfg myTypeElem (fun _ => True) .any true (some 2) := by
  have hl : ∀ (x : Bool × IntTy.Val .u8) b, myTypeElem.toBytes x = some b → b.length = 2 := by
    rintro ⟨a, y⟩ b hb
    rw [elem_bytes] at hb
    cases hb
    rw [List.length_cons, toBe_length]
  refine C94_one_parser elem_pushes elem_written ?_ ?_ ?_ ?_
  · rintro ⟨a, y⟩ b t _ hb _
    rw [elem_bytes] at hb
    cases hb
    have h2 := slice_int .u8 y t
    have h1 : SliceParser.ops.takeBool (SliceParser.fromBuffer ((if a then 0xff else 0x00) :: (toBe 1 y.toNat ++ t))) =
        .ok a (SliceParser.fromBuffer (toBe 1 y.toNat ++ t)) := by
      cases a <;> rfl
    exact (run_ok h1).trans ((run_ok h2).trans rfl)
  · rintro _ x b _ hb rfl
    cases hl x [] hb
  · rintro n ⟨⟩ x b _ hb
    exact hl x b hb
  · intro _ x b _ hb
    rw [hl x b hb]
    exact ⟨rfl, fun n hn => (Option.some.inj hn).symm⟩

theorem myType_parse {σ : Type} (P : ParserOps σ) : myType.parse P = (Codec.seq myTypeElem).parse P := rfl

/-- C94: … and the type made of it (src/conv/mod.rs:237-256). -/
theorem C94_my_type (cfg : Cfg) : Contract cfg myType (fun _ => True) (.exact 0) false none := by
  obtain ⟨h1, ⟨d, h2, h3⟩, _, _, h4⟩ := (C94_my_type_elem cfg).seq
  refine ⟨h1, ⟨d, fun L v vs s hs => ?_, fun x b t _ hb ht => h3 x b t (fun _ _ => trivial) hb ht⟩, nofun, nofun,
    fun ho x b _ hb => ⟨(h4 ho x b (fun _ _ => trivial) hb).1, nofun⟩⟩
  rw [myType_parse]
  exact h2 L v vs s hs

/-- C94: the assertion of the documentation (src/conv/mod.rs:258-260), with every parser. -/
theorem C94_documented (cfg : Cfg) (k : Backend) (hk : cfg.completeParse = false ∨ k ≠ .slice) :
    myType.tryDecode cfg k [0xff, 0x2a] = .ok [(true, 42)] () :=
  C94_try_decode (C94_my_type cfg) rfl _ trivial _ rfl (by decide) k hk

/-- A hand-written type in types of the library: `Dynamic<u30, Sequence<Pair>>` … -/
example (cfg : Cfg) : Contract cfg (.dynamic cfg .u30 (.seq pairCodec)) (fun xs => ∀ x ∈ xs, True) .any true none :=
  (C94_compose ((C94_compose_nonempty (C94_pair cfg) trivial).2 rfl).1).2.2.1 rfl .u30

/-- … an enum with it in one arm and a type of the library in the other … -/
example (cfg : Cfg) :
    Contract cfg (.data .u8 (.cons 0 pairCodec (.cons 7 (Schema.codec cfg (.dynamic .u30 .string)) .nil)))
      (Sum.elim (fun _ => True) (Sum.elim (fun x => Schema.Valid (.dynamic .u30 .string) x ∧
        (cfg.encLenOverride = true → Schema.EstOk (.dynamic .u30 .string) x)) fun _ => True)) .any true none :=
  (C94_compose_data .u8 (C94_pair cfg) _ _).2.2
    ((C94_compose_data .u8 (C94_pair cfg) _ _).2.1
      ((C94_compose_data .u8 (C94_schema (.dynamic .u30 .string) trivial rfl) _ _).2.1
        (C94_compose_data .u8 (C94_pair cfg) .nil fun _ => True).1 7 nofun) 0 (by show 0 ∉ [7]; decide))
    (by show ∀ t ∈ [0, 7], _; decide)

/-- … and a record that ends with it: the sequence before it takes all but the last three bytes. -/
example (cfg : Cfg) :
    Contract cfg (.record (.cons (.vpadded cfg 3 (.seq myTypeElem)) (.cons pairCodec .nil)))
      (fun x => (∀ y ∈ x.1, True) ∧ True ∧ True) (.exact 0) true none := by
  have h1 := (C94_compose_record (C94_pair cfg) .nil _ .any _ _ .nil).2.1 .any fun _ _ => ⟨trivial, .inl rfl⟩
  have h2 := (C94_compose ((C94_compose_nonempty (C94_my_type_elem cfg) trivial).2 rfl).1).2.2.2.1 rfl 3
  have h3 := (C94_compose_record h2 _ _ .any _ _ h1).2.1 (.exact 0) fun t ht =>
    ⟨trivial, .inr ⟨3, rfl, fun b hb => by
      have ht : t.length = 0 := ht
      show (b ++ t).length = 3
      rw [List.length_append]; omega⟩⟩
  exact (C94_compose_record (C94_pair cfg) _ _ _ _ _ h3).2.2

/-- Elements that take no bytes do not go together with `Sequence`. -/
theorem C94_nonempty_needed (cfg : Cfg) (k : Tail) (hk : k.Allows []) (ne : Bool) (w : Option Nat) :
    ¬ Contract cfg (Codec.seq (Schema.codec cfg .unit)) (fun _ => True) k ne w := fun h => by
  have := C94_injective h hk [] [()] trivial trivial [] rfl rfl
  cases this

/-- C94 does not extend to decoders that go on after an error: `ByteParser` abandons the bytes of the window that could not be
closed to the enclosing one, `SliceParser` skips them. -/
theorem C94_recovery_fails (cfg : Cfg) (hc : cfg.completeParse = false) :
    careless.tryDecode cfg .byte [1, 2, 3] = .ok [1, 2, 3] () ∧ careless.tryDecode cfg .slice [1, 2, 3] = .ok [3] () := by
  obtain ⟨p, a, b, c⟩ := cfg
  cases hc
  cases p <;> exact ⟨rfl, rfl⟩

/-- A decoder with a loop and a window in it: bytes up to a zero byte, then a block of as many bytes as were read. -/
example : Written (fun _ P => do
    let n ← iterM (fun n => do
      let b ← P.consumeByte
      if b = 0 then pure (Sum.inr n) else pure (Sum.inl (if n < 255 then n + 1 else 0))) 0
    P.setFit n
    let a ← (do let r ← P.remainder; P.takeDynamic r)
    P.enforceTarget
    pure a) (fun _ => True) :=
  .bind (Composed.loop (I := (· ≤ 255)) (Q := (· ≤ 255)) 0 (by decide) fun n hn => .bind .consumeByte fun _ _ =>
      Composed.ite (fun _ => .pure _ hn) fun _ => .pure _ (by show ite _ _ _ ≤ 255; split <;> omega)) fun n hn =>
    .window n (by have := isizeMax_ge; omega) (.bind .remainder fun r hr =>
      .weaken (fun _ _ => trivial) (.consume r (Nat.le_succ_of_le hr)))

end Verif.Props
