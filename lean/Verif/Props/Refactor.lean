import Verif.Lemmas.RefactorOut
import Verif.Props.Decode
import Verif.Props.Recursive
/-
C80: rearranging a type – boxing, newtypes, nested structs, order of arms, `Option` as an enum … – keeps its wire format.
-/
namespace Verif.Props

open Verif

/-! ### encoding -/

/-- C80, encoding: corresponding values have the same bytes, or encoding them panics for both; and they have the same
lengths, also where these are estimates.  (With the feature `enc_len_estimable_override` for proper values only, cf.
`C80_override_fails`.) -/
theorem C80_encode {s s' : Schema} (h : Refactor s s') (cfg : Cfg) (x : s.Val) (he : cfg.encLenOverride = false ∨ s.Valid x) :
    (s'.codec cfg).toBytes (h.iso.to x) = (s.codec cfg).toBytes x ∧
    ∀ b, (s.codec cfg).toBytes x = some b →
      (s'.codec cfg).encLen cfg (h.iso.to x) = (s.codec cfg).encLen cfg x ∧
      (cfg.encLenOverride = false → (s.codec cfg).encLen cfg x = some b.length) ∧
      (s.Valid x → (s'.codec cfg).estimate (h.iso.to x) = (s.codec cfg).estimate x) := by
  have ht : (s'.codec cfg).toBytes (h.iso.to x) = (s.codec cfg).toBytes x := by
    rcases he with he | hv
    · rw [toBytes_wire (.inl he), toBytes_wire (.inl he)]
      exact h.fmt.wire x
    · rw [Codec.Writes.toBytes (s'.writes_out cfg), Codec.Writes.toBytes (s.writes_out cfg)]
      exact (h.sim cfg).out x hv
  refine ⟨ht, fun b hb => ?_⟩
  have hb' := hb
  rw [Codec.Writes.toBytes (s.writes_out cfg)] at hb'
  refine ⟨?_, fun hn => (C36_agree cfg s x b hb).2.2.2.2.2.2.2.2 hn, fun hv => ((h.sim cfg).lenOf cfg x b hv hb').1⟩
  rcases he with he | hv
  · exact ((C36_agree cfg s' _ b (ht.trans hb)).2.2.2.2.2.2.2.2 he).trans ((C36_agree cfg s x b hb).2.2.2.2.2.2.2.2 he).symm
  · rw [Codec.encLen_eq (s'.writes_out cfg), Codec.encLen_eq (s.writes_out cfg)]
    exact ((h.sim cfg).lenOf cfg x b hv hb').2

/-- C80 fails for a fixed-size sequence that was never filled, when length estimates are trusted: a payload-free enum may be
written by either macro, but the announced lengths of none of two differ. -/
theorem C80_override_fails (p : Profile) (a b : Bool) :
    ((Schema.dynamic .u8 (.fixSeq 2 (.cstyle .u8 [1]))).codec ⟨p, true, a, b⟩).toBytes ([] : List (CEnum [1])) = some [2] ∧
    ((Schema.dynamic .u8 (.fixSeq 2 (.data .u8 (.units [1])))).codec ⟨p, true, a, b⟩).toBytes ([] : List (Variants.units [1]).Val) = some [0] ∧
    (Refactor.inDynamic .u8 (.inFixSeq 2 (.plainEnum .u8 [1] (by decide)))).iso.to ([] : List (CEnum [1])) = ([] : List (Variants.units [1]).Val) :=
  ⟨(Codec.Writes.toBytes (Schema.writes_out _ _) _).trans rfl, (Codec.Writes.toBytes (Schema.writes_out _ _) _).trans rfl, rfl⟩

/-! ### decoding -/

/-- Decoding with two codecs, one of which reads what the other reads. -/
theorem decode_move {α β : Type} {c : Codec α} {c' : Codec β} {f : α → β} {cfg : Cfg} {k : Backend} {buf : Bytes}
    (h : ∀ a st, c.parse (k.ops cfg.prof) (k.init buf) = .ok a st →
      ∃ rest st', k.Holds rest [] st ∧ c'.parse (k.ops cfg.prof) (k.init buf) = .ok (f a) st' ∧ k.Holds rest [] st') {a : α}
    (hd : c.tryDecode cfg k buf = .ok a ()) : c'.tryDecode cfg k buf = .ok (f a) () := by
  unfold Codec.tryDecode at hd ⊢
  cases hp : c.parse (k.ops cfg.prof) (k.init buf) with
  | ok x st =>
    rw [hp] at hd
    obtain ⟨rest, st', h1, h2, h3⟩ := h x st hp
    rw [h2]
    have hd : k.finish cfg x st = .ok a () := hd
    show k.finish cfg (f x) st' = _
    cases hc : cfg.completeParse with
    | false =>
      rw [finish_plain hc] at hd ⊢
      rw [(Out.ok.inj hd).1]
    | true =>
      by_cases hk : k = .slice
      · subst hk
        obtain ⟨l, e, _⟩ := finish_slice hc x h1
        rw [e] at hd
        cases hd
      · rw [finish_complete hc hk x h1] at hd
        rw [finish_complete hc hk (f x) h3]
        split at hd
        · next hr => rw [if_pos hr, (Out.ok.inj hd).1]
        · cases hd
  | _ => rw [hp] at hd; cases hd

theorem decodeFrom_move {α β : Type} {c : Codec α} {c' : Codec β} {f : α → β} {cfg : Cfg} {ih : Bool} {k : Backend} {inp : Input}
    (h : ∀ buf a, inp.toBuffer ih = some (.ok buf) → c.tryDecode cfg k buf = .ok a () → c'.tryDecode cfg k buf = .ok (f a) ()) {a : α}
    (hd : c.tryDecodeFrom cfg ih k inp = .ok a ()) : c'.tryDecodeFrom cfg ih k inp = .ok (f a) () := by
  unfold Codec.tryDecodeFrom at hd ⊢
  cases hi : inp.toBuffer ih with
  | none => rw [hi] at hd; cases hd
  | some r =>
    rw [hi] at hd
    cases r with
    | error e => cases hd
    | ok buf => exact h buf a hi hd

theorem parse_move {s s' : Schema} {f : s.Val → s'.Val} {cfg : Cfg} (hz : s.sized = true) (h : Acc f (s.dec cfg) (s'.dec cfg)) {k : Backend}
    {v : Bytes} {vs : List Bytes} {st st' : k.State} {a : s.Val} (hs : k.Holds v vs st) (hp : (s.codec cfg).parse (k.ops cfg.prof) st = .ok a st') :
    ∃ rest st₂, k.Holds rest vs st' ∧ (s'.codec cfg).parse (k.ops cfg.prof) st = .ok (f a) st₂ ∧ k.Holds rest vs st₂ := by
  obtain ⟨rest, h1, h2⟩ := s.inv cfg hz hs hp
  obtain ⟨st₂, h3, h4⟩ := Codec.Parses.decodes (cfg := cfg) (s'.parses cfg) (h v a rest h1) k vs st hs
  exact ⟨rest, st₂, h2, h3, h4⟩

/-- C80, parsing: wherever a value of the one type is read, with any of the parsers, the corresponding value of the other
is read from the same bytes, and the same bytes are left. -/
theorem C80_parse {s s' : Schema} (h : Refactor s s') (cfg : Cfg) (k : Backend) {v : Bytes} {vs : List Bytes} {st : k.State}
    (hs : k.Holds v vs st) :
    (s.sized = true → ∀ x st', (s.codec cfg).parse (k.ops cfg.prof) st = .ok x st' → ∃ rest st₂, k.Holds rest vs st' ∧
      (s'.codec cfg).parse (k.ops cfg.prof) st = .ok (h.iso.to x) st₂ ∧ k.Holds rest vs st₂) ∧
    (s'.sized = true → ∀ y st', (s'.codec cfg).parse (k.ops cfg.prof) st = .ok y st' → ∃ rest st₂, k.Holds rest vs st' ∧
      (s.codec cfg).parse (k.ops cfg.prof) st = .ok (h.iso.back y) st₂ ∧ k.Holds rest vs st₂) :=
  ⟨fun hz _ _ hp => parse_move hz (h.fmt.to cfg) hs hp, fun hz _ _ hp => parse_move hz (h.fmt.back cfg) hs hp⟩

/-- C80, `try_decode`: an input is accepted as a value of the one type exactly if it is as the corresponding value of the
other, by any parser and with or without the check that all of it has been read. -/
theorem C80_decode {s s' : Schema} (h : Refactor s s') (cfg : Cfg) (hz : s.sized = true) (hz' : s'.sized = true) (ih : Bool) (k : Backend)
    (inp : Input) (hl : ∀ buf, inp.toBuffer ih = some (.ok buf) → buf.length ≤ isizeMax) (x : s.Val) :
    (s.codec cfg).tryDecodeFrom cfg ih k inp = .ok x () ↔ (s'.codec cfg).tryDecodeFrom cfg ih k inp = .ok (h.iso.to x) () := by
  constructor
  · exact decodeFrom_move fun buf a hi => decode_move fun a st hp => parse_move hz (h.fmt.to cfg) (k.holds_init (hl buf hi)) hp
  · intro hd
    have := decodeFrom_move (c' := s.codec cfg) (f := h.iso.back)
      (fun buf a hi => decode_move fun a st hp => parse_move hz' (h.fmt.back cfg) (k.holds_init (hl buf hi)) hp) hd
    rw [h.iso.back_to] at this
    exact this

/-- C80: an input that is not accepted as a value of the one type is not accepted as one of the other. -/
theorem C80_reject {s s' : Schema} (h : Refactor s s') (cfg : Cfg) (hz : s.sized = true) (hz' : s'.sized = true) (ih : Bool) (k : Backend)
    (inp : Input) (hl : ∀ buf, inp.toBuffer ih = some (.ok buf) → buf.length ≤ isizeMax) :
    (∃ x, (s.codec cfg).tryDecodeFrom cfg ih k inp = .ok x ()) ↔ ∃ y, (s'.codec cfg).tryDecodeFrom cfg ih k inp = .ok y () :=
  ⟨fun ⟨x, hx⟩ => ⟨_, (C80_decode h cfg hz hz' ih k inp hl x).1 hx⟩, fun ⟨y, hy⟩ => ⟨h.iso.back y,
    (C80_decode h cfg hz hz' ih k inp hl _).2 (by rw [h.iso.to_back]; exact hy)⟩⟩

/-! ### recursive types -/

theorem rec_move {d d' : Decls} {i : Nat} {f : d.Val i → d'.Val i} {g : ∀ n, (d.unfold n i).Val → (d'.unfold n i).Val} {cfg : Cfg}
    (hf : ∀ n x, f (d.val n x) = d'.val n (g n x)) (hz : ∀ j, (d.body j).sized = true)
    (h : ∀ n, Acc (g n) ((d.unfold n i).dec cfg) ((d'.unfold n i).dec cfg)) {k : Backend}
    {v : Bytes} {vs : List Bytes} {st st' : k.State} {a : d.Val i} (hs : k.Holds v vs st)
    (hp : (d.codec cfg i).parse (k.ops cfg.prof) st = .ok a st') :
    ∃ rest st₂, k.Holds rest vs st' ∧ (d'.codec cfg i).parse (k.ops cfg.prof) st = .ok (f a) st₂ ∧ k.Holds rest vs st₂ := by
  obtain ⟨n, x, rfl, hp'⟩ := d.parse_inv hp
  obtain ⟨rest, st₂, h1, h2, h3⟩ := parse_move (d.sized hz n i) (h n) hs hp'
  rw [hf]
  exact ⟨rest, st₂, h1, d'.parse_ok h2, h3⟩

/-- C80 for recursive types: when each definition of the family is a rearrangement of the other family's. -/
theorem C80_recursive {d d' : Decls} (w : ∀ i, Refactor (d.body i) (d'.body i)) (cfg : Cfg) (i : Nat) :
    (∀ a, (cfg.encLenOverride = false ∨ d.Valid a) → (d'.codec cfg i).toBytes ((Decls.valIso w i).to a) = (d.codec cfg i).toBytes a) ∧
    ((∀ j, (d.body j).sized = true) → (∀ j, (d'.body j).sized = true) → ∀ (ih : Bool) (k : Backend) (inp : Input),
      (∀ buf, inp.toBuffer ih = some (.ok buf) → buf.length ≤ isizeMax) → ∀ a,
      ((d.codec cfg i).tryDecodeFrom cfg ih k inp = .ok a () ↔
        (d'.codec cfg i).tryDecodeFrom cfg ih k inp = .ok ((Decls.valIso w i).to a) ())) := by
  refine ⟨fun a he => ?_, fun hz hz' ih k inp hl a => ⟨?_, fun hd => ?_⟩⟩
  · rcases he with hcfg | ⟨n, x, rfl, hv⟩
    · obtain ⟨n, x, rfl⟩ := d.exists_val a
      show (d'.codec cfg i).toBytes (d'.val n ((Decls.iso w n i).to x)) = _
      rw [rec_toBytes, rec_toBytes, toBytes_wire (.inl hcfg), toBytes_wire (.inl hcfg)]
      exact (Decls.fmt w n i).wire x
    · show (d'.codec cfg i).toBytes (d'.val n ((Decls.iso w n i).to x)) = _
      rw [rec_toBytes, rec_toBytes, Codec.Writes.toBytes (Schema.writes_out cfg _), Codec.Writes.toBytes (Schema.writes_out cfg _)]
      exact (Decls.sim cfg w n i).out x hv
  · exact decodeFrom_move fun buf a hi => decode_move fun a st hp =>
      rec_move (g := fun n => (Decls.iso w n i).to) (fun _ _ => rfl) hz (fun n => (Decls.fmt w n i).to cfg) (k.holds_init (hl buf hi)) hp
  · have := decodeFrom_move (c' := d.codec cfg i) (f := (Decls.valIso w i).back)
      (fun buf a hi => decode_move fun a st hp =>
        rec_move (g := fun n => (Decls.iso w n i).back) (fun _ _ => rfl) hz' (fun n => (Decls.fmt w n i).back cfg) (k.holds_init (hl buf hi)) hp) hd
    rw [(Decls.valIso w i).back_to] at this
    exact this

/-! ### what is not a rearrangement -/

/-- `VPadded<_, 0>` adds nothing to the encoding, but it cannot be left out: its payload has to end where the readable
bytes end. -/
theorem C80_vpadded_fails (cfg : Cfg) (hc : cfg.completeParse = false) :
    (∀ x, (Schema.vpadded 0 (.int .u8)).wire x = (Schema.int .u8).wire x) ∧
    ((Schema.int .u8).codec cfg).tryDecode cfg .byte [1, 2] = .ok 1#8 () ∧
    ∀ x, ((Schema.vpadded 0 (.int .u8)).codec cfg).tryDecode cfg .byte [1, 2] ≠ .ok x () := by
  obtain ⟨p, enc, pad, c⟩ := cfg
  cases hc
  refine ⟨fun _ => rfl, by cases p <;> rfl, fun x h => ?_⟩
  obtain ⟨rest, _, h, _⟩ := tryDecode_inv (s := .vpadded 0 (.int .u8)) rfl (by decide) h
  cases h

/-! ### examples -/

/-- `struct { header: Header, op: Op, sig: Option<()> }` with `struct Header { version: u8, ok: bool }` … -/
def operation : Schema := .record (.cons (.record (.cons (.int .u8) (.cons .bool .nil)))
  (.cons (.data .u8 (.cons 1 (.autobox .string) (.cons 2 (.option (.int .u16)) .nil))) (.cons (.option .unit) .nil)))

/-- … and written in another way. -/
def operation2 : Schema := .record (.cons (.int .u8) (.cons (.cstyle .u8 [0, 255])
  (.cons (.data .u8 (.cons 2 (.data .u8 (.cons 0 .unit (.cons 255 (.int .u16) .nil))) (.cons 1 .string .nil))) (.cons .bool .nil))))

def operation_same : Refactor operation operation2 :=
  .inRecord (.trans (.flatten _ _) (.cons (.refl _) (.cons .boolEnum (.cons
    (.inData .u8 (.trans (.cons 1 (.autobox .string) (.cons 2 (.optionArms _) (.refl .nil))) (.swap 1 2 _ _ .nil (by decide))))
    (.cons .optionUnit (.refl .nil))))))

example : operation.sized = true ∧ operation2.sized = true := ⟨rfl, rfl⟩

example : operation_same.iso.to ((7#8, true, ()), Sum.inr (Sum.inl (some 1#16)), none, ()) =
    (7#8, ⟨255, .tail _ (.head _)⟩, Sum.inl (Sum.inr (Sum.inl 1#16)), false, ()) := rfl

example : operation.wire ((7#8, true, ()), Sum.inr (Sum.inl (some 1#16)), none, ()) = some [7, 255, 2, 255, 0, 1, 0] ∧
    operation2.wire (7#8, ⟨255, .tail _ (.head _)⟩, Sum.inl (Sum.inr (Sum.inl 1#16)), false, ()) = some [7, 255, 2, 255, 0, 1, 0] :=
  ⟨rfl, rfl⟩

/-- The lists of Verif/Props/Recursive.lean without the box and with the option as an enum. -/
def u8Seq2 : Decls where
  body _ := .record (.cons (.int .u8) (.cons (.data .u8 (.cons 0 .unit (.cons 255 (.hole 0) .nil))) .nil))
  unsized _ _ := rfl

def u8Seq_same : ∀ i, Refactor (u8Seq.body i) (u8Seq2.body i) := fun _ =>
  .inRecord (.cons (.refl _) (.cons (.trans (.inOption (.autobox _)) (.optionArms _)) (.refl .nil)))

example : (∀ j, (u8Seq.body j).sized = true) ∧ (∀ j, (u8Seq2.body j).sized = true) := ⟨fun _ => rfl, fun _ => rfl⟩

example : (Decls.valIso u8Seq_same 0).to u8Seq57 =
    u8Seq2.val 2 ((5 : BitVec 8), (Sum.inr (Sum.inl ((7 : BitVec 8), (Sum.inl (), ()))), ())) := rfl

example (cfg : Cfg) : (u8Seq2.codec cfg 0).toBytes ((Decls.valIso u8Seq_same 0).to u8Seq57) = some [0x05, 0xff, 0x07, 0x00] := rfl

end Verif.Props
