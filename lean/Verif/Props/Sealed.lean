import Verif.Lemmas.Sealed
import Verif.Props.Decode
import Verif.Props.Recursive
import Verif.Props.Dynamic
/-
C96: parts under a length prefix, or in front of reserved bytes, can be left undecoded and be decoded later.
-/
namespace Verif.Props

open Verif Codec

/-- The bytes, which fit in memory, are an encoding of the part as a whole. -/
def Whole (cfg : Cfg) (t : Schema) (b : Bytes) (x : t.Val) : Prop := b.length ≤ isizeMax ∧ (t.codec cfg).Decodes cfg b x []

/-- The bytes are what the part is encoded as. -/
def Written (cfg : Cfg) (t : Schema) (b : Bytes) (x : t.Val) : Prop := (t.codec cfg).toBytes x = some b

theorem decodes_iff {cfg : Cfg} {s : Schema} (hz : s.sized = true) {v : Bytes} (hv : v.length ≤ isizeMax) {a : s.Val} {rest : Bytes} :
    (s.codec cfg).Decodes cfg v a rest ↔ s.dec cfg v = .ok a rest := by
  constructor
  · intro h
    obtain ⟨st, h1, h2⟩ := h .slice [] _ (Backend.holds_init .slice hv)
    obtain ⟨r, h3, h4⟩ := s.inv cfg hz (Backend.holds_init .slice hv) h1
    rw [h3, Backend.holds_unique .slice h2 h4]
  · exact Parses.decodes (s.parses cfg)

/-- C96, decoding: a type decodes bytes to a value exactly if the type that leaves parts undecoded decodes them, leaving
the same rest, to a value whose undecoded parts decode to the parts of that value, and which is that value otherwise. -/
theorem C96_decodes {s s' : Schema} (h : Sealed s s') (cfg : Cfg) (hz : s.sized = true) (hz' : s'.sized = true) (v : Bytes)
    (hv : v.length ≤ isizeMax) (a : s.Val) (rest : Bytes) :
    (s.codec cfg).Decodes cfg v a rest ↔ ∃ a', (s'.codec cfg).Decodes cfg v a' rest ∧ h.Opens (Whole cfg) a' a := by
  rw [decodes_iff hz hv, h.twoStep cfg isizeMax v hv a rest]
  constructor
  · rintro ⟨a', h1, h2⟩
    exact ⟨a', (decodes_iff hz' hv).2 h1, h.opens_imp (fun t b x ht hx => ⟨hx.1, (decodes_iff ht hx.1).2 hx.2⟩) hz a' a h2⟩
  · rintro ⟨a', h1, h2⟩
    exact ⟨a', (decodes_iff hz' hv).1 h1, h.opens_imp (fun t b x ht hx => ⟨hx.1, (decodes_iff ht hx.1).1 hx.2⟩) hz a' a h2⟩

/-- C96, `try_decode`: the same for whole inputs.  (`SliceParser` rejects everything if complete parses are asked for,
see `C43_slice_fails`.) -/
theorem C96_try_decode {s s' : Schema} (h : Sealed s s') (cfg : Cfg) (hz : s.sized = true) (hz' : s'.sized = true) (k : Backend)
    (hk : cfg.completeParse = false ∨ k ≠ .slice) (buf : Bytes) (hb : buf.length ≤ isizeMax) (a : s.Val) :
    (s.codec cfg).tryDecode cfg k buf = .ok a () ↔
      ∃ a', (s'.codec cfg).tryDecode cfg k buf = .ok a' () ∧ h.Opens (Whole cfg) a' a := by
  by_cases hc : cfg.completeParse = false
  · rw [C43_without cfg hc s hz k buf hb a]
    constructor
    · rintro ⟨rest, hd⟩
      obtain ⟨a', h1, h2⟩ := (C96_decodes h cfg hz hz' buf hb a rest).1 hd
      exact ⟨a', (C43_without cfg hc s' hz' k buf hb a').2 ⟨rest, h1⟩, h2⟩
    · rintro ⟨a', h1, h2⟩
      obtain ⟨rest, hd⟩ := (C43_without cfg hc s' hz' k buf hb a').1 h1
      exact ⟨rest, (C96_decodes h cfg hz hz' buf hb a rest).2 ⟨a', hd, h2⟩⟩
  · have hk := hk.resolve_left hc
    have hc : cfg.completeParse = true := by simpa using hc
    rw [C43_with_partial cfg hc s hz k hk buf hb a, C96_decodes h cfg hz hz' buf hb a []]
    constructor
    · rintro ⟨a', h1, h2⟩
      exact ⟨a', (C43_with_partial cfg hc s' hz' k hk buf hb a').2 h1, h2⟩
    · rintro ⟨a', h1, h2⟩
      exact ⟨a', (C43_with_partial cfg hc s' hz' k hk buf hb a').1 h1, h2⟩

/-- C96, on a parser in any state: where decoding everything succeeds, leaving parts undecoded does, and the parser is
left with the same bytes to read. -/
theorem C96_parse {s s' : Schema} (h : Sealed s s') (cfg : Cfg) (hz : s.sized = true) (k : Backend) (v : Bytes)
    (hv : v.length ≤ isizeMax) (vs : List Bytes) (st st1 : k.State) (hs : k.Holds v vs st) (a : s.Val)
    (he : (s.codec cfg).parse (k.ops cfg.prof) st = .ok a st1) :
    ∃ a' st2 rest, (s'.codec cfg).parse (k.ops cfg.prof) st = .ok a' st2 ∧ k.Holds rest vs st1 ∧ k.Holds rest vs st2 ∧
      h.Opens (Whole cfg) a' a := by
  obtain ⟨rest, h1, h2⟩ := s.inv cfg hz hs he
  obtain ⟨a', h3, h4⟩ := (h.twoStep cfg isizeMax v hv a rest).1 h1
  obtain ⟨st2, h5, h6⟩ := Parses.decodes (s'.parses cfg) h3 k vs st hs
  exact ⟨a', st2, rest, h5, h2, h6, h.opens_imp (fun t b x ht hx => ⟨hx.1, (decodes_iff ht hx.1).2 hx.2⟩) hz a' a h4⟩

/-- C96, encoding: a value is encoded as the value with encoded parts is, if lengths are measured or the estimates are right. -/
theorem C96_encode {s s' : Schema} (h : Sealed s s') (cfg : Cfg) (a : s.Val)
    (he : cfg.encLenOverride = false ∨ (s.Valid a ∧ s.PrefixOk a)) (b : Bytes) :
    (s.codec cfg).toBytes a = some b ↔ ∃ a', h.Opens (Written cfg) a' a ∧ (s'.codec cfg).toBytes a' = some b := by
  have h1 : ∀ a', h.Opens (Written cfg) a' a ↔ h.Opens EncAll a' a := by
    intro a'
    rcases he with hc | hp
    · have hw : ∀ (t : Schema) (x : t.Val), (t.codec cfg).toBytes x = t.wire x := fun t x => toBytes_wire (.inl hc)
      exact ⟨h.opens_any (fun t b x hx => (hw t x).symm.trans hx) a' a, h.opens_any (fun t b x hx => (hw t x).trans hx) a' a⟩
    · exact ⟨h.opens_of_ok (fun t b x hv hx e => (toBytes_wire (.inr ⟨hv, hx⟩)).symm.trans e) a' a hp,
        h.opens_of_ok (fun t b x hv hx e => (toBytes_wire (.inr ⟨hv, hx⟩)).trans e) a' a hp⟩
  have h2 : ∀ a', h.Opens EncAll a' a → (s'.codec cfg).toBytes a' = s'.wire a' := fun a' ha =>
    toBytes_wire (he.imp id fun hp => ⟨(h.keeps a' a ha).1 hp.1, (h.keeps a' a ha).2.1 hp.2⟩)
  rw [toBytes_wire he]
  constructor
  · intro e
    obtain ⟨a', ha⟩ := h.seal a b e
    exact ⟨a', (h1 a').2 ha, by rw [h2 a' ha, h.wire_eq a' a ha, e]⟩
  · rintro ⟨a', ha, e⟩
    have ha := (h1 a').1 ha
    rw [h2 a' ha, h.wire_eq a' a ha] at e
    exact e

/-- C96: the part is zero, whose estimate is wrong, and estimates are trusted: then what was written without the length is
announced with the right one. -/
theorem C96_override_fails (p : Profile) (a b : Bool) :
    ((Schema.dynamic .u8 .zarithN).codec ⟨p, true, a, b⟩).toBytes (0 : Nat) = some [0x00, 0x00] ∧
    (Sealed.prefixed .u8 .zarithN).Opens (Written ⟨p, true, a, b⟩) ([0x00] : Bytes) (0 : Nat) ∧
    ((Schema.dynamic .u8 .bytes).codec ⟨p, true, a, b⟩).toBytes ([0x00] : Bytes) = some [0x01, 0x00] :=
  ⟨(C45_override_fails p a b).1, (C45_override_fails p a b).2, (Codec.Writes.toBytes (Schema.writes_out _ _) _).trans rfl⟩

/-! ### recursive types -/

theorem whole_sim {cfg : Cfg} {d : Decls} (n : Nat) (t : Schema) (b : Bytes) (x : (t.fill (d.unfold n)).Val)
    (h : Whole cfg (t.fill (d.unfold n)) b x) : Whole cfg (t.fill (d.unfold (n + 1))) b (t.mapFill (d.lift n) x) := by
  refine ⟨h.1, fun k vs s hs => ?_⟩
  obtain ⟨s', h1, h2⟩ := h.2 k vs s hs
  rcases (t.sim cfg fun j => d.lift_sim cfg n j).parse (k.ops cfg.prof) s with e | e
  · rw [h1] at e; cases e
  · exact ⟨s', by rw [e, M.map_run, h1]; rfl, h2⟩

theorem deeper_decodes {cfg : Cfg} {d : Decls} {n m i : Nat} (hm : n ≤ m) {v rest : Bytes} {x : (d.unfold n i).Val}
    (h : ((d.unfold n i).codec cfg).Decodes cfg v x rest) :
    ∃ y, d.val m y = d.val n x ∧ ((d.unfold m i).codec cfg).Decodes cfg v y rest := by
  induction hm with
  | refl => exact ⟨x, rfl, h⟩
  | step _ ih =>
    obtain ⟨y, h1, h2⟩ := ih
    refine ⟨d.lift _ i y, (d.val_lift _ y).trans h1, fun k vs s hs => ?_⟩
    obtain ⟨s', h3, h4⟩ := h2 k vs s hs
    rcases (d.lift_sim cfg _ i).parse (k.ops cfg.prof) s with e | e
    · rw [h3] at e; cases e
    · exact ⟨s', by rw [e, M.map_run, h3]; rfl, h4⟩

theorem rec_decodes_inv {cfg : Cfg} {d : Decls} (hz : ∀ j, (d.body j).sized = true) {i : Nat} {v rest : Bytes}
    (hv : v.length ≤ isizeMax) {a : d.Val i} (h : (d.codec cfg i).Decodes cfg v a rest) :
    ∃ n x, a = d.val n x ∧ ((d.unfold n i).codec cfg).Decodes cfg v x rest := by
  obtain ⟨st, h1, h2⟩ := h .slice [] _ (Backend.holds_init .slice hv)
  obtain ⟨n, x, rfl, hp⟩ := d.parse_inv h1
  obtain ⟨r, h3, h4⟩ := (d.unfold n i).inv cfg (d.sized hz n i) (Backend.holds_init .slice hv) hp
  rw [Backend.holds_unique .slice h4 h2] at h3
  exact ⟨n, x, rfl, Parses.decodes ((d.unfold n i).parses cfg) h3⟩

/-- C96 for families of recursive types, one of which leaves parts of the other undecoded: parts may mention the types of
the family, so that one looks at one level of a message at a time. -/
theorem C96_recursive {d d' : Decls} (w : ∀ i, Sealed (d.body i) (d'.body i)) (cfg : Cfg) (hz : ∀ j, (d.body j).sized = true)
    (hz' : ∀ j, (d'.body j).sized = true) (i : Nat) (v : Bytes) (hv : v.length ≤ isizeMax) (a : d.Val i) (rest : Bytes) :
    (d.codec cfg i).Decodes cfg v a rest ↔
      ∃ a', (d'.codec cfg i).Decodes cfg v a' rest ∧ Decls.Opens w (Whole cfg) a' a := by
  constructor
  · intro h
    obtain ⟨n, x, rfl, hx⟩ := rec_decodes_inv hz hv h
    obtain ⟨x', h1, h2⟩ := (C96_decodes (Decls.sealed w n i) cfg (d.sized hz n i) (d'.sized hz' n i) v hv x rest).1 hx
    exact ⟨d'.val n x', rec_decodes cfg d' h1, n, x', x, rfl, rfl, h2⟩
  · rintro ⟨a', h1, n, x', x, rfl, rfl, h2⟩
    obtain ⟨m, z', hz1, hz2⟩ := rec_decodes_inv hz' hv h1
    obtain ⟨y', y, e1, e2, h3⟩ := Decls.opens_deeper w (O := Whole cfg) whole_sim (Nat.le_max_left n m) h2
    obtain ⟨u', e3, h4⟩ := deeper_decodes (Nat.le_max_right n m) hz2
    have e4 : u' = y' := d'.val_inj (e3.trans (hz1.symm.trans e1.symm))
    subst e4
    rw [← e2]
    exact rec_decodes cfg d ((C96_decodes (Decls.sealed w (max n m) i) cfg (d.sized hz _ i) (d'.sized hz' _ i) v hv y rest).2 ⟨u', h4, h3⟩)

/-- C96 for families of recursive types, encoding: the value is one of some unfolding of the family, and in every such
view of it the estimates are right. -/
theorem C96_recursive_encode {d d' : Decls} (w : ∀ i, Sealed (d.body i) (d'.body i)) (cfg : Cfg) (i : Nat) (a : d.Val i)
    (he : cfg.encLenOverride = false ∨
      ∀ n (x : (d.unfold n i).Val), d.val n x = a → (d.unfold n i).Valid x ∧ (d.unfold n i).PrefixOk x) (b : Bytes) :
    (d.codec cfg i).toBytes a = some b ↔ ∃ a', Decls.Opens w (Written cfg) a' a ∧ (d'.codec cfg i).toBytes a' = some b := by
  constructor
  · obtain ⟨⟨n, x⟩, rfl⟩ := Quot.exists_rep a
    intro h
    obtain ⟨x', h1, h2⟩ := (C96_encode (Decls.sealed w n i) cfg x (he.imp_right fun h => h n x rfl) b).1 h
    exact ⟨d'.val n x', ⟨n, x', x, rfl, rfl, h1⟩, h2⟩
  · rintro ⟨_, ⟨n, x', x, rfl, rfl, h1⟩, h2⟩
    exact (C96_encode (Decls.sealed w n i) cfg x (he.imp_right fun h => h n x rfl) b).2 ⟨x', h1, h2⟩

/-! ### examples -/

/-- A number and, under a length prefix, another one and a truth value. -/
def letter : Schema := .record (.cons (.int .u8) (.cons (.dynamic .u8 (.record (.cons (.int .u16) (.cons .bool .nil)))) .nil))

/-- The same with the inside left undecoded. -/
def envelope : Schema := .record (.cons (.int .u8) (.cons (.dynamic .u8 .bytes) .nil))

def letterEnvelope : Sealed letter envelope := .record (.cons (.same _) (.cons (.prefixed .u8 _) .nil))

/-- The hypotheses are met by a message which is decoded in two steps; one with a bad inside still has a good outside. -/
example : letter.sized = true ∧ envelope.sized = true := ⟨rfl, rfl⟩

example (cfg : Cfg) : (letter.codec cfg).Decodes cfg [7, 3, 1, 2, 0xff, 9] ((7, (258, true, ()), ()) : BitVec 8 × (BitVec 16 × Bool × Unit) × Unit) [9] ∧
    (envelope.codec cfg).Decodes cfg [7, 3, 1, 2, 0xff, 9] ((7, [1, 2, 0xff], ()) : BitVec 8 × Bytes × Unit) [9] ∧
    letterEnvelope.Opens (Whole cfg) ((7, [1, 2, 0xff], ()) : BitVec 8 × Bytes × Unit) ((7, (258, true, ()), ()) : BitVec 8 × (BitVec 16 × Bool × Unit) × Unit) :=
  ⟨Parses.decodes (letter.parses cfg) rfl, Parses.decodes (envelope.parses cfg) rfl,
    rfl, ⟨Nat.le_trans (by decide) isizeMax_ge, Parses.decodes (Schema.parses cfg _) rfl⟩, trivial⟩

example (cfg : Cfg) : (envelope.codec cfg).Decodes cfg [7, 3, 1, 2, 5, 9] ((7, [1, 2, 5], ()) : BitVec 8 × Bytes × Unit) [9] ∧
    ¬∃ a rest, (letter.codec cfg).Decodes cfg [7, 3, 1, 2, 5, 9] a rest := by
  refine ⟨Parses.decodes (envelope.parses cfg) rfl, ?_⟩
  rintro ⟨a, rest, h⟩
  have := (decodes_iff (s := letter) rfl (Nat.le_trans (by decide) isizeMax_ge)).1 h
  cases this

example (cfg : Cfg) (hc : cfg.encLenOverride = false) :
    (letter.codec cfg).toBytes ((7, (258, true, ()), ()) : BitVec 8 × (BitVec 16 × Bool × Unit) × Unit) = some [7, 3, 1, 2, 0xff] ∧
    letter.Valid ((7, (258, true, ()), ()) : BitVec 8 × (BitVec 16 × Bool × Unit) × Unit) ∧
    letter.PrefixOk ((7, (258, true, ()), ()) : BitVec 8 × (BitVec 16 × Bool × Unit) × Unit) :=
  ⟨(toBytes_wire (.inl hc)).trans rfl, ⟨trivial, ⟨trivial, trivial, trivial⟩, trivial⟩, ⟨trivial, ⟨trivial, trivial, trivial⟩, trivial⟩⟩

/-- The expressions of Verif/Props/Recursive.lean with the arguments left undecoded: a type that is not recursive. -/
def heads : Decls where
  body _ := .data .u8 (.cons 0 .zarithZ (.cons 1 (.dynamic .u30 .string) (.cons 2 (.dynamic .u30 .bytes) .nil)))
  unsized _ _ := rfl

def exprs_sealed : ∀ i, Sealed (exprs.body i) (heads.body i) := fun _ =>
  .data .u8 (.cons 0 (.same _) (.cons 1 (.same _) (.cons 2 (.prefixed .u30 _) .nil)))

example : (∀ i, (exprs.body i).sized = true) ∧ ∀ i, (heads.body i).sized = true := ⟨fun _ => rfl, fun _ => rfl⟩

end Verif.Props
