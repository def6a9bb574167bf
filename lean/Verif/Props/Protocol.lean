import Verif.Lemmas.Protocol
/-
C100: several messages through one target and one parser, where the types of the later ones depend on the earlier ones.
-/
namespace Verif.Props

open Codec Protocol

/-- C100: written one after the other to any target (one of the library's, or one of a user that keeps the documented
equations), the messages of a run arrive as their encodings one after the other, whatever the target held before; the sum of
what the calls return is the number of bytes.  The run panics if one message cannot be encoded. -/
theorem C100_writes (cfg : Cfg) {τ β : Type} {T : TargetOps τ} {obs : τ → β} {feed : β → Byte → β} (hT : T.Documented obs feed)
    (p : Protocol) (r : p.Run) (t : τ) :
    match p.bytes cfg r with
    | none => p.write cfg T r t = none
    | some b => ∃ t', p.write cfg T r t = some (b.length, t') ∧ obs t' = b.foldl feed (obs t) := by
  have := p.writes (cfg := cfg) (documented_lawful hT t) r [] t rfl
  cases h : p.bytes cfg r with
  | none => rw [h] at this; exact this
  | some b => rw [h] at this; exact this

theorem C100_writes_vec (cfg : Cfg) (p : Protocol) (r : p.Run) (buf : Bytes) :
    p.write cfg vecTarget r buf = (p.bytes cfg r).map fun b => (b.length, buf ++ b) := by
  have := p.writes (cfg := cfg) vecLawful r buf buf rfl
  cases h : p.bytes cfg r with
  | none => rw [h] at this; exact this
  | some b =>
    rw [h] at this
    obtain ⟨t', h1, rfl⟩ := this
    exact h1

/-- C100: in the middle of any input, with any windows open, every parser reads the run back and leaves what follows. -/
theorem C100_round_trip (cfg : Cfg) (p : Protocol) {tl : Tail} (ho : p.Ok tl) (r : p.Run) (hv : p.Valid cfg r) (b : Bytes)
    (hb : p.bytes cfg r = some b) (rest : Bytes) (hr : tl.Allows rest) (k : Backend) (vs : List Bytes) (st : k.State)
    (hs : k.Holds (b ++ rest) vs st) :
    ∃ st', p.read cfg (k.ops cfg.prof) st = .ok r st' ∧ k.Holds rest vs st' :=
  Parses.decodes (c := p.codec cfg) p.parses (p.roundTrips ho r b rest hv hb hr) k vs st hs

/-- C100: a run is told from every other run, and from the beginning of every other run, by its bytes: at each moment sender
and receiver agree on the type of the next message. -/
theorem C100_unique (cfg : Cfg) (p : Protocol) (ho : p.Ok .any) (r r' : p.Run) (hv : p.Valid cfg r) (hv' : p.Valid cfg r')
    (b t : Bytes) (hb : p.bytes cfg r = some b) (hb' : p.bytes cfg r' = some (b ++ t)) : r = r' ∧ t = [] := by
  have h1 := p.roundTrips ho r b t hv hb trivial
  have h2 := p.roundTrips ho r' (b ++ t) [] hv' hb' trivial
  rw [List.append_nil, h1] at h2
  cases h2
  exact ⟨rfl, rfl⟩

/-- C100: of a run that was cut off anywhere, every parser says that input is missing (or panics, where debug builds do). -/
theorem C100_cut (cfg : Cfg) (p : Protocol) (ho : p.Ok .any) (r : p.Run) (hv : p.Valid cfg r) (b v t : Bytes)
    (hb : p.bytes cfg r = some b) (hl : b.length ≤ isizeMax) (hbt : b = v ++ t) (hn : t ≠ []) (k : Backend) (vs : List Bytes)
    (st : k.State) (hs : k.Holds v vs st) :
    (∃ e st', p.read cfg (k.ops cfg.prof) st = .err e st' ∧ e.WantsMore t.length) ∨
    (p.Windowed ∧ k ≠ .slice ∧ cfg.prof = .debug ∧ p.read cfg (k.ops cfg.prof) st = .panic) := by
  rcases cut_parse (Parses.on (p.parses (cfg := cfg)) cfg) (.inl (p.cuts ho r b v t hv hb hl hbt hn) : CutRes .any t.length _)
    k vs st hs with h | h | h
  · exact .inl h
  · exact .inr h
  · exact absurd rfl h.1

/-- C100: what has arrived can be read at once.  When `n` bytes of a run and of what follows it are there, the first `m`
messages can be read if and only if their encodings are there; what is read then are the messages sent. -/
theorem C100_progress (cfg : Cfg) (p : Protocol) (ho : p.Ok .any) (r : p.Run) (hv : p.Valid cfg r) (b rest : Bytes)
    (hb : p.bytes cfg r = some b) (hl : b.length ≤ isizeMax) (m n : Nat) :
    ∃ b1, (p.take m).bytes cfg (Run.take m p r) = some b1 ∧ ∀ (k : Backend) (vs : List Bytes) (st : k.State),
      k.Holds ((b ++ rest).take n) vs st →
      (b1.length ≤ n ↔ ∃ r' st', (p.take m).read cfg (k.ops cfg.prof) st = .ok r' st') ∧
      ∀ r' st', (p.take m).read cfg (k.ops cfg.prof) st = .ok r' st' →
        r' = Run.take m p r ∧ k.Holds (((b ++ rest).take n).drop b1.length) vs st' := by
  obtain ⟨b1, b2, h1, rfl⟩ := bytes_take m p r b hb
  refine ⟨b1, h1, fun k vs st hs => ?_⟩
  have hv' := valid_take m p r hv
  rw [List.length_append] at hl
  by_cases hn : b1.length ≤ n
  · have e : ((b1 ++ b2) ++ rest).take n = b1 ++ (b2 ++ rest).take (n - b1.length) := by
      rw [List.append_assoc, List.take_append, List.take_of_length_le hn]
    rw [e] at hs ⊢
    obtain ⟨st', h2, h3⟩ := C100_round_trip cfg (p.take m) (ho.take m) _ hv' b1 h1 _ trivial k vs st hs
    refine ⟨⟨fun _ => ⟨_, st', h2⟩, fun _ => hn⟩, fun r' st'' h => ?_⟩
    rw [h2] at h
    cases h
    rw [List.drop_left]
    exact ⟨rfl, h3⟩
  · have e : ((b1 ++ b2) ++ rest).take n = b1.take n := by
      rw [List.append_assoc, List.take_append_of_le_length (by omega)]
    rw [e] at hs ⊢
    have hno : ∀ r' st', (p.take m).read cfg (k.ops cfg.prof) st ≠ .ok r' st' := fun r' st' h => by
      rcases C100_cut cfg (p.take m) (ho.take m) _ hv' b1 (b1.take n) (b1.drop n) h1 (by omega) (List.take_append_drop n b1).symm
        (fun h => by have := congrArg List.length h; simp at this; omega) k vs st hs with ⟨e, st', h2, _⟩ | ⟨_, _, _, h2⟩ <;>
        · rw [h2] at h
          cases h
    exact ⟨⟨fun h => absurd h hn, fun ⟨r', st', h⟩ => absurd h (hno r' st')⟩, fun r' st' h => absurd h (hno r' st')⟩

/-- C100: whatever the bytes, and however the types depend on them: reading a run never reads outside the buffer, and gives the
same with every parser.  (Missing: types with `VPadded` outside of `Dynamic` in release builds, which are not `tame`; see C09_fails.) -/
theorem C100_any_input_partial (cfg : Cfg) (p : Protocol) (ht : p.All fun s => s.tame cfg.prof = true) (buf : Bytes)
    (hb : buf.length ≤ isizeMax) (k k' : Backend) :
    p.read cfg (k.ops cfg.prof) (k.init buf) ≠ .ub ∧
    ∀ r st, p.read cfg (k.ops cfg.prof) (k.init buf) = .ok r st →
      ∃ n st', p.read cfg (k'.ops cfg.prof) (k'.init buf) = .ok r st' ∧ k.Holds (buf.drop n) [] st ∧ k'.Holds (buf.drop n) [] st' := by
  obtain ⟨d, hd⟩ := written_means (p.written ht)
  have h1 := Parses.on (means_parses hd) cfg k buf [] _ (k.holds_init hb)
  have h2 := Parses.on (means_parses hd) cfg k' buf [] _ (k'.holds_init hb)
  have e1 : (p.codec cfg).parse (k.ops cfg.prof) = p.read cfg (k.ops cfg.prof) := rfl
  have e2 : (p.codec cfg).parse (k'.ops cfg.prof) = p.read cfg (k'.ops cfg.prof) := rfl
  rw [e1] at h1
  rw [e2] at h2
  cases hr : d buf with
  | ok a rest =>
    rw [hr] at h1 h2
    obtain ⟨s1, g1, r1⟩ := h1
    obtain ⟨s2, g2, r2⟩ := h2
    obtain ⟨_, q, rfl⟩ := hd.back buf a rest hb hr
    refine ⟨by rw [g1]; nofun, fun r st h => ?_⟩
    rw [g1] at h
    cases h
    exact ⟨q.length, s2, g2, by rwa [List.drop_left], by rwa [List.drop_left]⟩
  | err e =>
    rw [hr] at h1
    rcases h1 with ⟨_, _, g, _⟩ | ⟨_, g⟩ <;> rw [g] <;> exact ⟨nofun, nofun⟩
  | panic => rw [hr] at h1; rw [show _ = _ from h1]; exact ⟨nofun, nofun⟩
  | diverge => rw [hr] at h1; rw [show _ = _ from h1]; exact ⟨nofun, nofun⟩
  | wild => exact absurd hr (hd.tame buf hb)

/-- C100: if the types that can come up have one encoding per value, what was read is, written again, the very bytes read. -/
theorem C100_rewrite (cfg : Cfg) (hc : cfg.encLenOverride = false) (p : Protocol) (h : p.All fun s => s.canonical cfg = true)
    (ht : p.All fun s => s.tame cfg.prof = true) (buf : Bytes) (hb : buf.length ≤ isizeMax) (k : Backend) (r : p.Run) (st : k.State)
    (he : p.read cfg (k.ops cfg.prof) (k.init buf) = .ok r st) :
    ∃ b rest, p.bytes cfg r = some b ∧ buf = b ++ rest ∧ k.Holds rest [] st := by
  have h1 := Parses.on (p.parses (cfg := cfg)) cfg k buf [] _ (k.holds_init hb)
  rw [show (p.codec cfg).parse (k.ops cfg.prof) = p.read cfg (k.ops cfg.prof) from rfl, he] at h1
  cases hr : p.dec cfg buf with
  | ok a rest =>
    rw [hr] at h1
    obtain ⟨s1, g1, r1⟩ := h1
    cases g1
    obtain ⟨b, e, rfl⟩ := p.canonical hc h buf r rest hr
    exact ⟨b, rest, e, rfl, r1⟩
  | err e => rw [hr] at h1; rcases h1 with ⟨_, _, g, _⟩ | ⟨_, g⟩ <;> cases g
  | panic => rw [hr] at h1; cases h1
  | diverge => rw [hr] at h1; cases h1
  | wild => exact absurd hr (p.tame_dec ht buf)

/-- Bytes that do not announce their length, and a number. -/
def unframed : Protocol := .msg .bytes fun _ => .msg (.int .u8) fun _ => .done

/-- C100 fails for a message that does not delimit itself, unless it is the last one: it swallows the next ones. -/
theorem C100_fails (cfg : Cfg) (k : Backend) :
    unframed.bytes cfg ⟨([1] : Bytes), (2 : BitVec 8), ()⟩ = some [1, 2] ∧
    ∃ e st, unframed.read cfg (k.ops cfg.prof) (k.init [1, 2]) = .err e st := by
  refine ⟨rfl, ?_⟩
  cases k <;> exact ⟨_, _, rfl⟩

/-! ### examples -/

/-- A number, and text without a length at the end. -/
def note' : Protocol := .msg (.int .u16) fun _ => .msg .string fun _ => .done


/-- `n` messages of the same type. -/
def copies (s : Schema) : Nat → Protocol
  | 0 => .done
  | n + 1 => .msg s fun _ => copies s n

/-- A number, and as many byte strings. -/
def mails : Protocol := .msg (.int .u8) fun n => copies (.dynamic .u8 .bytes) n.toNat

def twoMails : mails.Run := ⟨(2 : BitVec 8), ([7] : Bytes), ([8, 9] : Bytes), ()⟩

theorem copies_ok (s : Schema) (h : s.tagsOk ∧ s.tail = some .any) : ∀ n, (copies s n).Ok .any
  | 0 => trivial
  | n + 1 => ⟨h.1, .inl ⟨h.2, fun _ _ => copies_ok s h n⟩⟩

theorem copies_all {P : Schema → Prop} {s : Schema} (h : P s) : ∀ n, (copies s n).All P
  | 0 => trivial
  | n + 1 => ⟨h, fun _ => copies_all h n⟩

example : mails.Ok .any := ⟨trivial, .inl ⟨rfl, fun _ _ => copies_ok (.dynamic .u8 .bytes) ⟨trivial, rfl⟩ _⟩⟩
example (cfg : Cfg) : mails.All fun s => s.tame cfg.prof = true := ⟨rfl, fun _ => copies_all (P := fun s => s.tame cfg.prof = true) (s := .dynamic .u8 .bytes) rfl _⟩
example (cfg : Cfg) : mails.All fun s => s.canonical cfg = true := ⟨rfl, fun _ => copies_all (P := fun s => s.canonical cfg = true) (s := .dynamic .u8 .bytes) rfl _⟩
example (cfg : Cfg) : mails.Valid cfg twoMails :=
  ⟨trivial, .inr trivial, trivial, .inr trivial, trivial, .inr trivial, trivial⟩
example (cfg : Cfg) : mails.bytes cfg twoMails = some [2, 1, 7, 2, 8, 9] ∧
    (mails.take 2).bytes cfg (Run.take 2 mails twoMails) = some [2, 1, 7] :=
  have h (x : Bytes) (b : Bytes) (hb : (Schema.dynamic .u8 .bytes).wire x = some b) :
      ((Schema.dynamic .u8 .bytes).codec cfg).toBytes x = some b :=
    (toBytes_wire (s := .dynamic .u8 .bytes) (.inr ⟨trivial, trivial⟩)).trans hb
  ⟨bytes_cons.mpr ⟨[2], [1, 7, 2, 8, 9], rfl, bytes_cons.mpr ⟨[1, 7], [2, 8, 9], h _ _ (by with_unfolding_all rfl),
      bytes_cons.mpr ⟨[2, 8, 9], [], h _ _ (by with_unfolding_all rfl), rfl, rfl⟩, rfl⟩, rfl⟩,
    bytes_cons.mpr ⟨[2], [1, 7], rfl, bytes_cons.mpr ⟨[1, 7], [], h _ _ (by with_unfolding_all rfl), rfl, rfl⟩, rfl⟩⟩
example : note'.Ok (.exact 0) := ⟨trivial, .inl ⟨rfl, fun _ _ => ⟨trivial, .inr ⟨rfl, fun _ => rfl⟩⟩⟩⟩
example : vecTarget.Documented id fun b x => b ++ [x] := (C73_library).1

end Verif.Props
