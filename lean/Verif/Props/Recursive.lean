import Verif.Lemmas.Recursive
import Verif.Props.Schema
/-
C52: properties of recursive types.  `d` is any family of mutually recursive type definitions, `d.Val i` the
values of its `i`-th type and `d.codec cfg i` its code.
-/
namespace Verif.Props

open Codec

variable (cfg : Cfg) (d : Decls) {i : Nat}

/-! ### values -/

/-- C52: every value is a value of a finite unfolding of the definition, and different values of an unfolding
are different values of the recursive type. -/
theorem C52_values (a : d.Val i) : (∃ n x, a = d.val n x) ∧ ∀ n (x y : (d.unfold n i).Val), d.val n x = d.val n y → x = y :=
  ⟨d.exists_val a, fun _ _ _ h => d.val_inj h⟩

/-! ### encoding -/

theorem rec_toBytes (n : Nat) (x : (d.unfold n i).Val) :
    (d.codec cfg i).toBytes (d.val n x) = ((d.unfold n i).codec cfg).toBytes x := rfl

theorem rec_valid_wire {a : d.Val i} {b : Bytes} (he : (cfg.encLenOverride = false ∧ d.Valid a) ∨ d.PrefixOk a)
    (hb : (d.codec cfg i).toBytes a = some b) :
    ∃ n x, a = d.val n x ∧ (d.unfold n i).Valid x ∧ (d.unfold n i).wire x = some b ∧
      (cfg.encLenOverride = false ∨ (d.unfold n i).PrefixOk x) := by
  rcases he with ⟨h1, n, x, rfl, hv⟩ | ⟨n, x, rfl, hv, he⟩
  · rw [rec_toBytes, toBytes_wire (.inl h1)] at hb
    exact ⟨n, x, rfl, hv, hb, .inl h1⟩
  · rw [rec_toBytes, toBytes_wire (.inr ⟨hv, he⟩)] at hb
    exact ⟨n, x, rfl, hv, hb, .inr he⟩

/-- C52: the encoding is that of any unfolding that has the value, whichever it is. -/
theorem C52_encode (hcfg : cfg.encLenOverride = false) (n : Nat) (x : (d.unfold n i).Val) :
    (d.codec cfg i).toBytes (d.val n x) = (d.unfold n i).wire x ∧
      ∀ m (y : (d.unfold m i).Val), d.val n x = d.val m y → (d.unfold m i).wire y = (d.unfold n i).wire x := by
  have h1 : ∀ m (y : (d.unfold m i).Val), (d.codec cfg i).toBytes (d.val m y) = (d.unfold m i).wire y :=
    fun m y => (rec_toBytes cfg d m y).trans (toBytes_wire (.inl hcfg))
  exact ⟨h1 n x, fun m y h => by rw [← h1, ← h1, h]⟩

/-- C52: all targets get the same bytes, as many as `write_to` returns. -/
theorem C52_targets_agree (a : d.Val i) :
    ((d.codec cfg i).toBytes a = none ∧ (∀ buf, (d.codec cfg i).write vecTarget a buf = none) ∧
      (∀ t, (d.codec cfg i).write strictTarget a t = none) ∧ (∀ t, (d.codec cfg i).write hexTarget a t = none) ∧
      (∀ t w, MemoBuilder.Holds w t → (d.codec cfg i).write memoTarget a t = none) ∧
      ∀ t, (d.codec cfg i).write sinkTarget a t = none) ∨
    ∃ b, (d.codec cfg i).toBytes a = some b ∧
      (∀ buf, (d.codec cfg i).write vecTarget a buf = some (b.length, buf ++ b)) ∧
      (∀ t, (d.codec cfg i).write strictTarget a t = some (b.length, ⟨t.vec ++ b⟩)) ∧
      (∀ t, (d.codec cfg i).write hexTarget a t = some (b.length, ⟨t.bytes ++ b⟩)) ∧
      (∀ t w, MemoBuilder.Holds w t → t.intoVec = w ∧
        ∃ t', (d.codec cfg i).write memoTarget a t = some (b.length, t') ∧ MemoBuilder.Holds (w ++ b) t' ∧ t'.intoVec = w ++ b) ∧
      ∀ t, (d.codec cfg i).write sinkTarget a t = some (b.length, ()) := by
  obtain ⟨n, x, rfl⟩ := d.exists_val a
  exact C35_targets_agree cfg (d.unfold n i) x

/-- C52: without an `N` of value 0 the length estimate is the length of the encoding. -/
theorem C52_estimate (a : d.Val i) (he : d.EstOk a) (b : Bytes) (hb : (d.codec cfg i).toBytes a = some b) :
    (d.codec cfg i).estimate a = b.length := by
  obtain ⟨n, x, rfl, hv, he⟩ := he
  rw [rec_toBytes, toBytes_wire (.inr ⟨hv, he.prefixOk⟩)] at hb
  have h := (d.unfold n i).estimate_eq cfg x b hv he hb
  have hk : ((d.unfold n i).codec cfg).known = none := ((d.unfold n i).known_eq cfg).trans (d.width n i)
  unfold Codec.estimate at h
  rw [hk] at h
  exact h

/-! ### decoding -/

theorem rec_decodes {n : Nat} {x : (d.unfold n i).Val} {v rest : Bytes}
    (h : ((d.unfold n i).codec cfg).Decodes cfg v x rest) : (d.codec cfg i).Decodes cfg v (d.val n x) rest := by
  intro k vs s hs
  obtain ⟨s', h1, h2⟩ := h k vs s hs
  exact ⟨s', d.parse_ok h1, h2⟩

/-- C52: every parser decodes the encoding of a well-formed value back to it and leaves what follows. -/
theorem C52_round_trip_partial (hst : d.Stable) (ht : ∀ j, (d.body j).tagsOk) {tl : Tail} (htl : (d.body i).tail = some tl)
    (a : d.Val i) (he : (cfg.encLenOverride = false ∧ d.Valid a) ∨ d.PrefixOk a) (b : Bytes)
    (hb : (d.codec cfg i).toBytes a = some b) (rest : Bytes) (hr : tl.Allows rest) :
    (d.codec cfg i).Decodes cfg (b ++ rest) a rest := by
  obtain ⟨n, x, rfl, hv, hw, _⟩ := rec_valid_wire cfg d he hb
  exact rec_decodes cfg d (Parses.decodes ((d.unfold n i).parses cfg)
    ((d.unfold n i).roundTrips cfg (d.tagsOk ht n i) (d.tail hst htl x) x b rest hv hw hr))

theorem decodes_unique {α : Type} {c : Codec α} {cfg : Cfg} {v r r' : Bytes} {a a' : α} (hl : v.length ≤ isizeMax)
    (h : c.Decodes cfg v a r) (h' : c.Decodes cfg v a' r') : a = a' ∧ r = r' := by
  obtain ⟨s, h1, h2⟩ := h .slice [] _ (Backend.holds_init .slice hl)
  obtain ⟨s', h3, h4⟩ := h' .slice [] _ (Backend.holds_init .slice hl)
  rw [h1] at h3
  obtain ⟨e1, e2⟩ := Out.ok.inj h3
  subst e2
  exact ⟨e1, Backend.holds_unique .slice h2 h4⟩

/-- C52: different well-formed values of a uniquely decodable recursive type have different encodings. -/
theorem C52_injective_partial (hst : d.Stable) (ht : ∀ j, (d.body j).tagsOk) {tl : Tail} (htl : (d.body i).tail = some tl)
    (hl : tl.Allows []) (a a' : d.Val i) (he : (cfg.encLenOverride = false ∧ d.Valid a) ∨ d.PrefixOk a)
    (he' : (cfg.encLenOverride = false ∧ d.Valid a') ∨ d.PrefixOk a') (b : Bytes) (hlen : b.length ≤ isizeMax)
    (hb : (d.codec cfg i).toBytes a = some b) (hb' : (d.codec cfg i).toBytes a' = some b) : a = a' := by
  have h1 := C52_round_trip_partial cfg d hst ht htl a he b hb [] hl
  have h2 := C52_round_trip_partial cfg d hst ht htl a' he' b hb' [] hl
  rw [List.append_nil] at h1 h2
  exact (decodes_unique hlen h1 h2).1

/-- C52: what any parser decodes is well-formed and can be encoded again, and every parser decodes that to the same
value.  (Length prefixes around text have to have room for three times the input, see `C47_text_fails`; other
restrictions as in C47.) -/
theorem C52_reencode_partial (hcfg : cfg.encLenOverride = false) (hz : ∀ j, (d.body j).sized = true) (k : Backend)
    (v : Bytes) (vs : List Bytes) (st st' : k.State) (hs : k.Holds v vs st) (a : d.Val i)
    (he : (d.codec cfg i).parse (k.ops cfg.prof) st = .ok a st')
    (hx : (∀ j, (d.body j).textFree = true) ∨ ∀ j, (d.body j).roomy (3 * v.length) = true) :
    d.Valid a ∧ ∃ b rest, (d.codec cfg i).toBytes a = some b ∧ k.Holds rest vs st' ∧ rest.length ≤ v.length ∧
      ((∀ j, (d.body j).textFree = true) → b.length ≤ v.length - rest.length) ∧ b.length ≤ 3 * (v.length - rest.length) ∧
      ∀ tl, d.Stable → (∀ j, (d.body j).tagsOk) → (d.body i).tail = some tl → ∀ t, tl.Allows t →
        (d.codec cfg i).Decodes cfg (b ++ t) a t := by
  obtain ⟨n, x, rfl, hp⟩ := d.parse_inv he
  obtain ⟨hv, b, rest, h1, h2, h3, h4, h5, _⟩ := C47_reencode_partial cfg hcfg (d.unfold n i) (d.sized hz n i) k v vs
    st st' hs x hp (hx.imp (fun h => d.textFree h n i) (fun h => d.textLimit _ h n i))
  have hval : d.Valid (d.val n x) := ⟨n, x, rfl, hv⟩
  exact ⟨hval, b, rest, h1, h2, h3, fun h => h4 (d.textFree h n i), h5,
    fun tl hst ht htl t hr => C52_round_trip_partial cfg d hst ht htl _ (.inl ⟨hcfg, hval⟩) b h1 t hr⟩

/-- C52: without redundant parts in the definitions, decoded values are encoded as the very bytes read. -/
theorem C52_canonical (hcfg : cfg.encLenOverride = false) (hz : ∀ j, (d.body j).sized = true)
    (hc : ∀ j, (d.body j).canonical cfg = true) (k : Backend) (v : Bytes) (vs : List Bytes) (st st' : k.State)
    (hs : k.Holds v vs st) (a : d.Val i) (he : (d.codec cfg i).parse (k.ops cfg.prof) st = .ok a st') :
    ∃ b rest, (d.codec cfg i).toBytes a = some b ∧ v = b ++ rest ∧ k.Holds rest vs st' := by
  obtain ⟨n, x, rfl, hp⟩ := d.parse_inv he
  exact C47_canonical cfg hcfg (d.unfold n i) (d.sized hz n i) (d.canonical cfg hc n i) k v vs st st' hs x hp

/-- C52: if no definition looks at the end of the window, bytes after the end of what is read do not matter. -/
theorem C52_local (hz : ∀ j, (d.body j).sized = true) (hl : ∀ j, (d.body j).isLocal = true) (k : Backend)
    (v : Bytes) (vs : List Bytes) (st st' : k.State) (hs : k.Holds v vs st) (a : d.Val i)
    (he : (d.codec cfg i).parse (k.ops cfg.prof) st = .ok a st') :
    ∃ rest, k.Holds rest vs st' ∧ ∀ t, (d.codec cfg i).Decodes cfg (v ++ t) a (rest ++ t) := by
  obtain ⟨n, x, rfl, hp⟩ := d.parse_inv he
  obtain ⟨rest, h1, h2⟩ := C49_local cfg (d.unfold n i) (d.sized hz n i) (d.isLocal hl n i) k v vs st st' hs x hp
  exact ⟨rest, h1, fun t => rec_decodes cfg d (h2 t)⟩

/-- C52: if recursion happens only after something has been read, decoding any input ends with a value or an error
(or, in debug builds, the panic of `set_fit` on a length prefix that exceeds the input, which SliceParser does not
have).  The Rust stack is assumed to be deep enough. -/
theorem C52_total (hst : d.Stable) (hg : d.Guarded) (k : Backend) (v : Bytes) (vs : List Bytes) (st : k.State)
    (hs : k.Holds v vs st) :
    (∃ a st', (d.codec cfg i).parse (k.ops cfg.prof) st = .ok a st') ∨
    (∃ e st', (d.codec cfg i).parse (k.ops cfg.prof) st = .err e st') ∨
    (d.Windowed ∧ k ≠ .slice ∧ cfg.prof = .debug ∧ (d.codec cfg i).parse (k.ops cfg.prof) st = .panic) := by
  have h := (d.unfold (v.length + 1) i).parses cfg (k.lawful cfg.prof) v vs st hs
  rcases d.totalBelow cfg hst hg (v.length + 1) i v (Nat.lt_succ_self _) with ⟨x, rest, hd⟩ | ⟨e, hd⟩
  · rw [hd] at h
    obtain ⟨s', h1, _⟩ := h
    exact .inl ⟨_, s', d.parse_ok h1⟩
  · rw [hd] at h
    rcases h with ⟨e', s', h1, _⟩ | ⟨⟨hw, hp⟩, h1⟩
    · refine .inr (.inl ⟨e', s', ?_⟩)
      rw [d.parse_eq (by rw [h1]; nofun), M.map_run, h1]
      rfl
    · refine .inr (.inr ⟨?_, ?_, ?_, ?_⟩)
      · apply Classical.byContradiction
        intro hn
        rw [d.windowed hn] at hw
        cases hw
      · rintro rfl; exact hp
      · cases k with
        | byte => exact hp
        | memo => exact hp
        | slice => exact hp.elim
      · rw [d.parse_eq (by rw [h1]; nofun), M.map_run, h1]
        rfl

/-! ### examples -/

/-- `struct U8Seq(u8, Option<AutoBox<U8Seq>>)`, src/autobox.rs:23-36. -/
def u8Seq : Decls where
  body _ := .record (.cons (.int .u8) (.cons (.option (.autobox (.hole 0))) .nil))
  unsized _ _ := rfl

/-- Micheline-like: integers, text and sequences of expressions under a length prefix. -/
def exprs : Decls where
  body _ := .data .u8 (.cons 0 .zarithZ (.cons 1 (.dynamic .u30 .string) (.cons 2 (.dynamic .u30 (.seq (.autobox (.hole 0)))) .nil)))
  unsized _ _ := rfl

/-- A type that is a box of itself. -/
def looping : Decls where
  body _ := .autobox (.hole 0)
  unsized _ _ := rfl

example : u8Seq.Stable ∧ u8Seq.Guarded ∧ (∀ j, (u8Seq.body j).tagsOk) ∧ (∀ j, (u8Seq.body j).isLocal = true) ∧
    (u8Seq.body 0).tail = some .any :=
  ⟨fun _ => ⟨rfl, rfl⟩, fun _ => rfl, fun _ => ⟨trivial, trivial, trivial⟩, fun _ => rfl, rfl⟩

example : exprs.Stable ∧ exprs.Guarded ∧ (∀ j, (exprs.body j).tagsOk) ∧ (exprs.body 0).tail = some .any ∧
    ∀ j, (exprs.body j).roomy 300000000 = true := by
  refine ⟨fun _ => ⟨rfl, rfl⟩, fun _ => rfl, fun _ => ?_, rfl, fun _ => rfl⟩
  simp [exprs, Schema.tagsOk, Variants.tagsOk, Variants.tags, TagWidth.len]

/-- `U8Seq(5, Some(AutoBox::new(U8Seq(7, None))))` -/
def u8Seq57 : u8Seq.Val 0 := u8Seq.val 2 ((5 : BitVec 8), (some ((7 : BitVec 8), (none, ())), ()))

example (cfg : Cfg) : (u8Seq.codec cfg 0).toBytes u8Seq57 = some [0x05, 0xff, 0x07, 0x00] := rfl
example : u8Seq.Valid u8Seq57 :=
  ⟨2, _, rfl, trivial, ⟨fun x h => by cases h; exact ⟨trivial, ⟨nofun, trivial⟩⟩, trivial⟩⟩

theorem looping_diverges (cfg : Cfg) (σ : Type) (P : ParserOps σ) (s : σ) : (looping.codec cfg 0).parse P s = .diverge := by
  have h : ∀ n, ((looping.unfold n 0).codec cfg).parse P s = .diverge := by
    intro n
    induction n with
    | zero => rfl
    | succ n ih => exact ih
  exact dif_neg fun ⟨n, hn⟩ => hn (h n)

/-- C52 needs the guard: decoding a type that is a box of itself never ends, on any input. -/
theorem C52_unguarded_fails (cfg : Cfg) : ∃ d : Decls, d.Stable ∧ ¬ d.Guarded ∧
    ∀ (k : Backend) (st : k.State), (d.codec cfg 0).parse (k.ops cfg.prof) st = .diverge :=
  ⟨looping, fun _ => ⟨rfl, rfl⟩, (fun h => Bool.false_ne_true (h 0)), fun _ st => looping_diverges cfg _ _ st⟩

end Verif.Props
