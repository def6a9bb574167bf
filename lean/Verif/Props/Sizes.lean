import Verif.Lemmas.Sizes
import Verif.Lemmas.Sound
import Verif.Props.Decode
import Verif.Props.Recursive
/-
C99: the sizes messages can have.
-/
namespace Verif.Props

open Codec

/-! ### reading and writing -/

/-- C99, reading: what is consumed when a value is decoded, from whatever parser in whatever state and in every build, has one of the
sizes the type has messages of. -/
theorem C99_read (cfg : Cfg) (s : Schema) (hz : s.sized = true) (k : Backend) (v : Bytes) (vs : List Bytes) (st st' : k.State) (x : s.Val)
    (hs : k.Holds v vs st) (he : (s.codec cfg).parse (k.ops cfg.prof) st = .ok x st') :
    ∃ u v', v = u ++ v' ∧ k.Holds v' vs st' ∧ s.Sizes u.length := by
  obtain ⟨r, h1, h2⟩ := s.inv cfg hz hs he
  obtain ⟨u, h3, h4⟩ := s.measures cfg v x r h1
  exact ⟨u, r, h3, h2, h4⟩

/-- C99, writing: so has every encoding of a valid value. -/
theorem C99_written (cfg : Cfg) (s : Schema) (x : s.Val) (hv : s.Valid x) (he : cfg.encLenOverride = false ∨ s.PrefixOk x) (b : Bytes)
    (hb : (s.codec cfg).toBytes x = some b) : s.Sizes b.length := by
  rw [toBytes_wire (he.imp id fun h => ⟨hv, h⟩)] at hb
  exact s.wire_sizes x b hv hb

/-- C99: when estimates are trusted, values with a zero `N` under a length prefix have encodings of other sizes: here of a type that has
no messages at all. -/
theorem C99_override_fails (p : Profile) (a b : Bool) :
    (∃ c, ((Schema.dynamic .u8 (.padded 255 .zarithN)).codec ⟨p, true, a, b⟩).toBytes (0 : Nat) = some c ∧ c.length = 257) ∧
      ∀ n, ¬ (Schema.dynamic .u8 (.padded 255 .zarithN)).Sizes n := by
  constructor
  · refine ⟨[0xff] ++ ([0x00] ++ List.replicate 255 0), ?_, by rw [List.length_append, List.length_append, List.length_replicate]; rfl⟩
    refine (Codec.Writes.toBytes (Schema.writes_out _ _) _).trans ?_
    show Enc.dynamic .u8 _ _ _ = _
    have h1 : Enc.padded 255 Enc.zarithN (0 : Nat) = some ([0x00] ++ List.replicate 255 0) := by
      refine cat_eq_some.mpr ⟨[0x00], _, ?_, rfl, rfl⟩
      show some (Enc.nat7 0) = _
      unfold Enc.nat7
      rfl
    have h2 : ((Schema.padded 255 .zarithN).codec ⟨p, true, a, b⟩).estimate (0 : Nat) = 255 := by
      have := (C16_N_estimate_fails_at_zero).2
      show Codec.zarithN.estimate 0 + 255 = 255
      rw [this]
    simp only [Enc.dynamic, Enc.lenOf, if_true, h2]
    exact cat_eq_some.mpr ⟨[0xff], _, rfl, h1, rfl⟩
  · exact (Schema.least_spec _).2 rfl

/-- C99: all of these sizes occur, for each of them the same encoding in all builds. -/
theorem C99_occurs (s : Schema) (n : Nat) (h : s.Sizes n) :
    ∃ x b, s.Valid x ∧ (∀ cfg, (s.codec cfg).toBytes x = some b) ∧ b.length = n := by
  obtain ⟨x, b, h1, h2, h3⟩ := s.occurs n h
  exact ⟨x, b, h1.1, fun cfg => (toBytes_wire (.inr ⟨h1.1, h1.2.prefixOk⟩)).trans h2, h3⟩

/-- C99: for types that can be read back, a message of a given size is accepted exactly if the type has messages of that size. -/
theorem C99_accepted (cfg : Cfg) (s : Schema) (hz : s.sized = true) (ht : s.tagsOk) (hk : s.tail = some .any ∨ s.tail = some (.exact 0))
    (n : Nat) (hn : n ≤ isizeMax) : s.Sizes n ↔ ∃ (v : Bytes) (x : s.Val), v.length = n ∧ (s.codec cfg).Decodes cfg v x [] := by
  constructor
  · intro h
    obtain ⟨x, b, h1, h2, h3⟩ := s.occurs n h
    have hd : s.dec cfg b = .ok x [] := by
      have := hk.elim (fun e => s.roundTrips cfg ht e x b [] h1.1 h2 trivial) fun e => s.roundTrips cfg ht e x b [] h1.1 h2 rfl
      rwa [List.append_nil] at this
    exact ⟨b, x, h3, Parses.decodes (s.parses cfg) hd⟩
  · rintro ⟨v, x, rfl, h⟩
    obtain ⟨st, h1, h2⟩ := h .slice [] _ (Backend.holds_init .slice hn)
    obtain ⟨u, r, h3, h4, h5⟩ := C99_read cfg s hz .slice v [] _ st x (Backend.holds_init .slice hn) h1
    obtain rfl := Backend.holds_unique .slice h4 h2
    rw [List.append_nil] at h3
    rw [h3]
    exact h5

/-! ### the smallest and the largest -/

/-- C99: `least` is the size of the smallest message: there is a value with an encoding that large, and none with a smaller one, and
less than that is never accepted; if there is none, then nothing can be encoded and nothing is accepted. -/
theorem C99_least (s : Schema) (hz : s.sized = true) :
    (∀ m, s.least = some m →
      (∃ x b, s.Valid x ∧ (∀ cfg, (s.codec cfg).toBytes x = some b) ∧ b.length = m) ∧
      (∀ (cfg : Cfg) (x : s.Val) (b : Bytes), s.Valid x → cfg.encLenOverride = false ∨ s.PrefixOk x →
        (s.codec cfg).toBytes x = some b → m ≤ b.length) ∧
      ∀ (cfg : Cfg) (k : Backend) (v : Bytes) (vs : List Bytes) (st st' : k.State) (x : s.Val), k.Holds v vs st →
        (s.codec cfg).parse (k.ops cfg.prof) st = .ok x st' → m ≤ v.length) ∧
    (s.least = none →
      (∀ (cfg : Cfg) (x : s.Val), s.Valid x → cfg.encLenOverride = false ∨ s.PrefixOk x → (s.codec cfg).toBytes x = none) ∧
      ∀ (cfg : Cfg) (k : Backend) (v : Bytes) (vs : List Bytes) (st st' : k.State) (x : s.Val), k.Holds v vs st →
        (s.codec cfg).parse (k.ops cfg.prof) st ≠ .ok x st') := by
  have hl := s.least_spec
  refine ⟨fun m hm => ?_, fun h0 => ⟨fun cfg x hv he => ?_, fun cfg k v vs st st' x hs he => ?_⟩⟩
  · obtain ⟨h1, h2⟩ := hl.1 m hm
    refine ⟨C99_occurs s m h1, fun cfg x b hv he hb => h2 _ (C99_written cfg s x hv he b hb), ?_⟩
    intro cfg k v vs st st' x hs he
    obtain ⟨u, v', rfl, -, h3⟩ := C99_read cfg s hz k v vs st st' x hs he
    have := h2 _ h3
    rw [List.length_append]
    omega
  · cases hb : (s.codec cfg).toBytes x with
    | none => rfl
    | some b => exact absurd (C99_written cfg s x hv he b hb) (hl.2 h0 _)
  · obtain ⟨u, _, _, _, h3⟩ := C99_read cfg s hz k v vs st st' x hs he
    exact hl.2 h0 _ h3

/-- C99: `most` bounds the messages: no encoding is larger and no decoding consumes more; if there is no bound, there are
encodings as large as one likes. -/
theorem C99_most (s : Schema) (hz : s.sized = true) :
    (∀ m, s.most = some m →
      (∀ (cfg : Cfg) (x : s.Val) (b : Bytes), s.Valid x → cfg.encLenOverride = false ∨ s.PrefixOk x →
        (s.codec cfg).toBytes x = some b → b.length ≤ m) ∧
      ∀ (cfg : Cfg) (k : Backend) (v : Bytes) (vs : List Bytes) (st st' : k.State) (x : s.Val), k.Holds v vs st →
        (s.codec cfg).parse (k.ops cfg.prof) st = .ok x st' → ∃ v', k.Holds v' vs st' ∧ v.length ≤ v'.length + m) ∧
    (s.most = none → ∀ N, ∃ x b, s.Valid x ∧ (∀ cfg, (s.codec cfg).toBytes x = some b) ∧ N ≤ b.length) := by
  have hl := s.most_spec
  refine ⟨fun m hm => ?_, fun h0 N => ?_⟩
  · obtain ⟨h1, -⟩ := hl.1 m hm
    refine ⟨fun cfg x b hv he hb => h1 _ (C99_written cfg s x hv he b hb), ?_⟩
    intro cfg k v vs st st' x hs he
    obtain ⟨u, v', rfl, h2, h3⟩ := C99_read cfg s hz k v vs st st' x hs he
    have := h1 _ h3
    exact ⟨v', h2, by rw [List.length_append]; omega⟩
  · obtain ⟨n, h1, h2⟩ := hl.2 h0 N
    obtain ⟨x, b, h3, h4, rfl⟩ := C99_occurs s n h2
    exact ⟨x, b, h3, h4, h1⟩

/-- C99 for `try_decode`: an input shorter than the smallest message is never accepted. -/
theorem C99_decode (cfg : Cfg) (s : Schema) (hz : s.sized = true) (k : Backend) (buf : Bytes) (hb : buf.length ≤ isizeMax)
    (hm : ∀ m, s.least = some m → buf.length < m) (x : s.Val) : (s.codec cfg).tryDecode cfg k buf ≠ .ok x () := by
  intro he
  obtain ⟨rest, _, h1, _⟩ := tryDecode_inv hz hb he
  obtain ⟨u, rfl, h2⟩ := s.measures cfg buf x rest h1
  cases h0 : s.least with
  | none => exact s.least_spec.2 h0 _ h2
  | some m =>
    have h3 := (s.least_spec.1 m h0).2 _ h2
    have h4 := hm m h0
    rw [List.length_append] at h4
    omega

/-! ### recursive types -/

/-- C99 for recursive types: the sizes are those of the finite unfoldings. -/
theorem C99_recursive (d : Decls) (hz : ∀ j, (d.body j).sized = true) (i : Nat) :
    (∀ (cfg : Cfg) (k : Backend) (v : Bytes) (vs : List Bytes) (st st' : k.State) (a : d.Val i), k.Holds v vs st →
      (d.codec cfg i).parse (k.ops cfg.prof) st = .ok a st' → ∃ u v', v = u ++ v' ∧ k.Holds v' vs st' ∧ d.Sizes i u.length) ∧
    (∀ (cfg : Cfg) (a : d.Val i) (b : Bytes), (cfg.encLenOverride = false ∧ d.Valid a) ∨ d.PrefixOk a →
      (d.codec cfg i).toBytes a = some b → d.Sizes i b.length) ∧
    ∀ n, d.Sizes i n → ∃ a b, d.Valid a ∧ (∀ cfg, (d.codec cfg i).toBytes a = some b) ∧ b.length = n := by
  refine ⟨fun cfg k v vs st st' a hs he => ?_, fun cfg a b he hb => ?_, fun n ⟨m, hm⟩ => ?_⟩
  · obtain ⟨n, x, rfl, h1⟩ := d.parse_inv he
    obtain ⟨u, v', h2, h3, h4⟩ := C99_read cfg (d.unfold n i) (d.sized hz n i) k v vs st st' x hs h1
    exact ⟨u, v', h2, h3, n, h4⟩
  · obtain ⟨n, x, rfl, hv, hw, _⟩ := rec_valid_wire cfg d he hb
    exact ⟨n, (d.unfold n i).wire_sizes x b hv hw⟩
  · obtain ⟨x, b, h1, h2, h3⟩ := C99_occurs (d.unfold m i) n hm
    exact ⟨d.val m x, b, ⟨m, x, rfl, h1⟩, fun cfg => (rec_toBytes cfg d m x).trans (h2 cfg), h3⟩

/-! ### examples -/

/-- `{ id: u16, name: Dynamic<u8, String>, rest: Sequence<u32> }` -/
def sizeDemo : Schema := .record (.cons (.int .u16) (.cons (.dynamic .u8 .string) (.cons (.seq (.int .u32)) .nil)))

example : sizeDemo.sized = true ∧ sizeDemo.least = some 3 ∧ sizeDemo.most = none := ⟨rfl, rfl, rfl⟩
example : sizeDemo.tagsOk ∧ sizeDemo.tail = some (.exact 0) := ⟨⟨trivial, trivial, trivial, trivial⟩, rfl⟩
/-- Without the sequence at most 2 + 1 + 255 bytes. -/
example : (Schema.record (.cons (.int .u16) (.cons (.dynamic .u8 .string) .nil))).most = some 258 := rfl
/-- A sequence of pairs cannot have seven bytes. -/
example : ¬ (Schema.seq (.int .u16)).Sizes 7 := by
  rintro ⟨ls, -, h1, h2⟩
  have : ∀ ls : List Nat, (∀ l ∈ ls, l = 2) → ls.sum % 2 = 0 := by
    intro ls
    induction ls with
    | nil => intro _; rfl
    | cons l ls ih =>
      intro h
      have h1 := h l List.mem_cons_self
      have h2 := ih fun m hm => h m (List.mem_cons_of_mem _ hm)
      rw [List.sum_cons]
      omega
  have := this ls h1
  omega
/-- No `u8` is between −10 and −5, 300 bytes have no length of one byte, and enumerations without variants have no values. -/
example : (Schema.rangedInt .u8 (-10) (-5)).least = none ∧ (Schema.dynamic .u8 (.fixedBytes 300)).least = none ∧
    (Schema.data .u8 .nil).least = none := by
  refine ⟨by decide, rfl, rfl⟩
/-- Chains of bytes have the positive even sizes. -/
example (n : Nat) : u8Seq.Sizes 0 n ↔ ∃ k, n = 2 * k + 2 := by
  have h : ∀ m n, (u8Seq.unfold m 0).Sizes n ↔ ∃ k, k < m ∧ n = 2 * k + 2 := by
    intro m
    induction m with
    | zero => intro n; exact ⟨nofun, fun ⟨k, h, _⟩ => by omega⟩
    | succ m ih =>
      intro n
      constructor
      · rintro ⟨a, b, ha, ⟨c, e, hc, he, rfl⟩, rfl⟩
        have ha' : a = 1 := ha
        have he' : e = 0 := he
        subst ha' he'
        rcases hc with rfl | ⟨l, hl, rfl⟩
        · exact ⟨0, by omega, rfl⟩
        · obtain ⟨k, h1, rfl⟩ := (ih l).mp hl
          exact ⟨k + 1, by omega, by omega⟩
      · rintro ⟨k, h1, rfl⟩
        cases k with
        | zero => exact ⟨1, 1, rfl, ⟨1, 0, .inl rfl, rfl, rfl⟩, rfl⟩
        | succ k => exact ⟨1, 1 + (2 * k + 2), rfl, ⟨1 + (2 * k + 2), 0, .inr ⟨_, (ih _).mpr ⟨k, by omega, rfl⟩, rfl⟩, rfl, rfl⟩, by omega⟩
  constructor
  · rintro ⟨m, hm⟩
    obtain ⟨k, -, h1⟩ := (h m n).mp hm
    exact ⟨k, h1⟩
  · rintro ⟨k, h1⟩
    exact ⟨k + 1, (h _ n).mpr ⟨k, by omega, h1⟩⟩

end Verif.Props
