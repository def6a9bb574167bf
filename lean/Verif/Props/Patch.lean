import Verif.Lemmas.Patch
import Verif.Props.Schema
import Verif.Props.Decode
/-
C81: changing parts of a value changes the bytes of these parts only.  The parts are those in the holes of a schema `s`;
`ρ` tells which types they have before the change, `ρ'` after it.
-/
namespace Verif.Props

open Codec

variable (cfg : Cfg) (s : Schema) (ρ ρ' : Nat → Schema)

/-- Lengths are determined by encoding, or the estimates are right. -/
def Exactly (cfg : Cfg) (s : Schema) (x : s.Val) : Prop := cfg.encLenOverride = false ∨ s.Valid x ∧ s.PrefixOk x

/-- C81: if some parts of a value are replaced by parts whose encodings are as long (which may be of other types), the
encoding is the one before with the bytes of the parts replaced; length prefixes and everything else stay. -/
theorem C81_replace (x : (s.fill ρ).Val) (x' : (s.fill ρ').Val) (l : List (Bytes × Bytes)) (h : s.Patch ρ ρ' x x' l)
    (hl : ∀ p ∈ l, p.2.length = p.1.length) (he : Exactly cfg _ x) (he' : Exactly cfg _ x') (b : Bytes)
    (hb : ((s.fill ρ).codec cfg).toBytes x = some b) :
    ∃ c, ((s.fill ρ').codec cfg).toBytes x' = some c ∧ Patched l b c ∧ c.length = b.length := by
  rw [toBytes_wire he] at hb
  obtain ⟨c, hc, hP⟩ := s.patch_ok x x' l b h hl hb
  exact ⟨c, (toBytes_wire he').trans hc, hP, hP.length hl⟩

/-- C81: where no length prefix is around the parts, their lengths may change as well. -/
theorem C81_resize (hs : s.unprefixed = true) (x : (s.fill ρ).Val) (x' : (s.fill ρ').Val) (l : List (Bytes × Bytes))
    (h : s.Patch ρ ρ' x x' l) (he : Exactly cfg _ x) (he' : Exactly cfg _ x') (b : Bytes)
    (hb : ((s.fill ρ).codec cfg).toBytes x = some b) :
    ∃ c, ((s.fill ρ').codec cfg).toBytes x' = some c ∧ Patched l b c := by
  rw [toBytes_wire he] at hb
  obtain ⟨c, hc, hP⟩ := s.patch_any hs x x' l b h trivial hb
  exact ⟨c, (toBytes_wire he').trans hc, hP⟩

/-- C81, one part: what is before it and what is after it stays.  Overwriting its bytes in the message makes it a message of
the changed value: all parsers decode it to that value. -/
theorem C81_overwrite (x : (s.fill ρ).Val) (x' : (s.fill ρ').Val) (u v : Bytes) (h : s.Patch ρ ρ' x x' [(u, v)])
    (hl : v.length = u.length) (he : Exactly cfg _ x) (he' : Exactly cfg _ x') (b : Bytes)
    (hb : ((s.fill ρ).codec cfg).toBytes x = some b) :
    ∃ pre post, b = pre ++ u ++ post ∧ ((s.fill ρ').codec cfg).toBytes x' = some (pre ++ v ++ post) ∧
      ∀ {tl : Tail}, (s.fill ρ').tagsOk → (s.fill ρ').tail = some tl → (s.fill ρ').Valid x' →
        ∀ rest, tl.Allows rest → ((s.fill ρ').codec cfg).Decodes cfg (pre ++ v ++ post ++ rest) x' rest := by
  obtain ⟨c, hc, hP, _⟩ := C81_replace cfg s ρ ρ' x x' _ h (fun p m => by rw [List.mem_singleton.mp m]; exact hl) he he' b hb
  obtain ⟨pre, post, hb', rfl⟩ := hP.one
  exact ⟨pre, post, hb', hc, fun ht htl hv rest hr => C51_round_trip_partial cfg _ ht htl x' hv (he'.imp id (·.2)) _ hc rest hr⟩

/-- C81: editing every part in place, by any function that keeps the lengths of encodings. -/
theorem C81_edit (f : ∀ i, (ρ i).Val → (ρ' i).Val)
    (hf : ∀ i y u, (ρ i).wire y = some u → ∃ v, (ρ' i).wire (f i y) = some v ∧ v.length = u.length) (x : (s.fill ρ).Val)
    (he : Exactly cfg _ x) (he' : Exactly cfg _ (s.mapFill f x)) (b : Bytes)
    (hb : ((s.fill ρ).codec cfg).toBytes x = some b) :
    ∃ l c, s.Patch ρ ρ' x (s.mapFill f x) l ∧ ((s.fill ρ').codec cfg).toBytes (s.mapFill f x) = some c ∧ Patched l b c ∧
      c.length = b.length := by
  have hw := (toBytes_wire he).symm.trans hb
  obtain ⟨l, h, hl⟩ := s.patch_map hf x b hw
  obtain ⟨c, h1, h2, h3⟩ := C81_replace cfg s ρ ρ' x _ l h hl he he' b hb
  exact ⟨l, c, h, h1, h2, h3⟩

/-- C81 needs lengths to stay the same below a length prefix: the prefix is a byte outside of the part. -/
theorem C81_prefix_fails : ∃ (s : Schema) (ρ : Nat → Schema) (x x' : (s.fill ρ).Val) (u v : Bytes) ,
    s.Patch ρ ρ x x' [(u, v)] ∧ ∀ cfg : Cfg, cfg.encLenOverride = false → ∃ b c,
      ((s.fill ρ).codec cfg).toBytes x = some b ∧ ((s.fill ρ).codec cfg).toBytes x' = some c ∧ ¬Patched [(u, v)] b c := by
  refine ⟨.dynamic .u8 (.hole 0), fun _ => .bytes, ([7] : Bytes), ([7, 8] : Bytes), [7], [7, 8], ⟨_, _, rfl, rfl, rfl⟩,
    fun cfg h => ⟨[1, 7], [2, 7, 8], ?_, ?_, fun hP => ?_⟩⟩
  · exact (toBytes_wire (.inl h)).trans rfl
  · exact (toBytes_wire (.inl h)).trans rfl
  · obtain ⟨pre, post, h1, h2⟩ := hP.one
    match pre, h1 with
    | [], h1 => cases h1
    | [a], h1 => cases h1; cases h2
    | a :: b :: pre, h1 => simp at h1

/-! ### examples -/

/-- An operation: a shell header, and contents in a length prefix with a signature (the hole) at their end. -/
def signed64 : Schema :=
  .record (.cons (.fixedBytes 2) (.cons (.dynamic .u30 (.record (.cons .zarithN (.cons (.hole 0) .nil)))) .nil))

/-- Two signatures, and the values that have them. -/
example : signed64.Patch (fun _ => .fixedBytes 3) (fun _ => .fixedBytes 3)
    ((⟨[1, 2], rfl⟩, ((300, (⟨[0, 0, 0], rfl⟩, ())), ())) : ByteArr 2 × (Nat × ByteArr 3 × Unit) × Unit)
    ((⟨[1, 2], rfl⟩, ((300, (⟨[7, 8, 9], rfl⟩, ())), ())) : ByteArr 2 × (Nat × ByteArr 3 × Unit) × Unit)
    [([0, 0, 0], [7, 8, 9])] :=
  ⟨[], _, rfl, ⟨rfl, rfl⟩, _, [], rfl, ⟨[], _, rfl, ⟨rfl, rfl⟩, _, [], rfl, ⟨_, _, rfl, rfl, rfl⟩, rfl, rfl⟩, rfl, rfl⟩

example : ((signed64.fill fun _ => .fixedBytes 3)).tagsOk ∧ (signed64.fill fun _ => .fixedBytes 3).tail = some .any ∧
    signed64.unprefixed = false ∧ (Schema.record (.cons (.dynamic .u8 .string) (.cons (.hole 0) .nil))).unprefixed = true :=
  ⟨⟨trivial, ⟨trivial, trivial, trivial⟩, trivial⟩, rfl, rfl, rfl⟩

/-- Three bytes of one type in the place of three bytes of another. -/
example : ∀ (x : ByteArr 3) u, Enc.byteArr 3 x = some u → ∃ v, Enc.fcons (Enc.int .u16) (Enc.fcons (Enc.int .u8) Enc.fnil)
    ((5#16, (6#8, ())) : BitVec 16 × BitVec 8 × Unit) = some v ∧ v.length = u.length := fun x u h => by
  cases h
  exact ⟨[0, 5, 6], by with_unfolding_all rfl, x.2.symm⟩

end Verif.Props
