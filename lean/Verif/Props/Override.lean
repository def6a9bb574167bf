import Verif.Lemmas.Announced
import Verif.Props.Shortfall
import Verif.Props.Recursive
import Verif.Props.Transport
/-
What trusting length estimates does to messages (feature `enc_len_estimable_override`; C48, C51, C52, C58, C64): exactly the
values with an `N` of value 0 under a length prefix are lost.
-/
namespace Verif.Props
open Codec

/-- C51 with the feature `enc_len_estimable_override`: for types without text the values that come back are exactly
those without an `N` of value 0 under a length prefix. -/
theorem C51_override_exact (cfg : Cfg) (ho : cfg.encLenOverride = true) (s : Schema) (hz : s.sized = true) (hx : s.textFree = true)
    (ht : s.tagsOk) {tl : Tail} (htl : s.tail = some tl) (x : s.Val) (hv : s.Valid x) (b : Bytes) (hb : (s.codec cfg).toBytes x = some b)
    (rest : Bytes) (hr : tl.Allows rest) (hl : (b ++ rest).length ≤ isizeMax) :
    (s.codec cfg).Decodes cfg (b ++ rest) x rest ↔ s.PrefixOk x := by
  refine ⟨fun h => ?_, fun h => C51_round_trip_partial cfg s ht htl x hv (.inr h) b hb rest hr⟩
  obtain ⟨st, h1, h2⟩ := h .byte [] _ (Backend.holds_init .byte hl)
  obtain ⟨r, h3, h4⟩ := s.inv cfg hz (Backend.holds_init .byte hl) h1
  obtain rfl := Backend.holds_unique .byte h2 h4
  rw [Writes.toBytes (s.writes_out cfg)] at hb
  exact s.back cfg ho hx x b rest hv hb h3

/-- C52: the same for recursive types. -/
theorem C52_override_exact (cfg : Cfg) (ho : cfg.encLenOverride = true) (d : Decls) {i : Nat} (hst : d.Stable)
    (hz : ∀ j, (d.body j).sized = true) (hx : ∀ j, (d.body j).textFree = true) (ht : ∀ j, (d.body j).tagsOk) {tl : Tail}
    (htl : (d.body i).tail = some tl) (a : d.Val i) (b : Bytes) (hb : (d.codec cfg i).toBytes a = some b)
    (rest : Bytes) (hr : tl.Allows rest) (hl : (b ++ rest).length ≤ isizeMax) :
    (d.codec cfg i).Decodes cfg (b ++ rest) a rest ↔ d.PrefixOk a := by
  refine ⟨fun h => ?_, fun h => C52_round_trip_partial cfg d hst ht htl a (.inr h) b hb rest hr⟩
  obtain ⟨st, h1, h2⟩ := h .byte [] _ (Backend.holds_init .byte hl)
  obtain ⟨n, x, rfl, h5⟩ := d.parse_inv h1
  have hxn := d.textFree hx n i
  obtain ⟨r, h3, h4⟩ := (d.unfold n i).inv cfg (d.sized hz n i) (Backend.holds_init .byte hl) h5
  obtain rfl := Backend.holds_unique .byte h2 h4
  rw [rec_toBytes, Writes.toBytes (Schema.writes_out cfg _)] at hb
  have hv := ((d.unfold n i).reencodes cfg hxn _ _ _ h3).1
  exact ⟨n, x, rfl, hv, (d.unfold n i).back cfg ho hxn x b rest hv hb h3⟩

/-- Numbers under a length prefix. -/
def numbers : Schema := .dynamic .u8 (.seq .zarithN)

theorem numbers_out (p : Profile) (c d : Bool) :
    numbers.out ⟨p, true, c, d⟩ ([] : List Nat) = some [0] ∧ numbers.out ⟨p, true, c, d⟩ ([0] : List Nat) = some [0, 0] ∧
    numbers.out ⟨p, true, c, d⟩ ([5, 0] : List Nat) = some [1, 5, 0] := by
  have h0 : Enc.zarithN 0 = some [0] := by rw [Enc.zarithN, Enc.nat7]; rfl
  have h5 : Enc.zarithN 5 = some [5] := by rw [Enc.zarithN, Enc.nat7]; rfl
  have e : ∀ (xs : List Nat) (n : Nat) (b : Bytes), ((Schema.seq .zarithN).codec ⟨p, true, c, d⟩).estimate xs = n → n ≤ 255 →
      Enc.list Enc.zarithN xs = some b → numbers.out ⟨p, true, c, d⟩ xs = some (toBe 1 n ++ b) := by
    rintro xs n b rfl hn hb
    exact Enc.dynamic_eq_some.mpr ⟨_, b, rfl, hn, hb, rfl⟩
  have hl : Enc.list Enc.zarithN ([0] : List Nat) = some [0] := by simp [Enc.list, h0, Enc.cat]
  have hl5 : Enc.list Enc.zarithN ([5, 0] : List Nat) = some [5, 0] := by simp [Enc.list, h0, h5, Enc.cat]
  have gap : ∀ (xs : List Nat) (b : Bytes), Enc.list Enc.zarithN xs = some b →
      ((Schema.seq .zarithN).codec ⟨p, true, c, d⟩).estimate xs + (Schema.seq .zarithN).zeros xs = b.length := fun xs b hb =>
    (Schema.seq .zarithN).estimate_gap ⟨p, true, c, d⟩ xs b (fun _ _ => trivial) hb
  refine ⟨e [] 0 [] rfl (by decide) rfl, e [0] 0 [0] ?_ (by decide) hl, e [5, 0] 1 [5, 0] ?_ (by decide) hl5⟩
  · have := gap [0] [0] hl
    have hz : (Schema.seq .zarithN).zeros ([0] : List Nat) = 1 := rfl
    simp only [hz, List.length_cons, List.length_nil] at this
    omega
  · have := gap [5, 0] [5, 0] hl5
    have hz : (Schema.seq .zarithN).zeros ([5, 0] : List Nat) = 1 := rfl
    simp only [hz, List.length_cons, List.length_nil] at this
    omega

/-- C51 fails with the feature `enc_len_estimable_override`: what `[5, 0]` is encoded as is decoded to `[5]`, by every
parser, and a byte is left. -/
theorem C51_override_fails (p : Profile) (c d : Bool) :
    numbers.tagsOk ∧ numbers.tail = some .any ∧ numbers.Valid ([5, 0] : List Nat) ∧
    (numbers.codec ⟨p, true, c, d⟩).toBytes ([5, 0] : List Nat) = some [1, 5, 0] ∧
    (numbers.codec ⟨p, true, c, d⟩).Decodes ⟨p, true, c, d⟩ [1, 5, 0] ([5] : List Nat) [0] :=
  ⟨trivial, rfl, fun _ _ => trivial, (Writes.toBytes (numbers.writes_out _) _).trans (numbers_out p c d).2.2,
    (C45_override_misread p c d).2⟩

/-- Numbers under a length prefix, then bytes. -/
def numbersBytes : Schema := .record (.cons numbers (.cons .bytes .nil))

/-- C48 (and C64, C65) fail with that feature: one number 0 and no bytes, and no number and one byte 0, are encoded alike; and the
encoding of no numbers is a proper prefix of that of one number 0, in a self-delimiting type. -/
theorem C48_override_fails (p : Profile) (c d : Bool) :
    numbersBytes.tagsOk ∧ numbersBytes.tail = some (.exact 0) ∧ (∀ x, numbersBytes.Valid x) ∧
    (∀ x : List Nat × Bytes × Unit, x = ([0], [], ()) ∨ x = ([], [0], ()) →
      (numbersBytes.codec ⟨p, true, c, d⟩).toBytes x = some [0, 0]) ∧
    numbers.tail = some .any ∧ (numbers.codec ⟨p, true, c, d⟩).toBytes ([] : List Nat) = some [0] ∧
    (numbers.codec ⟨p, true, c, d⟩).toBytes ([0] : List Nat) = some [0, 0] := by
  obtain ⟨h1, h2, -⟩ := numbers_out p c d
  have e : ∀ (xs : List Nat) (bs b : Bytes), numbers.out ⟨p, true, c, d⟩ xs = some b →
      numbersBytes.out ⟨p, true, c, d⟩ ((xs, bs, ()) : List Nat × Bytes × Unit) = some (b ++ (bs ++ [])) := fun xs bs b hb =>
    cat_eq_some.mpr ⟨b, bs ++ [], hb, cat_eq_some.mpr ⟨bs, [], rfl, rfl, rfl⟩, rfl⟩
  refine ⟨⟨trivial, trivial, trivial⟩, rfl, fun x => ⟨fun _ _ => trivial, trivial, trivial⟩, ?_, rfl, ?_, ?_⟩
  · rintro x (rfl | rfl)
    · exact (Writes.toBytes (numbersBytes.writes_out _) _).trans (e [0] [] [0, 0] h2)
    · exact (Writes.toBytes (numbersBytes.writes_out _) _).trans (e [] [0] [0] h1)
  · exact (Writes.toBytes (numbers.writes_out _) _).trans h1
  · exact (Writes.toBytes (numbers.writes_out _) _).trans h2

/-- The hypotheses are met, by a value that comes back and one that does not. -/
example : numbers.sized = true ∧ numbers.textFree = true ∧ numbers.PrefixOk ([5, 7] : List Nat) ∧ ¬ numbers.PrefixOk ([5, 0] : List Nat) := by
  refine ⟨rfl, rfl, ?_, ?_⟩
  · intro y hy
    have : ∀ n : Nat, n ∈ [5, 7] → n ≠ 0 := by simp
    exact this y hy
  · intro h
    exact h (0 : Nat) (List.mem_cons_of_mem _ (List.mem_cons_self ..)) rfl

end Verif.Props
