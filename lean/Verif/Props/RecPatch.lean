import Verif.Props.Patch
import Verif.Props.Recursive
/-
C81 for recursive types: the parts are the recursive parts of a value.
-/
namespace Verif.Props
open Codec

variable (cfg : Cfg) (d : Decls) {i : Nat}

/-- C81: if recursive parts of a value are replaced by values whose encodings are as long, the encoding is the one before
with the bytes of these parts replaced; length prefixes and everything else stay. -/
theorem C81_recursive_replace (n : Nat) (x x' : ((d.body i).fill (d.unfold n)).Val) (l : List (Bytes × Bytes))
    (h : (d.body i).Patch (d.unfold n) (d.unfold n) x x' l) (hl : ∀ p ∈ l, p.2.length = p.1.length) (he : Exactly cfg _ x)
    (he' : Exactly cfg _ x') (b : Bytes) (hb : (d.codec cfg i).toBytes (d.val (n + 1) x) = some b) :
    ∃ c, (d.codec cfg i).toBytes (d.val (n + 1) x') = some c ∧ Patched l b c ∧ c.length = b.length :=
  C81_replace cfg (d.body i) (d.unfold n) (d.unfold n) x x' l h hl he he' b hb

/-- C81, one recursive part: overwriting its bytes in the message makes it a message of the changed value, which all parsers
decode to that value. -/
theorem C81_recursive_overwrite (n : Nat) (x x' : ((d.body i).fill (d.unfold n)).Val) (u v : Bytes)
    (h : (d.body i).Patch (d.unfold n) (d.unfold n) x x' [(u, v)]) (hl : v.length = u.length) (he : Exactly cfg _ x)
    (he' : Exactly cfg _ x') (b : Bytes) (hb : (d.codec cfg i).toBytes (d.val (n + 1) x) = some b) :
    ∃ pre post, b = pre ++ u ++ post ∧ (d.codec cfg i).toBytes (d.val (n + 1) x') = some (pre ++ v ++ post) ∧
      ∀ {tl : Tail}, d.Stable → (∀ j, (d.body j).tagsOk) → (d.body i).tail = some tl →
        ((d.body i).fill (d.unfold n)).Valid x' → ∀ rest, tl.Allows rest →
          (d.codec cfg i).Decodes cfg (pre ++ v ++ post ++ rest) (d.val (n + 1) x') rest := by
  obtain ⟨c, hc, hP, _⟩ := C81_recursive_replace cfg d n x x' _ h
    (fun p m => by rw [List.mem_singleton.mp m]; exact hl) he he' b hb
  obtain ⟨pre, post, hb', rfl⟩ := hP.one
  refine ⟨pre, post, hb', hc, fun hst ht htl hv rest hr => C52_round_trip_partial cfg d hst ht htl _ ?_ _ hc rest hr⟩
  exact he'.imp (fun h => ⟨h, n + 1, x', rfl, hv⟩) (fun h => ⟨n + 1, x', rfl, h⟩)

/-- `U8Seq(5, Some(U8Seq(7, None)))` with `U8Seq(9, None)` in the place of `U8Seq(7, None)` -/
example : (u8Seq.body 0).Patch (u8Seq.unfold 1) (u8Seq.unfold 1)
    (((5 : BitVec 8), (some ((7 : BitVec 8), (none, ())), ())) : BitVec 8 × Option (BitVec 8 × Option Empty × Unit) × Unit)
    (((5 : BitVec 8), (some ((9 : BitVec 8), (none, ())), ())) : BitVec 8 × Option (BitVec 8 × Option Empty × Unit) × Unit)
    [([7, 0], [9, 0])] :=
  ⟨[], _, rfl, ⟨rfl, rfl⟩, _, [], rfl, ⟨_, _, rfl, rfl, rfl⟩, rfl, rfl⟩

end Verif.Props
