import Verif.Lemmas.RecCompare
import Verif.Props.Compare
import Verif.Props.Hash
import Verif.Props.Recursive
/-
C64 and C71 for recursive types: comparing and hashing their values.
-/
namespace Verif.Props

open Codec

variable (cfg : Cfg) (d : Decls) {i : Nat}

/-- C64 for recursive types: `==` and `partial_cmp` are what the derived code makes of the values in any unfolding of the
definitions that has them, they tell the same pairs equal, and `partial_cmp` is a partial order up to `==`. -/
theorem C64_recursive_order :
    (∀ n (x y : (d.unfold n i).Val), d.eqv (d.val n x) (d.val n y) = (d.unfold n i).eqv x y ∧
      d.pcmp (d.val n x) (d.val n y) = (d.unfold n i).pcmp x y) ∧
    (∀ a b : d.Val i, d.eqv a b = true ↔ d.pcmp a b = some .eq) ∧
    (∀ a b : d.Val i, d.pcmp b a = (d.pcmp a b).map Ordering.swap) ∧
    (∀ a b c : d.Val i, d.eqv a b = true → d.pcmp a c = d.pcmp b c) ∧
    (∀ a b c : d.Val i, d.pcmp a b = some .lt → d.pcmp b c = some .lt → d.pcmp a c = some .lt) := by
  refine ⟨fun n x y => ⟨d.eqv_val x y, d.pcmp_val x y⟩, fun a b => ?_, fun a b => ?_, fun a b c => ?_, fun a b c => ?_⟩
  · obtain ⟨n, x, y, rfl, rfl⟩ := d.exists_two a b
    rw [d.eqv_val, d.pcmp_val]
    exact (C64_order (d.unfold n i)).1 x y
  · obtain ⟨n, x, y, rfl, rfl⟩ := d.exists_two a b
    rw [d.pcmp_val, d.pcmp_val]
    exact (C64_order (d.unfold n i)).2.1 x y
  · obtain ⟨n, x, y, z, rfl, rfl, rfl⟩ := d.exists_three a b c
    rw [d.eqv_val, d.pcmp_val, d.pcmp_val]
    exact (C64_order (d.unfold n i)).2.2.1 x y z
  · obtain ⟨n, x, y, z, rfl, rfl, rfl⟩ := d.exists_three a b c
    rw [d.pcmp_val, d.pcmp_val, d.pcmp_val]
    exact (C64_order (d.unfold n i)).2.2.2 x y z

/-- C64 for recursive types: a value is equal to itself unless a NaN occurs in it, and only NaNs make values
incomparable. -/
theorem C64_recursive_nan :
    (∀ a : d.Val i, d.eqv a a = true ↔ ¬d.HasNan a) ∧
    (∀ a b : d.Val i, d.pcmp a b = none → d.HasNan a ∨ d.HasNan b) ∧
    ((∀ j, (d.body j).rangedFloats = true) → ∀ a : d.Val i, d.Valid a → d.eqv a a = true) := by
  refine ⟨fun a => ?_, fun a b => ?_, fun h a hv => ?_⟩
  · obtain ⟨n, x, rfl⟩ := d.exists_val a
    rw [d.eqv_val, d.nan_val]
    exact (C64_nan (d.unfold n i)).1 x
  · obtain ⟨n, x, y, rfl, rfl⟩ := d.exists_two a b
    rw [d.pcmp_val, d.nan_val, d.nan_val]
    exact (C64_nan (d.unfold n i)).2 x y
  · obtain ⟨n, x, rfl, hx⟩ := hv
    rw [d.eqv_val]
    exact C64_ranged _ (d.rangedFloats h n i) x hx

/-- C64 for recursive types: without doubles `==` is equality and `partial_cmp` a total order. -/
theorem C64_recursive_exact (hf : ∀ j, (d.body j).floatFree = true) :
    (∀ a b : d.Val i, d.eqv a b = true ↔ a = b) ∧ (∀ a b : d.Val i, ∃ o, d.pcmp a b = some o) := by
  refine ⟨fun a b => ?_, fun a b => ?_⟩ <;> obtain ⟨n, x, y, rfl, rfl⟩ := d.exists_two a b
  · rw [d.eqv_val, (C64_exact _ (d.floatFree hf n i)).1 x y]
    exact ⟨congrArg _, d.val_inj⟩
  · rw [d.pcmp_val]
    exact (C64_exact _ (d.floatFree hf n i)).2 x y

/-- C64 for recursive types: well-formed values of a uniquely decodable type without doubles are equal exactly if their
encodings are. -/
theorem C64_recursive_encoding (hf : ∀ j, (d.body j).floatFree = true) (hst : d.Stable)
    (ht : ∀ j, (d.body j).tagsOk) {tl : Tail} (htl : (d.body i).tail = some tl) (hl : tl.Allows []) (a a' : d.Val i)
    (he : (cfg.encLenOverride = false ∧ d.Valid a) ∨ d.PrefixOk a)
    (he' : (cfg.encLenOverride = false ∧ d.Valid a') ∨ d.PrefixOk a') (b c : Bytes) (hlen : b.length ≤ isizeMax)
    (hb : (d.codec cfg i).toBytes a = some b) (hc : (d.codec cfg i).toBytes a' = some c) :
    d.eqv a a' = true ↔ b = c := by
  rw [(C64_recursive_exact d hf).1]
  constructor
  · rintro rfl
    exact Option.some.inj (hb.symm.trans hc)
  · rintro rfl
    exact C52_injective_partial cfg d hst ht htl hl a a' he he' b hlen hb hc

/-- C64 for recursive types: of two equal values both or none can be encoded, and the encodings differ at most in the sign
bytes of zeros. -/
theorem C64_recursive_near (a a' : d.Val i) (h : d.eqv a a' = true) :
    (d.codec cfg i).toBytes a = none ∧ (d.codec cfg i).toBytes a' = none ∨
      ∃ b c, (d.codec cfg i).toBytes a = some b ∧ (d.codec cfg i).toBytes a' = some c ∧ Near b c ∧ b.length = c.length := by
  obtain ⟨n, x, y, rfl, rfl⟩ := d.exists_two a a'
  rw [d.eqv_val] at h
  exact (C64_near cfg (d.unfold n i) x y h).1

/-- The bytes a hasher that implements `write` only gets to see. -/
noncomputable def recFed (e : Endian) (a : d.Val i) : Bytes := (d.hash e a).foldl (collect.toHasher e).call []

/-- C71 for recursive types: equal values make the same calls.  Values that are not equal feed different bytes, and none
feeds a beginning of what another feeds. -/
theorem C71_recursive (e : Endian) (hf : ∀ j, (d.body j).floatFree = true) (a b : d.Val i) :
    (∀ n (x : (d.unfold n i).Val), d.hash e (d.val n x) = (d.unfold n i).hash e x) ∧
    (d.eqv a b = true → d.hash e a = d.hash e b) ∧
    ((∀ j, (d.body j).tagsOk) → (∀ n, HashCall.length n ∈ d.hash e a → n < usizeMod) →
      (∀ n, HashCall.length n ∈ d.hash e b → n < usizeMod) → d.eqv a b = false →
      d.hash e a ≠ d.hash e b ∧ recFed d e a ≠ recFed d e b ∧ ¬recFed d e a <+: recFed d e b) := by
  refine ⟨fun n x => d.hash_val e x, fun h => by rw [((C64_recursive_exact d hf).1 a b).mp h], fun ht ma mb h => ?_⟩
  obtain ⟨n, x, y, rfl, rfl⟩ := d.exists_two a b
  unfold recFed
  rw [d.eqv_val] at h
  rw [d.hash_val] at ma mb ⊢
  rw [d.hash_val]
  exact C71_distinct e _ (d.floatFree hf n i) (d.tagsOk ht n i) x y ma mb h

/-! ### examples -/

example : (∀ j, (exprs.body j).floatFree = true) ∧ (∀ j, (u8Seq.body j).rangedFloats = true) := ⟨fun _ => rfl, fun _ => rfl⟩
/-- `U8Seq(5, None)` -/
def u8Seq5 : u8Seq.Val 0 := u8Seq.val 2 ((5 : BitVec 8), (none, ()))
/-- The shorter chain is smaller, and what it feeds. -/
example : u8Seq.pcmp u8Seq5 u8Seq57 = some .lt ∧ u8Seq.eqv u8Seq5 u8Seq57 = false ∧ u8Seq.eqv u8Seq57 u8Seq57 = true :=
  ⟨(u8Seq.pcmp_val _ _).trans (by with_unfolding_all rfl), (u8Seq.eqv_val _ _).trans (by with_unfolding_all rfl),
    (u8Seq.eqv_val _ _).trans (by with_unfolding_all rfl)⟩
example (e : Endian) : u8Seq.hash e u8Seq57 = [.int 1 5, .discr 1, .int 1 7, .discr 0] :=
  (u8Seq.hash_val e _).trans rfl
/-- An unfolding more makes no difference. -/
example : u8Seq.eqv (u8Seq.val 1 ((5 : BitVec 8), (none, ()))) u8Seq5 = true :=
  ((C64_recursive_exact u8Seq fun _ => rfl).1 _ _).mpr (u8Seq.val_lift 1 _).symm

end Verif.Props
