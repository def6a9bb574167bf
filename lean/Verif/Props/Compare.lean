import Verif.Lemmas.Zeros
import Verif.Props.Schema
/-
C64: comparing values with `==` and `partial_cmp`.
-/
namespace Verif.Props

open Codec

/-- C64: `==` and `partial_cmp` tell the same pairs equal, and `partial_cmp` is a partial order up to `==`: it turns
around when its arguments are exchanged, equal values compare alike with everything, and "smaller" is transitive. -/
theorem C64_order (s : Schema) :
    (∀ x y, s.eqv x y = true ↔ s.pcmp x y = some .eq) ∧
    (∀ x y, s.pcmp y x = (s.pcmp x y).map Ordering.swap) ∧
    (∀ x y z, s.eqv x y = true → s.pcmp x z = s.pcmp y z) ∧
    (∀ x y z, s.pcmp x y = some .lt → s.pcmp y z = some .lt → s.pcmp x z = some .lt) :=
  ⟨s.cmp_laws.eq_iff, s.cmp_laws.swap, fun x y z h => s.cmp_laws.eq_left x y z ((s.cmp_laws.eq_iff x y).mp h),
    s.cmp_laws.lt_trans⟩

/-- C64: a value is equal to itself unless a NaN occurs in it, and only NaNs make values incomparable. -/
theorem C64_nan (s : Schema) :
    (∀ x, s.eqv x x = true ↔ ¬s.HasNan x) ∧ (∀ x y, s.pcmp x y = none → s.HasNan x ∨ s.HasNan y) :=
  ⟨fun x => (s.cmp_laws.eq_iff x x).trans (s.cmp_nans.refl x), s.cmp_nans.none⟩

/-- C64: for types without doubles `==` is equality and `partial_cmp` a total order. -/
theorem C64_exact (s : Schema) (hf : s.floatFree = true) :
    (∀ x y, s.eqv x y = true ↔ x = y) ∧ (∀ x y, ∃ o, s.pcmp x y = some o) := by
  refine ⟨s.eqv_exact hf, fun x y => ?_⟩
  cases h : s.pcmp x y with
  | some o => exact ⟨o, rfl⟩
  | none =>
    have r : ∀ x, ¬s.HasNan x := fun x => ((C64_nan s).1 x).mp ((s.eqv_exact hf x x).mpr rfl)
    exact ((s.cmp_nans.none x y h).elim (r x) (r y)).elim

/-- C64: well-formed values of types whose doubles are all `RangedFloat`s are equal to themselves. -/
theorem C64_ranged (s : Schema) (hf : s.rangedFloats = true) (x : s.Val) (hv : s.Valid x) : s.eqv x x = true :=
  ((C64_nan s).1 x).mpr (s.valid_not_nan hf x hv)

/-- C64: well-formed values of a uniquely decodable type without doubles are equal exactly if their encodings
are. -/
theorem C64_encoding (cfg : Cfg) (s : Schema) (hf : s.floatFree = true) (ht : s.tagsOk) {tl : Tail} (htl : s.tail = some tl)
    (x y : s.Val) (hx : s.Valid x) (hy : s.Valid y) (he : cfg.encLenOverride = false ∨ s.PrefixOk x ∧ s.PrefixOk y)
    (b c : Bytes) (hb : (s.codec cfg).toBytes x = some b) (hc : (s.codec cfg).toBytes y = some c) :
    s.eqv x y = true ↔ b = c := by
  rw [s.eqv_exact hf]
  constructor
  · rintro rfl
    exact Option.some.inj (hb.symm.trans hc)
  · rintro rfl
    exact C48_injective_partial cfg s ht htl x y hx hy he b hb hc

/-- C64: what is decoded from the encoding of a value compares equal with the value, unless there is a NaN. -/
theorem C64_round_trip (cfg : Cfg) (s : Schema) (ht : s.tagsOk) {tl : Tail} (htl : s.tail = some tl) (x : s.Val)
    (hv : s.Valid x) (he : cfg.encLenOverride = false ∨ s.PrefixOk x) (b : Bytes) (hb : (s.codec cfg).toBytes x = some b)
    (rest : Bytes) (hr : tl.Allows rest) :
    ∃ y, (s.codec cfg).Decodes cfg (b ++ rest) y rest ∧ (s.eqv x y = true ↔ ¬s.HasNan x) :=
  ⟨x, C51_round_trip_partial cfg s ht htl x hv he b hb rest hr, (C64_nan s).1 x⟩

/-- C64: of two equal values both or none can be encoded, and the encodings differ at most in the sign bytes of zeros;
in particular they are of the same length, and so are the announced lengths and the estimates, in all builds. -/
theorem C64_near (cfg : Cfg) (s : Schema) (x y : s.Val) (h : s.eqv x y = true) :
    ((s.codec cfg).toBytes x = none ∧ (s.codec cfg).toBytes y = none ∨
      ∃ b c, (s.codec cfg).toBytes x = some b ∧ (s.codec cfg).toBytes y = some c ∧ Near b c ∧ b.length = c.length) ∧
    (s.codec cfg).encLen cfg x = (s.codec cfg).encLen cfg y ∧ (s.codec cfg).estimate x = (s.codec cfg).estimate y := by
  have h1 := s.nears cfg x y h
  have h2 := (Nears.estimate (s.nears cfg) x y h).2
  have hl := h1.1.length
  rw [Writes.toBytes (s.writes_out cfg), Writes.toBytes (s.writes_out cfg)]
  refine ⟨?_, ?_, h2⟩
  · generalize s.out cfg x = a at h1
    generalize s.out cfg y = b at h1
    cases h1.1 with
    | none => exact .inl ⟨rfl, rfl⟩
    | some h => exact .inr ⟨_, _, rfl, rfl, h, h.length⟩
  · rw [encLen_eq (s.writes_out cfg), encLen_eq (s.writes_out cfg)]
    simp only [Enc.lenOf, h2, hl]

/-- It does happen that they differ there. -/
example (cfg : Cfg) : (Schema.f64.codec cfg).toBytes (0x0000000000000000#64 : BitVec 64) = some [0, 0, 0, 0, 0, 0, 0, 0] ∧
    (Schema.f64.codec cfg).toBytes (0x8000000000000000#64 : BitVec 64) = some [0x80, 0, 0, 0, 0, 0, 0, 0] ∧
    Schema.f64.eqv (0x0000000000000000#64 : BitVec 64) (0x8000000000000000#64 : BitVec 64) = true :=
  ⟨rfl, rfl, by decide +kernel⟩

/-- C64 fails with bare doubles: a NaN is decoded to something that is not equal to it, and zeros of different
sign are equal but have different encodings, even as `RangedFloat`. -/
theorem C64_fails (cfg : Cfg) :
    (∃ b, (Schema.f64.codec cfg).toBytes (0x7ff8000000000000 : BitVec 64) = some b ∧
      (Schema.f64.codec cfg).Decodes cfg (b ++ []) (0x7ff8000000000000 : BitVec 64) [] ∧
      Schema.f64.eqv (0x7ff8000000000000 : BitVec 64) (0x7ff8000000000000 : BitVec 64) = false) ∧
    (∀ min max : BitVec 64, ∃ b c, ((Schema.rangedFloat min max).codec cfg).toBytes (0 : BitVec 64) = some b ∧
      ((Schema.rangedFloat min max).codec cfg).toBytes (0x8000000000000000 : BitVec 64) = some c ∧ b ≠ c ∧
      (Schema.rangedFloat min max).eqv (0 : BitVec 64) (0x8000000000000000 : BitVec 64) = true) := by
  refine ⟨⟨_, rfl, ?_, by decide +kernel⟩, fun min max => ⟨_, _, rfl, rfl, by decide +kernel,
    (by decide +kernel : Cmp.f64Eq 0 0x8000000000000000 = true)⟩⟩
  exact C51_round_trip_partial cfg .f64 (by exact trivial) (tl := .any) rfl _ trivial
    (.inr trivial) _ rfl [] trivial

/-- C64: what decides: `None` before `Some`, earlier variants before later ones whatever their tags, earlier
fields and elements before later ones, a prefix before the longer sequence. -/
theorem C64_rules (s : Schema) (w : TagWidth) (tag : Nat) (vs : Variants) (fs : Fields) :
    (∀ x : s.Val, (Schema.option s).pcmp (none : Option s.Val) (some x) = some .lt) ∧
    (∀ (x : s.Val) (y : vs.Val), (Schema.data w (.cons tag s vs)).pcmp (.inl x : s.Val ⊕ vs.Val) (.inr y) = some .lt) ∧
    (∀ (x x' : s.Val) (y y' : fs.Val), s.eqv x x' = false →
      (Schema.record (.cons s fs)).pcmp ((x, y) : s.Val × fs.Val) (x', y') = s.pcmp x x') ∧
    (∀ (x x' : s.Val) (y y' : fs.Val), s.eqv x x' = true →
      (Schema.record (.cons s fs)).pcmp ((x, y) : s.Val × fs.Val) (x', y') = fs.pcmp y y') ∧
    (∀ (zs : List s.Val) (x x' : s.Val) (xs xs' : List s.Val), (∀ z ∈ zs, ¬s.HasNan z) → s.eqv x x' = false →
      (Schema.seq s).pcmp (zs ++ x :: xs : List s.Val) (zs ++ x' :: xs' : List s.Val) = s.pcmp x x') ∧
    (∀ (zs : List s.Val) (x : s.Val) (xs : List s.Val), (∀ z ∈ zs, ¬s.HasNan z) →
      (Schema.seq s).pcmp (zs : List s.Val) (zs ++ x :: xs : List s.Val) = some .lt) := by
  have ne : ∀ {x x'}, s.eqv x x' = false → s.pcmp x x' ≠ some .eq := fun h a => by
    rw [(s.cmp_laws.eq_iff _ _).mpr a] at h; cases h
  refine ⟨fun _ => rfl, fun _ _ => rfl, ?_, ?_, ?_, ?_⟩
  · intro x x' y y' h
    show Cmp.andThen s.pcmp fs.pcmp (x, y) (x', y') = _
    simp only [Cmp.andThen]
    split
    · next a => exact absurd a (ne h)
    · rfl
  · intro x x' y y' h
    show Cmp.andThen s.pcmp fs.pcmp (x, y) (x', y') = _
    simp only [Cmp.andThen, (s.cmp_laws.eq_iff _ _).mp h]
  · intro zs x x' xs xs' hz h
    show Cmp.slice s.pcmp _ _ = _
    induction zs with
    | nil =>
      simp only [List.nil_append, Cmp.slice]
      split
      · next a => exact absurd a (ne h)
      · rfl
    | cons z zs ih =>
      simp only [List.cons_append, Cmp.slice, (s.cmp_nans.refl z).mpr (hz z List.mem_cons_self)]
      exact ih fun a m => hz a (List.mem_cons_of_mem _ m)
  · intro zs x xs hz
    show Cmp.slice s.pcmp _ _ = _
    induction zs with
    | nil => rfl
    | cons z zs ih =>
      simp only [List.cons_append, Cmp.slice, (s.cmp_nans.refl z).mpr (hz z List.mem_cons_self)]
      exact ih fun a m => hz a (List.mem_cons_of_mem _ m)

/-- The base types: integers and N and Z by value, false before true, bytes by their first difference, `cstyle!` by discriminant. -/
theorem C64_base :
    (∀ (t : IntTy) (x y : t.Val), ((Schema.int t).pcmp x y = some .lt ↔ t.toInt x < t.toInt y)) ∧
    (∀ (t : IntTy) (min max : Int) (x y : t.Val),
      ((Schema.rangedInt t min max).pcmp x y = some .lt ↔ t.toInt x < t.toInt y)) ∧
    (∀ x y : Nat, (Schema.zarithN.pcmp x y = some .lt ↔ x < y)) ∧
    (∀ x y : Int, (Schema.zarithZ.pcmp x y = some .lt ↔ x < y)) ∧
    (∀ (w : TagWidth) (tags : List Nat) (x y : CEnum tags), ((Schema.cstyle w tags).pcmp x y = some .lt ↔ x.1 < y.1)) ∧
    (∀ x y : BitVec 64, Schema.f64.pcmp x y = some .lt ↔ F64.le x y = true ∧ F64.le y x = false) ∧
    (∀ (bs : Bytes) (a b : Byte) (as cs : Bytes), a < b →
      Schema.bytes.pcmp (bs ++ a :: as : Bytes) (bs ++ b :: cs : Bytes) = some .lt) ∧
    (∀ x y : Bool, Schema.bool.pcmp x y = some .lt ↔ x = false ∧ y = true) := by
  have k : ∀ {α : Type} (key : α → Int) (x y : α), Cmp.byInt key x y = some .lt ↔ key x < key y := by
    intro α key x y
    simp only [Cmp.byInt, Option.some.injEq, compare, compareOfLessAndEq]
    split
    · simp_all
    · split <;> simp_all
  refine ⟨fun t x y => k _ x y, fun t _ _ x y => k _ x y, fun x y => ?_, fun x y => k _ x y, fun w tags x y => ?_, fun x y => ?_, ?_, fun x y => ?_⟩
  · exact (k (fun (x : Nat) => (x : Int)) x y).trans Int.ofNat_lt
  · exact (k (fun (x : CEnum tags) => (x.1 : Int)) x y).trans Int.ofNat_lt
  · show Cmp.f64 x y = some .lt ↔ _
    have := k F64.key x y
    simp only [Cmp.byInt] at this
    simp only [Cmp.f64, F64.le]
    cases F64.isNan x <;> cases F64.isNan y <;> simp_all
    omega
  · intro bs a b as cs h
    show Cmp.slice _ _ _ = _
    induction bs with
    | nil =>
      have : a.toNat < b.toNat := h
      have := (k (fun (b : Byte) => (b.toNat : Int)) a b).mpr (Int.ofNat_lt.mpr this)
      simp only [List.nil_append, Cmp.slice, this]
    | cons z bs ih =>
      simp only [List.cons_append, Cmp.slice, Cmp.byInt_refl]
      exact ih
  · refine (k (fun (b : Bool) => if b then 1 else 0) x y).trans ?_
    cases x <;> cases y <;> decide

/-- Types and values that meet the hypotheses. -/
example : (Schema.record (.cons (.dynamic .u8 (.seq .zarithN)) (.cons (.option .bool) .nil))).floatFree = true := rfl
example : (Schema.seq (.rangedFloat 0 0x3ff0000000000000)).rangedFloats = true := rfl
example : (Schema.seq .f64).HasNan ([0x7ff8000000000000] : List (BitVec 64)) := ⟨_, List.mem_cons_self, (by decide : F64.isNan 0x7ff8000000000000 = true)⟩
example : (Schema.seq .bool).pcmp ([true, false] : List Bool) ([true, true] : List Bool) = some .lt := by decide

end Verif.Props
