import Verif.Lemmas.Hash
import Verif.Compare
/-
C71: values as keys of hash maps.
-/
namespace Verif.Props

/-- What `s.hash` feeds fits in memory: the lengths that are hashed are lengths a `usize` can hold. -/
def InMemory (e : Endian) (s : Schema) (x : s.Val) : Prop := ∀ n, HashCall.length n ∈ s.hash e x → n < usizeMod

/-- The bytes a hasher that implements `write` only gets to see. -/
def collect : ByteHasher := { σ := Bytes, init := [], byte := fun s b => s ++ [b], finish := fun _ => 0 }

/-- The bytes fed for a value: the state of the hasher that collects them. -/
def fed (e : Endian) (s : Schema) (x : s.Val) : Bytes :=
  (s.hash e x).foldl (collect.toHasher e).call []

theorem fed_eq (e : Endian) (s : Schema) (x : s.Val) : fed e s x = HashOf.flat e (s.hash e x) := by
  have h1 : ∀ (bs acc : Bytes), bs.foldl (fun s b => s ++ [b]) acc = acc ++ bs := by
    intro bs
    induction bs with
    | nil => intro acc; simp
    | cons b bs ih => intro acc; rw [List.foldl_cons, ih]; simp
  have h2 : ∀ (cs : List HashCall) (acc : Bytes),
      cs.foldl (fun (s : Bytes) c => (c.bytes e).foldl (fun s b => s ++ [b]) s) acc = acc ++ HashOf.flat e cs := by
    intro cs
    induction cs with
    | nil => intro acc; simp [HashOf.flat]
    | cons c cs ih =>
      intro acc
      rw [List.foldl_cons, ih, HashOf.flat_cons, ← List.append_assoc, h1]
  exact (h2 (s.hash e x) []).trans (List.nil_append _)

/-- C71: equal values have the same hash, whatever the hasher and whatever was hashed before: the calls are the
same. -/
theorem C71_equal (e : Endian) (s : Schema) (hf : s.floatFree = true) (x y : s.Val) (h : s.eqv x y = true) :
    s.hash e x = s.hash e y ∧ ∀ H : Hasher, H.hashOne e s x = H.hashOne e s y := by
  have := (s.eqv_exact hf x y).mp h
  subst this
  exact ⟨rfl, fun _ => rfl⟩

/-- C71: values that are not equal feed different bytes, and none feeds a beginning of what another feeds, so that
pairs and sequences of values are told apart as well.  The tags of the enums in the type must be distinct. -/
theorem C71_distinct (e : Endian) (s : Schema) (hf : s.floatFree = true) (ht : s.tagsOk) (x y : s.Val)
    (mx : InMemory e s x) (my : InMemory e s y) (h : s.eqv x y = false) :
    s.hash e x ≠ s.hash e y ∧ fed e s x ≠ fed e s y ∧ ¬fed e s x <+: fed e s y := by
  have fits : ∀ z, InMemory e s z → ∀ c ∈ s.hash e z, c.Fits := fun z m c hc => by
    cases c with
    | length n => exact m n hc
    | _ => trivial
  have ne : x ≠ y := fun he => by rw [(s.eqv_exact hf x y).mpr he] at h; cases h
  have key : ∀ t t', fed e s x ++ t ≠ fed e s y ++ t' := fun t t' he => by
    rw [fed_eq, fed_eq] at he
    exact ne (s.hash_pf e hf ht x y (fits x mx) (fits y my) t t' he).1
  have k0 : fed e s x ≠ fed e s y := fun he => key [] [] (by rw [he])
  refine ⟨fun he => k0 (by rw [fed, he]; rfl), k0, fun ⟨t, he⟩ => key t [] (by rw [he, List.append_nil])⟩

/-- C71: `hash_one` hashes all of it: for values that are not equal there is a hasher, one that implements `write` only, for which
they have different hashes; and a hasher that counts the calls counts them all. -/
theorem C71_hash_one (e : Endian) (s : Schema) (hf : s.floatFree = true) (ht : s.tagsOk) (x y : s.Val)
    (mx : InMemory e s x) (my : InMemory e s y) (h : s.eqv x y = false) :
    (∃ B : ByteHasher, (B.toHasher e).hashOne e s x ≠ (B.toHasher e).hashOne e s y) ∧
      Hasher.hashOne ⟨Nat, 0, fun n _ => n + 1, fun n => n⟩ e s x = (s.hash e x).length := by
  refine ⟨⟨⟨Bytes, [], fun s b => s ++ [b], fun bs => if bs = fed e s x then 1 else 0⟩, ?_⟩, ?_⟩
  · have h1 := (C71_distinct e s hf ht x y mx my h).2.1
    show (if fed e s x = fed e s x then (1 : BitVec 64) else 0) ≠ if fed e s y = fed e s x then 1 else 0
    rw [if_pos rfl, if_neg fun h => h1 h.symm]
    decide
  · have key : ∀ (cs : List HashCall) (n : Nat), cs.foldl (fun (n : Nat) _ => n + 1) n = n + cs.length := by
      intro cs
      induction cs with
      | nil => intro n; rfl
      | cons c cs ih => intro n; rw [List.foldl_cons, ih, List.length_cons]; omega
    show ((((s.hash e x).foldl (fun (n : Nat) _ => n + 1) 0 : Nat)) : BitVec 64) = _
    rw [key, Nat.zero_add]

/-- C71: a key and what it can be borrowed as (`Dynamic<S, T>` as `T`, `FixedBytes<N>` as `[u8; N]` and `[u8]`)
hash alike and compare alike, so that maps can be searched with the borrowed form.  The same is true of the other
wrappers. -/
theorem C71_borrow (e : Endian) (s : Schema) (S : LenPref) (n : Nat) :
    (∀ x y : s.Val, (Schema.dynamic S s).hash e x = s.hash e x ∧ (Schema.dynamic S s).eqv x y = s.eqv x y ∧
      (Schema.dynamic S s).pcmp x y = s.pcmp x y) ∧
    (∀ x y : ByteArr n, (Schema.fixedBytes n).hash e x = Schema.vecU8.hash e x.1 ∧
      (Schema.fixedBytes n).eqv x y = Schema.vecU8.eqv x.1 y.1 ∧ (Schema.fixedBytes n).pcmp x y = Schema.vecU8.pcmp x.1 y.1) ∧
    (∀ x y : ByteArr n, (Schema.fixedString n).hash e x = Schema.vecU8.hash e x.1 ∧
      (Schema.fixedString n).eqv x y = Schema.vecU8.eqv x.1 y.1) ∧
    (∀ x : s.Val, (Schema.vpadded n s).hash e x = s.hash e x ∧ (Schema.padded n s).hash e x = s.hash e x ∧
      (Schema.autobox s).hash e x = s.hash e x) ∧
    (∀ xs : List s.Val, (Schema.fixSeq n s).hash e xs = (Schema.seq s).hash e xs ∧
      (Schema.limSeq n s).hash e xs = (Schema.seq s).hash e xs) ∧
    (∀ bs : Bytes, Schema.bytes.hash e bs = Schema.vecU8.hash e bs) :=
  ⟨fun _ _ => ⟨rfl, rfl, rfl⟩, fun _ _ => ⟨rfl, rfl, rfl⟩, fun _ _ => ⟨rfl, rfl⟩, fun _ => ⟨rfl, rfl, rfl⟩,
    fun _ => ⟨rfl, rfl⟩, fun _ => rfl⟩

/-- C71: a value of a `data!` enum feeds its tag, in the width of the enum's backer, and then its payload. -/
theorem C71_data (e : Endian) (w : TagWidth) (tag : Nat) (s : Schema) (vs : Variants) :
    (∀ x : s.Val, (Schema.data w (.cons tag s vs)).hash e (.inl x : s.Val ⊕ vs.Val) = .int w.len tag :: s.hash e x) ∧
    (∀ y : vs.Val, (Schema.data w (.cons tag s vs)).hash e (.inr y : s.Val ⊕ vs.Val) = (Schema.data w vs).hash e y) :=
  ⟨fun _ => rfl, fun _ => rfl⟩

/-- C71 cannot do without distinct tags: `data!` accepts arms with the same tag, and values of such arms feed the
same data though they are not equal. -/
theorem C71_repeated_fails (e : Endian) : ∃ (s : Schema) (x y : s.Val), s.floatFree = true ∧ s.eqv x y = false ∧
    s.hash e x = s.hash e y :=
  ⟨.data .u8 (.cons 3 .bool (.cons 3 .bool .nil)), (.inl true : Bool ⊕ Bool ⊕ Empty), (.inr (.inl true) : Bool ⊕ Bool ⊕ Empty),
    rfl, rfl, rfl⟩

/-! ### examples -/

/-- An enum with two arms: a byte and a list of texts. -/
private abbrev sample : Schema := .data .u8 (.cons 0 (.int .u8) (.cons 7 (.seq .string) .nil))
private def v0 : sample.Val := (.inl 7#8 : BitVec 8 ⊕ (List (List Char)) ⊕ Empty)
private def v1 : sample.Val := (.inr (.inl [['a', 'b'], ['c']]) : BitVec 8 ⊕ (List (List Char)) ⊕ Empty)
private def v2 : sample.Val := (.inr (.inl [['a'], ['b', 'c']]) : BitVec 8 ⊕ (List (List Char)) ⊕ Empty)

example : sample.floatFree = true ∧ sample.tagsOk ∧ sample.eqv v1 v2 = false ∧ sample.eqv v1 v1 = true :=
  ⟨rfl, by simp [sample, Schema.tagsOk, Variants.tagsOk, Variants.tags, TagWidth.len], by decide +kernel, by decide +kernel⟩
/-- The `usize` 2 in the bytes of the target, which are `[2, 0, 0, 0, 0, 0, 0, 0]` on x86-64. -/
example : fed .little sample v1 = 7 :: (Endian.little.bytes usizeBytes 2 ++ [0x61, 0x62, 0xff, 0x63, 0xff]) := by
  have h : sample.hash .little v1 = [.int 1 7, .length 2, .str [0x61, 0x62], .str [0x63]] := by decide +kernel
  rw [fed_eq, h]
  simp [HashOf.flat, HashCall.bytes, Endian.bytes, toBe]
example : fed .big sample v2 = 7 :: (Endian.big.bytes usizeBytes 2 ++ [0x61, 0xff, 0x62, 0x63, 0xff]) := by
  have h : sample.hash .big v2 = [.int 1 7, .length 2, .str [0x61], .str [0x62, 0x63]] := by decide +kernel
  rw [fed_eq, h]
  simp [HashOf.flat, HashCall.bytes, Endian.bytes, toBe]
example : Endian.little.bytes 8 2 = [2, 0, 0, 0, 0, 0, 0, 0] ∧ Endian.big.bytes 4 2 = [0, 0, 0, 2] := by decide +kernel
example : InMemory .big sample v1 := by
  intro n h
  have : HashCall.length n ∈ [HashCall.int 1 7, .length 2, .str [0x61, 0x62], .str [0x63]] := h
  simp at this
  subst this
  decide
example : fed .little sample v0 = [0, 7] := by decide +kernel
/-- A number of two digits, and its negative. -/
example : (Schema.zarithZ).hash .big (-((usizeMod + 5 : Nat) : Int) : Int) =
    [.discr 0, .length 2, .write (Endian.big.bytes usizeBytes 5 ++ Endian.big.bytes usizeBytes 1)] := by
  have hg := usizeMod_ge
  have h2 : HashOf.limbs (usizeMod + 5) = [5, 1] := by
    rw [HashOf.limbs, if_neg (by omega), Nat.add_mod_left, Nat.mod_eq_of_lt (by omega), Nat.add_div_left _ (by omega),
      Nat.div_eq_of_lt (by omega), HashOf.limbs, if_neg (by omega), Nat.mod_eq_of_lt (by omega), Nat.div_eq_of_lt (by omega),
      HashOf.limbs, if_pos rfl]
  show HashOf.bigInt .big (-((usizeMod + 5 : Nat) : Int)) = _
  rw [HashOf.bigInt, if_pos (by omega), Int.natAbs_neg, Int.natAbs_natCast, HashOf.bigUint, h2]
  simp
/-- A slice of integers is written at once, a slice of ranged integers element by element; the bytes are the same. -/
example : (Schema.seq (.int .u16)).hash .little ([1#16, 2#16] : List (BitVec 16)) = [.length 2, .write [1, 0, 2, 0]] ∧
    (Schema.seq (.rangedInt .u16 0 9)).hash .little ([1#16, 2#16] : List (BitVec 16)) = [.length 2, .int 2 1, .int 2 2] :=
  ⟨by with_unfolding_all rfl, by with_unfolding_all rfl⟩
example : (Schema.cstyle .u8 [4]).hash .little (⟨4, by simp⟩ : CEnum [4]) = [] := rfl

end Verif.Props
