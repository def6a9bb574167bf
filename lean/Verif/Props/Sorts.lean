import Verif.Lemmas.Sorts
import Verif.Props.RecCompare
import Verif.Props.Hex
/-
C98: encodings as keys of a sorted store.
-/
namespace Verif.Props

open Codec

/-- C98: comparing the encodings of two well-formed values byte by byte gives what comparing the values gives, for types made of
unsigned integers, integers and doubles of ranges on one side of zero, booleans, enumerations and byte arrays, whose `data!` tags are in the order of declaration and
whose parts of open length come last. -/
theorem C98_sorted_partial (cfg : Cfg) (s : Schema) (hs : s.sorts false true = true) (ht : s.tagsOk) (x y : s.Val) (hx : s.Valid x)
    (hy : s.Valid y) (he : cfg.encLenOverride = false ∨ s.PrefixOk x ∧ s.PrefixOk y) (b c : Bytes)
    (hb : (s.codec cfg).toBytes x = some b) (hc : (s.codec cfg).toBytes y = some c) : Cmp.bytes b c = s.pcmp x y := by
  rw [toBytes_wire (he.imp id fun h => ⟨hx, h.1⟩)] at hb
  rw [toBytes_wire (he.imp id fun h => ⟨hy, h.2⟩)] at hc
  exact Sorts.last_eq (s.sorts_wire false true hs ht) hx hy hb hc

/-- C98: … also in the middle of longer keys: if nothing of the type has to come last, the encodings followed by anything compare like
the values, and, if the values are equal, like what follows. -/
theorem C98_followed_partial (cfg : Cfg) (s : Schema) (hs : s.sorts false false = true) (ht : s.tagsOk) (x y : s.Val) (hx : s.Valid x)
    (hy : s.Valid y) (he : cfg.encLenOverride = false ∨ s.PrefixOk x ∧ s.PrefixOk y) (b c r r' : Bytes)
    (hb : (s.codec cfg).toBytes x = some b) (hc : (s.codec cfg).toBytes y = some c) :
    Cmp.bytes (b ++ r) (c ++ r') = Cmp.andThen s.pcmp Cmp.bytes (x, r) (y, r') := by
  rw [toBytes_wire (he.imp id fun h => ⟨hx, h.1⟩)] at hb
  rw [toBytes_wire (he.imp id fun h => ⟨hy, h.2⟩)] at hc
  rw [s.sorts_wire false false hs ht x y b c r r' hx hy hb hc nofun, Cmp.andThen_eq]

theorem memo_pcmp_self (t : MemoBuilder) : t.pcmp t = some .eq := by
  unfold MemoBuilder.pcmp
  have h : Cmp.option Cmp.nat t.segs.spans.active t.segs.spans.active = some .eq := by
    cases t.segs.spans.active with
    | none => rfl
    | some n => exact Cmp.byInt_self _ n
  simp only [Cmp.andThen_eq]
  rw [show Cmp.bytes t.segs.buffer t.segs.buffer = some .eq from Cmp.slice_self (Cmp.byInt_self _) _,
    Cmp.slice_self (cmp := Cmp.nat) (Cmp.byInt_self _), h, show Cmp.nat t.segs.spans.cache t.segs.spans.cache = some .eq from Cmp.byInt_self _ _]
  rfl

/-- C98: … whichever of the library's containers holds the encodings: `StrictBuilder` and `HexString` compare as the values, and so
does `MemoBuilder`, which compares its boundaries too. -/
theorem C98_builders_partial (cfg : Cfg) (s : Schema) (hs : s.sorts false true = true) (ht : s.tagsOk) (x y : s.Val) (hx : s.Valid x)
    (hy : s.Valid y) (he : cfg.encLenOverride = false ∨ s.PrefixOk x ∧ s.PrefixOk y) :
    (∀ t u, (s.codec cfg).encode strictTarget x = some t → (s.codec cfg).encode strictTarget y = some u → t.pcmp u = s.pcmp x y) ∧
    (∀ t u, (s.codec cfg).encode hexTarget x = some t → (s.codec cfg).encode hexTarget y = some u →
      Cmp.bytes t.bytes u.bytes = s.pcmp x y) ∧
    (∀ t u, (s.codec cfg).encode memoTarget x = some t → (s.codec cfg).encode memoTarget y = some u → t.pcmp u = s.pcmp x y) := by
  rcases C35_targets_agree cfg s x with h | ⟨b, hb, -, b1, b2, b3, -⟩
  · refine ⟨fun t u h1 => ?_, fun t u h1 => ?_, fun t u h1 => ?_⟩ <;> unfold encode at h1
    · rw [h.2.2.1] at h1; cases h1
    · rw [h.2.2.2.1] at h1; cases h1
    · rw [h.2.2.2.2.1 _ [] memoCreate] at h1; cases h1
  rcases C35_targets_agree cfg s y with h | ⟨c, hc, -, c1, c2, c3, -⟩
  · refine ⟨fun t u _ h1 => ?_, fun t u _ h1 => ?_, fun t u _ h1 => ?_⟩ <;> unfold encode at h1
    · rw [h.2.2.1] at h1; cases h1
    · rw [h.2.2.2.1] at h1; cases h1
    · rw [h.2.2.2.2.1 _ [] memoCreate] at h1; cases h1
  have key := C98_sorted_partial cfg s hs ht x y hx hy he b c hb hc
  refine ⟨fun t u h1 h2 => ?_, fun t u h1 h2 => ?_, fun t u h1 h2 => ?_⟩
  · unfold encode at h1 h2
    rw [b1] at h1
    rw [c1] at h2
    cases h1; cases h2
    exact key
  · unfold encode at h1 h2
    rw [b2] at h1
    rw [c2] at h2
    cases h1; cases h2
    exact key
  · obtain ⟨t', e1, -, e2⟩ := (b3 _ [] memoCreate).2
    obtain ⟨u', e3, -, e4⟩ := (c3 _ [] memoCreate).2
    have e5 : t = t' := by unfold encode at h1; rw [e1] at h1; exact (Option.some.inj h1).symm
    have e6 : u = u' := by unfold encode at h2; rw [e3] at h2; exact (Option.some.inj h2).symm
    have e7 : t.segs.buffer = b := by rw [e5]; exact e2
    have e8 : u.segs.buffer = c := by rw [e6]; exact e4
    by_cases hq : s.pcmp x y = some .eq
    · have : x = y := s.sorts_exact _ _ hs x y hx hy (((C64_order s).1 x y).mpr hq)
      subst this
      rw [h1] at h2
      cases h2
      rw [hq]
      exact memo_pcmp_self t
    · rw [← key] at hq ⊢
      unfold MemoBuilder.pcmp
      rw [Cmp.andThen_eq, e7, e8]
      exact Cmp.next_ne hq _

/-! ### recursive types -/

/-- C98 for recursive types: … if the definitions are so, the types mentioned in them taken for ones that sort (`h`: wherever they are;
otherwise only where nothing follows). -/
theorem C98_recursive_partial (cfg : Cfg) (d : Decls) {i : Nat} (h : Bool) (hs : ∀ j, (d.body j).sorts h (!h) = true)
    (hst : d.Stable) (hn : ∀ j, (d.body j).nonempty = true) (ht : ∀ j, (d.body j).tagsOk) (a a' : d.Val i)
    (he : (cfg.encLenOverride = false ∧ d.Valid a) ∨ d.PrefixOk a)
    (he' : (cfg.encLenOverride = false ∧ d.Valid a') ∨ d.PrefixOk a') (b c : Bytes)
    (hb : (d.codec cfg i).toBytes a = some b) (hc : (d.codec cfg i).toBytes a' = some c) :
    Cmp.bytes b c = d.pcmp a a' ∧
      (h = true → ∀ r r', Cmp.bytes (b ++ r) (c ++ r') = Cmp.andThen d.pcmp Cmp.bytes (a, r) (a', r')) := by
  obtain ⟨n, x, rfl, hx, hb, -⟩ := rec_valid_wire cfg d he hb
  obtain ⟨m, y, rfl, hy, hc, -⟩ := rec_valid_wire cfg d he' hc
  obtain ⟨k, x', y', e1, e2, hx', hy'⟩ := d.exists_two_valid x y hx hy
  have hb' := ((C52_encode ⟨.release, false, false, false⟩ d rfl n x).2 k x' e1.symm).trans hb
  have hc' := ((C52_encode ⟨.release, false, false, false⟩ d rfl m y).2 k y' e2.symm).trans hc
  have hk := d.sorts hs hst hn k i
  rw [← e1, ← e2]
  have e : d.pcmp (d.val k x') (d.val k y') = (d.unfold k i).pcmp x' y' := d.pcmp_val x' y'
  refine ⟨?_, ?_⟩
  · have hk' : (d.unfold k i).sorts h true = true := by
      cases h with
      | false => exact hk
      | true => exact (d.unfold k i).sorts_mono _ hk
    rw [e]
    exact Sorts.last_eq ((d.unfold k i).sorts_wire h true hk' (d.tagsOk ht k i)) hx' hy' hb' hc'
  · rintro rfl r r'
    rw [Cmp.andThen_eq, e]
    exact (d.unfold k i).sorts_wire true false hk (d.tagsOk ht k i) x' y' b c r r' hx' hy' hb' hc' nofun

/-! ### text -/

theorem hexDigit_sorts : ∀ m n : Fin 16, Cmp.bytes (utf8Char (hexDigit m)) (utf8Char (hexDigit n)) =
    some (compare ((m.val : Nat) : Int) ((n.val : Nat) : Int)) ∧ (utf8Char (hexDigit m)).length = 1 := by decide +kernel

theorem fmt02x_sorts (a b : Byte) :
    Cmp.bytes (utf8 (fmt02x a)) (utf8 (fmt02x b)) = some (compare (a.toNat : Int) (b.toNat : Int)) ∧ (utf8 (fmt02x a)).length = 2 := by
  have ha := a.toNat_lt
  have hb := b.toNat_lt
  have h1 := hexDigit_sorts ⟨a.toNat / 16, by omega⟩ ⟨b.toNat / 16, by omega⟩
  have h2 := hexDigit_sorts ⟨a.toNat % 16, by omega⟩ ⟨b.toNat % 16, by omega⟩
  have h3 := hexDigit_sorts ⟨b.toNat / 16, by omega⟩ ⟨b.toNat / 16, by omega⟩
  have e : ∀ c : Byte, utf8 (fmt02x c) = utf8Char (hexDigit (c.toNat / 16)) ++ utf8Char (hexDigit (c.toNat % 16)) :=
    fun c => by simp [utf8, fmt02x]
  dsimp only at h1 h2 h3
  rw [e, e, List.length_append, h1.2, h2.2, Cmp.bytes_append (h1.2.trans h3.2.symm), h1.1, h2.1]
  refine ⟨?_, rfl⟩
  rcases Int.lt_trichotomy ((a.toNat / 16 : Nat) : Int) ((b.toNat / 16 : Nat) : Int) with h | h | h
  · rw [Cmp.int_compare_lt h, Cmp.int_compare_lt (m := (a.toNat : Int)) (by omega)]; rfl
  · rw [h, Cmp.int_compare_self, Cmp.next_eq]
    rcases Int.lt_trichotomy ((a.toNat % 16 : Nat) : Int) ((b.toNat % 16 : Nat) : Int) with h' | h' | h'
    · rw [Cmp.int_compare_lt h', Cmp.int_compare_lt (m := (a.toNat : Int)) (by omega)]
    · rw [h', Cmp.int_compare_self, show (a.toNat : Int) = b.toNat by omega, Cmp.int_compare_self]
    · rw [Cmp.int_compare_gt h', Cmp.int_compare_gt (m := (a.toNat : Int)) (by omega)]
  · rw [Cmp.int_compare_gt h, Cmp.int_compare_gt (m := (a.toNat : Int)) (by omega)]; rfl

/-- C98: the texts of two byte strings (`into_hex`, `HexString::to_hex`) sort like the byte strings. -/
theorem C98_hex : ∀ b c : Bytes, Cmp.bytes (utf8 (hexOfBytes b)) (utf8 (hexOfBytes c)) = Cmp.bytes b c := by
  have e : ∀ a (b : Bytes), utf8 (hexOfBytes (a :: b)) = utf8 (fmt02x a) ++ utf8 (hexOfBytes b) := fun a b => by
    simp only [hexOfBytes_flatMap, List.flatMap_cons, utf8, List.flatMap_append]
  have ne : ∀ a (b : Bytes), utf8 (hexOfBytes (a :: b)) ≠ [] := fun a b h => by
    rw [e] at h
    have := (fmt02x_sorts a a).2
    rw [(List.append_eq_nil_iff.mp h).1] at this
    cases this
  intro b
  induction b with
  | nil =>
    intro c
    cases c with
    | nil => rfl
    | cons x c => exact Sorts.nil_bytes (ne x c)
  | cons a b ih =>
    intro c
    cases c with
    | nil => exact Sorts.bytes_nil (ne a b)
    | cons x c =>
      rw [e, e, Cmp.bytes_append ((fmt02x_sorts a a).2.trans (fmt02x_sorts x x).2.symm), (fmt02x_sorts a x).1, ih c, Cmp.bytes_cons]

/-! ### numbers and tags exactly -/

/-- C98, integers exactly: the encodings of two integers sort like the integers if and only if both are negative or none is. -/
theorem C98_int_exact (cfg : Cfg) (t : IntTy) (x y : t.Val) (b c : Bytes) (hb : ((Schema.int t).codec cfg).toBytes x = some b)
    (hc : ((Schema.int t).codec cfg).toBytes y = some c) :
    Cmp.bytes b c = (Schema.int t).pcmp x y ↔ (t.toInt x < 0 ↔ t.toInt y < 0) := by
  have hb := (toBytes_wire (cfg := cfg) (s := .int t) (x := x) (.inr ⟨trivial, trivial⟩)).symm.trans hb
  have hc := (toBytes_wire (cfg := cfg) (s := .int t) (x := y) (.inr ⟨trivial, trivial⟩)).symm.trans hc
  cases hb; cases hc
  rw [Cmp.bytes_toBe t.len (t.toNat_lt x) (t.toNat_lt y)]
  show some _ = some (compare (t.toInt x) (t.toInt y)) ↔ _
  have hx := t.toNat_lt x
  have hy := t.toNat_lt y
  by_cases h1 : t.toInt x < 0 <;> by_cases h2 : t.toInt y < 0
  · rw [t.toInt_of_neg x h1, t.toInt_of_neg y h2, Sorts.int_compare_add]
    rw [t.toInt_of_neg x h1] at h1
    rw [t.toInt_of_neg y h2] at h2
    exact ⟨fun _ => ⟨fun _ => h2, fun _ => h1⟩, fun _ => rfl⟩
  · have e1 := t.toInt_of_neg x h1
    have e2 := t.toInt_of_nonneg y (by omega)
    refine ⟨fun h => ?_, fun h => absurd (h.mp h1) h2⟩
    have hlt : (y.toNat : Int) < x.toNat := by
      have := t.neg_big x h1
      have := t.nonneg_small y (by omega) (t.neg_signed x h1)
      omega
    rw [Cmp.int_compare_gt hlt, Cmp.int_compare_lt (show t.toInt x < t.toInt y by omega)] at h
    cases h
  · have e1 := t.toInt_of_nonneg x (by omega)
    have e2 := t.toInt_of_neg y h2
    refine ⟨fun h => ?_, fun h => absurd (h.mpr h2) h1⟩
    have hlt : (x.toNat : Int) < y.toNat := by
      have := t.neg_big y h2
      have := t.nonneg_small x (by omega) (t.neg_signed y h2)
      omega
    rw [Cmp.int_compare_lt hlt, Cmp.int_compare_gt (show t.toInt y < t.toInt x by omega)] at h
    cases h
  · rw [t.toInt_of_nonneg x (by omega), t.toInt_of_nonneg y (by omega)]
    exact ⟨fun _ => ⟨fun h => by omega, fun h => by omega⟩, fun _ => rfl⟩

/-- C98, doubles exactly: the encodings of two doubles sort like the doubles if and only if none is a NaN and they are the same or
both have the sign +. -/
theorem C98_f64_exact (cfg : Cfg) (x y : BitVec 64) (b c : Bytes) (hb : (Schema.f64.codec cfg).toBytes x = some b)
    (hc : (Schema.f64.codec cfg).toBytes y = some c) :
    Cmp.bytes b c = Schema.f64.pcmp x y ↔ F64.isNan x = false ∧ F64.isNan y = false ∧ (x = y ∨ x.toNat < 2 ^ 63 ∧ y.toNat < 2 ^ 63) := by
  have hb := (toBytes_wire (cfg := cfg) (s := .f64) (x := x) (.inr ⟨trivial, trivial⟩)).symm.trans hb
  have hc := (toBytes_wire (cfg := cfg) (s := .f64) (x := y) (.inr ⟨trivial, trivial⟩)).symm.trans hc
  cases hb; cases hc
  rw [Cmp.bytes_toBe 8 (F64.toNat_lt x) (F64.toNat_lt y)]
  show some _ = Cmp.f64 x y ↔ _
  unfold Cmp.f64
  cases hx : F64.isNan x <;> cases hy : F64.isNan y <;> simp only [Bool.or_false, Bool.or_true, Bool.false_or, Bool.true_or, if_true, Bool.false_eq_true, if_false, true_and, false_and, reduceCtorEq, and_false, iff_false, not_false_eq_true]
  by_cases he : x = y
  · subst he
    rw [Cmp.int_compare_self, Cmp.int_compare_self]
    simp
  have hne : x.toNat ≠ y.toNat := fun h => he (BitVec.eq_of_toNat_eq h)
  have h1 := x.isLt
  have h2 := y.isLt
  have key : ∀ z : BitVec 64, F64.key z = if z.toNat < 2 ^ 63 then (z.toNat : Int) else -((z.toNat - 2 ^ 63 : Nat) : Int) := by
    intro z
    have hz := z.isLt
    unfold F64.key
    simp only [Int.ofNat_eq_natCast]
    by_cases h : z.toNat < 2 ^ 63
    · rw [if_pos h, if_neg (by omega), Nat.mod_eq_of_lt h]
    · rw [if_neg h, if_pos (by omega), Nat.mod_eq_sub_mod (by omega), Nat.mod_eq_of_lt (by omega)]
  rw [key x, key y]
  simp only [he, false_or]
  by_cases p : x.toNat < 2 ^ 63 <;> by_cases q : y.toNat < 2 ^ 63
  · rw [if_pos p, if_pos q]; exact ⟨fun _ => ⟨p, q⟩, fun _ => rfl⟩
  · rw [if_pos p, if_neg q, Cmp.int_compare_lt (m := (x.toNat : Int)) (by omega)]
    refine ⟨fun h => ?_, fun h => absurd h.2 q⟩
    by_cases hz : (x.toNat : Int) = -((y.toNat - 2 ^ 63 : Nat) : Int)
    · rw [hz, Cmp.int_compare_self] at h; cases h
    · rw [Cmp.int_compare_gt (by omega)] at h; cases h
  · rw [if_neg p, if_pos q, Cmp.int_compare_gt (m := (x.toNat : Int)) (by omega)]
    refine ⟨fun h => ?_, fun h => absurd h.1 p⟩
    by_cases hz : -((x.toNat - 2 ^ 63 : Nat) : Int) = (y.toNat : Int)
    · rw [hz, Cmp.int_compare_self] at h; cases h
    · rw [Cmp.int_compare_lt (by omega)] at h; cases h
  · rw [if_neg p, if_neg q]
    refine ⟨fun h => ?_, fun h => absurd h.1 p⟩
    rcases Nat.lt_or_gt_of_ne hne with hlt | hgt
    · rw [Cmp.int_compare_lt (m := (x.toNat : Int)) (by omega), Cmp.int_compare_gt (by omega)] at h; cases h
    · rw [Cmp.int_compare_gt (m := (x.toNat : Int)) (by omega), Cmp.int_compare_lt (by omega)] at h; cases h

theorem wire_tagval (cfg : Cfg) (w : TagWidth) : ∀ (vs : Variants) (x : vs.Val) {b : Bytes}, vs.wire w x = some b →
    ∃ b', b = toBe w.len ((vs.codec cfg).tagval x) ++ b' ∧ (vs.codec cfg).tagval x ∈ vs.tags
  | .nil, x, _, _ => nomatch x
  | .cons tag _ vs, .inl x, b, h => by
    obtain ⟨_, b', e1, _, rfl⟩ := cat_eq_some.mp h
    cases e1
    exact ⟨b', rfl, .head _⟩
  | .cons _ _ vs, .inr x, b, h => by
    obtain ⟨b', e, hm⟩ := wire_tagval cfg w vs x h
    exact ⟨b', e, .tail _ hm⟩

/-- C98, enumerations exactly: the encodings of values with different tags sort like the tags (`get_tagval`), whatever follows them
and in whatever order the variants are declared. -/
theorem C98_tags_exact (cfg : Cfg) (w : TagWidth) (vs : Variants) (ht : (Schema.data w vs).tagsOk) (x y : vs.Val)
    (hx : vs.Valid x) (hy : vs.Valid y)
    (he : cfg.encLenOverride = false ∨ (Schema.data w vs).PrefixOk x ∧ (Schema.data w vs).PrefixOk y) (b c r r' : Bytes)
    (hb : ((Schema.data w vs).codec cfg).toBytes x = some b) (hc : ((Schema.data w vs).codec cfg).toBytes y = some c)
    (hne : (vs.codec cfg).tagval x ≠ (vs.codec cfg).tagval y) :
    Cmp.bytes (b ++ r) (c ++ r') = some (compare ((vs.codec cfg).tagval x : Int) ((vs.codec cfg).tagval y : Int)) := by
  have hb := (toBytes_wire (cfg := cfg) (s := .data w vs) (x := x) (he.imp id fun h => ⟨hx, h.1⟩)).symm.trans hb
  have hc := (toBytes_wire (cfg := cfg) (s := .data w vs) (x := y) (he.imp id fun h => ⟨hy, h.2⟩)).symm.trans hc
  obtain ⟨b', rfl, hm⟩ := wire_tagval cfg w vs x hb
  obtain ⟨c', rfl, hm'⟩ := wire_tagval cfg w vs y hc
  rw [List.append_assoc, List.append_assoc, Cmp.bytes_append (by simp), Cmp.bytes_toBe w.len (ht.1 _ hm) (ht.1 _ hm')]
  refine Cmp.next_ne (fun h => hne ?_) _
  rcases Nat.lt_trichotomy ((vs.codec cfg).tagval x) ((vs.codec cfg).tagval y) with h' | h' | h'
  · rw [Cmp.int_compare_lt (by omega)] at h; cases h
  · exact h'
  · rw [Cmp.int_compare_gt (by omega)] at h; cases h

/-! ### where it fails -/

/-- Two values in one order, their encodings in the other, in all builds. -/
def Disordered (s : Schema) : Prop :=
  ∃ x y b c, s.Valid x ∧ s.Valid y ∧ (∀ cfg, (s.codec cfg).toBytes x = some b) ∧ (∀ cfg, (s.codec cfg).toBytes y = some c) ∧
    s.pcmp x y = some .lt ∧ Cmp.bytes b c = some .gt

/-- C98 fails for signed integers (−1 and 0), doubles (−1 and 1), `N` (129 and 256) and `Z` (−1 and 0), for what has a length in front
(the byte strings 0000 and 01), for enumerations whose tags are not in the order of declaration, and where something follows a part
that has to be last. -/
theorem C98_fails : Disordered (.int .i8) ∧ Disordered .f64 ∧ Disordered .zarithN ∧ Disordered .zarithZ ∧
    Disordered (.dynamic .u8 .bytes) ∧ Disordered (.data .u8 (.cons 1 .unit (.cons 0 .unit .nil))) ∧
    Disordered (.record (.cons .bytes (.cons (.int .u8) .nil))) := by
  refine ⟨⟨(-1 : BitVec 8), (0 : BitVec 8), [0xff], [0], trivial, trivial, fun _ => rfl, fun _ => rfl, by decide, by decide⟩,
    ⟨(0xbff0000000000000 : BitVec 64), (0x3ff0000000000000 : BitVec 64), [0xbf, 0xf0, 0, 0, 0, 0, 0, 0], [0x3f, 0xf0, 0, 0, 0, 0, 0, 0],
      trivial, trivial, fun _ => by with_unfolding_all rfl, fun _ => by with_unfolding_all rfl, by decide, by decide⟩,
    ⟨(129 : Nat), (256 : Nat), [0x81, 1], [0x80, 2], trivial, trivial, fun _ => ?_, fun _ => ?_, by decide, by decide⟩,
    ⟨(-1 : Int), (0 : Int), [0x41], [0], trivial, trivial, fun _ => ?_, fun _ => ?_, by decide, by decide⟩,
    ⟨([0, 0] : Bytes), ([1] : Bytes), [2, 0, 0], [1, 1], trivial, trivial, fun _ => ?_, fun _ => ?_, by decide, by decide⟩,
    ⟨.inl (), .inr (.inl ()), [1], [0], trivial, trivial, fun _ => rfl, fun _ => rfl, by decide, by decide⟩,
    ⟨(([] : Bytes), ((5 : BitVec 8), ())), (([0] : Bytes), ((0 : BitVec 8), ())), [5], [0, 0], ⟨trivial, trivial, trivial⟩,
      ⟨trivial, trivial, trivial⟩, fun _ => rfl, fun _ => rfl, by decide, by decide⟩⟩
  · exact (toBytes_wire (s := .zarithN) (.inr ⟨trivial, trivial⟩)).trans (by with_unfolding_all rfl)
  · exact (toBytes_wire (s := .zarithN) (.inr ⟨trivial, trivial⟩)).trans (by with_unfolding_all rfl)
  · exact (toBytes_wire (s := .zarithZ) (.inr ⟨trivial, trivial⟩)).trans (by with_unfolding_all rfl)
  · exact (toBytes_wire (s := .zarithZ) (.inr ⟨trivial, trivial⟩)).trans (by with_unfolding_all rfl)
  · exact (toBytes_wire (s := .dynamic .u8 .bytes) (.inr ⟨trivial, trivial⟩)).trans (by with_unfolding_all rfl)
  · exact (toBytes_wire (s := .dynamic .u8 .bytes) (.inr ⟨trivial, trivial⟩)).trans (by with_unfolding_all rfl)

/-! ### examples -/

/-- A key: `{ kind: data!(0: u16, 7: (u8, FixedBytes<2>)), owner: Option<FixedBytes<2>>, path: Sequence<u16> }` -/
def sortKey : Schema := .record (.cons (.data .u8 (.cons 0 (.int .u16) (.cons 7 (.record (.cons (.int .u8) (.cons (.fixedBytes 2) .nil))) .nil)))
  (.cons (.option (.fixedBytes 2)) (.cons (.seq (.int .u16)) .nil)))

example : sortKey.sorts false true = true ∧ sortKey.tagsOk := by
  refine ⟨rfl, ⟨by decide, ?_⟩, trivial, trivial, trivial⟩
  exact ⟨by decide, trivial, by decide, ⟨trivial, trivial, trivial⟩, trivial⟩
/-- `([u8], FixedBytes<2>)` may be followed by anything. -/
example : (Schema.record (.cons (.int .u8) (.cons (.fixedBytes 2) .nil))).sorts false false = true := rfl
/-- Chains of bytes sort wherever they stand. -/
example : (∀ j, (u8Seq.body j).sorts true false = true) ∧ u8Seq.Stable ∧ (∀ j, (u8Seq.body j).nonempty = true) ∧ ∀ j, (u8Seq.body j).tagsOk :=
  ⟨fun _ => rfl, fun _ => ⟨rfl, rfl⟩, fun _ => rfl, fun _ => ⟨trivial, trivial, trivial⟩⟩

/-- −3 … −1 and 0.5 … 2 as parts of keys; −1 and 0 do not sort, nor do −0 and 0. -/
example : (Schema.record (.cons (.rangedInt .i8 (-3) (-1)) (.cons (.rangedFloat 0x3fe0000000000000 0x4000000000000000) .nil))).sorts false false = true := by
  decide
example (cfg : Cfg) : ((Schema.int .i8).codec cfg).toBytes (-1 : BitVec 8) = some [0xff] ∧
    ((Schema.int .i8).codec cfg).toBytes (-2 : BitVec 8) = some [0xfe] ∧ (IntTy.toInt .i8 (-1 : BitVec 8) < 0 ↔ IntTy.toInt .i8 (-2 : BitVec 8) < 0) :=
  ⟨rfl, rfl, by decide⟩
example (cfg : Cfg) : (Schema.f64.codec cfg).toBytes (0x3ff0000000000000 : BitVec 64) = some [0x3f, 0xf0, 0, 0, 0, 0, 0, 0] := by
  with_unfolding_all rfl
/-- Tags 9 and 4. -/
example (cfg : Cfg) : (Schema.data .u8 (.cons 9 .unit (.cons 4 .bool .nil))).tagsOk ∧
    ((Variants.cons 9 .unit (.cons 4 .bool .nil)).codec cfg).tagval (.inl ()) = 9 ∧
    ((Variants.cons 9 .unit (.cons 4 .bool .nil)).codec cfg).tagval (.inr (.inl true)) = 4 :=
  ⟨⟨by decide, by decide, trivial, by decide, trivial, trivial⟩, rfl, rfl⟩

end Verif.Props
