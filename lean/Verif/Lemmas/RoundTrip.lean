import Verif.Spec.Format
import Verif.Lemmas.Num
import Verif.Lemmas.Decode
import Verif.Lemmas.Utf8
/-
Every encoder/decoder pair of the wire format round-trips.
-/
namespace Verif

variable {α β : Type}

theorem toBe_one (b : Byte) : toBe 1 b.toNat = [b] := by
  have := toBe_ofBe [b]
  simpa [ofBe] using this

theorem TagWidth.len_pos (w : TagWidth) : 0 < w.len := by cases w <;> decide
theorem TagWidth.len_le (w : TagWidth) : w.len ≤ isizeMax + 1 := by cases w <;> decide
theorem LenPref.len_pos (S : LenPref) : 0 < S.len := by cases S <;> decide
theorem LenPref.len_le (S : LenPref) : S.len ≤ isizeMax + 1 := by cases S <;> decide
theorem LenPref.maxLen_lt (S : LenPref) : S.maxLen < 256 ^ S.len := by cases S <;> decide
theorem LenPref.maxLen_le (S : LenPref) : S.maxLen ≤ isizeMax + 1 := by cases S <;> decide
theorem IntTy.len_pos (t : IntTy) : 0 < t.len := by cases t <;> decide
theorem IntTy.len_le (t : IntTy) : t.len ≤ isizeMax + 1 := by cases t <;> decide

/-! ### numbers -/

theorem Enc.nat7_ne_nil (n : Nat) : Enc.nat7 n ≠ [] := by
  unfold Enc.nat7
  split <;> simp

theorem Dec.val7_nat7 (n : Nat) : Dec.val7 (Enc.nat7 n) = n := by
  induction n using Nat.strongRecOn with
  | _ n ih =>
    unfold Enc.nat7
    split
    · rename_i h
      simp only [Dec.val7, List.foldr_cons, List.foldr_nil, byte_ofNat_toNat (show n < 256 by omega)]
      omega
    · rename_i h
      have := ih (n / 128) (by omega)
      simp only [Dec.val7] at this
      simp only [Dec.val7, List.foldr_cons, this, byte_ofNat_toNat (show n % 128 + 128 < 256 by omega)]
      omega

theorem D.until'_nat7 (n : Nat) (acc t : Bytes) :
    D.until' (fun b => b.toNat < 128) acc (Enc.nat7 n ++ t) = .ok (acc ++ Enc.nat7 n) t := by
  induction n using Nat.strongRecOn generalizing acc with
  | _ n ih =>
    unfold Enc.nat7
    split
    · rename_i h
      simp only [List.cons_append, List.nil_append, D.until', byte_ofNat_toNat (show n < 256 by omega), h]
      simp
    · rename_i h
      simp only [List.cons_append, D.until', byte_ofNat_toNat (show n % 128 + 128 < 256 by omega)]
      rw [if_neg (by simp), ih (n / 128) (by omega)]
      simp

theorem Dec.ival7_int7 (z : Int) : Dec.ival7 (Enc.int7 z) = z := by
  unfold Enc.int7
  simp only
  by_cases hz : z < 0
  · simp only [hz, if_true]
    split
    · rename_i h
      simp only [Dec.ival7, byte_ofNat_toNat (show z.natAbs + 64 < 256 by omega), Dec.val7, List.foldr_nil]
      rw [if_pos (by omega)]
      omega
    · rename_i h
      simp only [Dec.ival7, byte_ofNat_toNat (show z.natAbs % 64 + 64 + 128 < 256 by omega), Dec.val7_nat7]
      rw [if_pos (by omega)]
      omega
  · simp only [hz, if_false]
    split
    · rename_i h
      simp only [Dec.ival7, byte_ofNat_toNat (show z.natAbs + 0 < 256 by omega), Dec.val7, List.foldr_nil]
      rw [if_neg (by omega)]
      omega
    · rename_i h
      simp only [Dec.ival7, byte_ofNat_toNat (show z.natAbs % 64 + 0 + 128 < 256 by omega), Dec.val7_nat7]
      rw [if_neg (by omega)]
      omega

theorem D.until'_int7 (z : Int) (t : Bytes) :
    D.until_ (fun b => b.toNat < 128) (Enc.int7 z ++ t) = .ok (Enc.int7 z) t := by
  unfold Enc.int7
  simp only
  generalize hs : (if z < 0 then 64 else 0) = s
  have hs' : s ≤ 64 := by subst hs; split <;> omega
  split
  · rename_i h
    simp only [D.until_, D.until', List.cons_append, List.nil_append,
      byte_ofNat_toNat (show z.natAbs + s < 256 by omega)]
    rw [if_pos (by simp; omega)]
  · rename_i h
    simp only [D.until_, List.cons_append, D.until',
      byte_ofNat_toNat (show z.natAbs % 64 + s + 128 < 256 by omega)]
    rw [if_neg (by simp), D.until'_nat7]
    simp

namespace RoundTrips

theorem unit : RoundTrips Enc.unit Dec.unit (fun _ => True) .any := by
  intro x b t _ h _
  cases h
  rfl

theorem bool : RoundTrips Enc.bool Dec.bool (fun _ => True) .any := by
  intro x b t _ h _
  cases h
  cases x <;> rfl

theorem int (ty : IntTy) : RoundTrips (Enc.int ty) (Dec.int ty) (fun _ => True) .any := by
  intro x b t _ h _
  cases h
  simp only [Dec.int, D.map_run, D.take_append (toBe_length _ _), DecRes.bind_ok, IntTy.ofBe_toBe]

theorem f64 : RoundTrips Enc.f64 Dec.f64 (fun _ => True) .any := int .u64

theorem rangedInt (ty : IntTy) (min max : Int) :
    RoundTrips (Enc.rangedInt ty min max) (Dec.rangedInt ty min max) (fun _ => True) .any := by
  intro x b t hv h hk
  simp only [Enc.rangedInt] at h
  split at h
  · rename_i hr
    simp only [Dec.rangedInt, D.bind_run, int ty x b t hv h hk, DecRes.bind_ok, restrict_ok_iff.mpr hr]
    rfl
  · cases h

theorem rangedFloat (min max : BitVec 64) :
    RoundTrips Enc.f64 (Dec.rangedFloat min max) (fun x => F64.le min x ∧ F64.le x max ∧ F64.le min max) .any := by
  intro x b t hv h hk
  simp only [Dec.rangedFloat, D.bind_run, f64 x b t trivial h hk, DecRes.bind_ok, restrictFloat, hv.1, hv.2.1,
    hv.2.2]
  rfl

theorem byteArr (n : Nat) : RoundTrips (Enc.byteArr n) (Dec.byteArr n) (fun _ => True) .any := by
  intro x b t _ h _
  cases h
  simp only [Dec.byteArr, D.bind_run, D.take_append x.2, DecRes.bind_ok, dif_pos x.2]
  rfl

theorem bytes : RoundTrips Enc.bytes Dec.bytes (fun _ => True) (.exact 0) := by
  intro x b t _ h hk
  cases h
  cases List.length_eq_zero_iff.mp hk
  simp [Dec.bytes, D.rest]

theorem string : RoundTrips Enc.string Dec.string (fun _ => True) (.exact 0) := by
  intro x b t _ h hk
  cases h
  cases List.length_eq_zero_iff.mp hk
  simp [Dec.string, D.rest, lossy_utf8]

theorem zarithN : RoundTrips Enc.zarithN Dec.zarithN (fun _ => True) .any := by
  intro x b t _ h _
  cases h
  simp only [Dec.zarithN, Dec.terminated, D.map_run, D.until_, D.until'_nat7, List.nil_append, DecRes.bind_ok,
    Dec.val7_nat7]

theorem zarithZ : RoundTrips Enc.zarithZ Dec.zarithZ (fun _ => True) .any := by
  intro x b t _ h _
  cases h
  simp only [Dec.zarithZ, Dec.terminated, D.map_run, D.until'_int7, DecRes.bind_ok, Dec.ival7_int7]

end RoundTrips

/-! ### constructors -/

theorem Dec.tag_append (w : TagWidth) {tags : List Nat} {tag : Nat} (ht : tag ∈ tags) (hw : tag < 256 ^ w.len)
    (t : Bytes) : Dec.tag w tags (toBe w.len tag ++ t) = .ok tag t := by
  simp only [Dec.tag, D.bind_run, D.map_run, D.take_append (toBe_length _ _), DecRes.bind_ok,
    ofBe_toBe_of_lt hw, if_pos ht]
  rfl

theorem Dec.lenPref_append (S : LenPref) {n : Nat} (h : n ≤ S.maxLen) (t : Bytes) :
    Dec.lenPref S (toBe S.len n ++ t) = .ok n t := by
  simp only [Dec.lenPref, D.bind_run, D.map_run, D.take_append (toBe_length _ _), DecRes.bind_ok,
    ofBe_toBe_of_lt (Nat.lt_of_le_of_lt h S.maxLen_lt), if_pos h]
  rfl

/-- The elements of a list, each read back with the rest of the list following. -/
theorem Enc.list_eq_some {e : Enc α} : ∀ {xs : List α} {b : Bytes}, Enc.list e xs = some b →
    ∃ bs : List Bytes, bs.length = xs.length ∧ b = bs.flatten ∧ (∀ i, (h : i < xs.length) → (h' : i < bs.length) →
      e xs[i] = some bs[i])
  | [], b, h => by cases h; exact ⟨[], rfl, rfl, by simp⟩
  | x :: xs, b, h => by
    obtain ⟨b1, b2, h1, h2, rfl⟩ := cat_eq_some.mp h
    obtain ⟨bs, h3, rfl, h4⟩ := list_eq_some h2
    refine ⟨b1 :: bs, by simp [h3], rfl, fun i h h' => ?_⟩
    cases i with
    | zero => exact h1
    | succ i => exact h4 i (by simpa using h) (by simpa using h')

theorem NonEmpty.list {e : Enc α} {V : α → Prop} (hn : NonEmpty e V) {xs : List α} {b : Bytes}
    (hv : ∀ x ∈ xs, V x) (h : Enc.list e xs = some b) : xs = [] ↔ b = [] := by
  cases xs with
  | nil => cases h; simp
  | cons x xs =>
    obtain ⟨b1, b2, h1, h2, rfl⟩ := cat_eq_some.mp h
    have := hn x b1 (hv x (by simp)) h1
    simp [this]

namespace RoundTrips

theorem mono {e : Enc α} {d : D α} {V V' : α → Prop} {k k' : Tail} (h : RoundTrips e d V k)
    (hv : ∀ x, V' x → V x) (hk : ∀ t, k'.Allows t → k.Allows t) : RoundTrips e d V' k' :=
  fun x b t h1 h2 h3 => h x b t (hv x h1) h2 (hk t h3)

theorem option {e : Enc α} {d : D α} {V : α → Prop} {k : Tail} (h : RoundTrips e d V k) :
    RoundTrips (Enc.option e) (Dec.option d) (fun o => ∀ x, o = some x → V x) k := by
  intro x b t hv he hk
  cases x with
  | none =>
    cases he
    simp only [Dec.option, D.bind_run]
    rw [show [0x00] ++ t = toBe TagWidth.u8.len 0 ++ t from rfl, Dec.tag_append _ (by simp) (by decide)]
    rfl
  | some x =>
    obtain ⟨b1, b2, h1, h2, rfl⟩ := cat_eq_some.mp he
    cases h1
    simp only [Dec.option, D.bind_run]
    rw [show [0xff] ++ b2 ++ t = toBe TagWidth.u8.len 0xff ++ (b2 ++ t) from by simp; rfl,
      Dec.tag_append _ (by simp) (by decide)]
    simp only [DecRes.bind_ok, if_true, D.map_run, h x b2 t (hv x rfl) h2 hk]

theorem nullable {e : Enc α} {d : D α} {V : α → Prop} {k : Tail} (h : RoundTrips e d V k) (hk : k.Allows [])
    (hn : NonEmpty e V) : RoundTrips (Enc.nullable e) (Dec.nullable d) (fun o => ∀ x, o = some x → V x) (.exact 0) := by
  intro x b t hv he ht
  cases List.length_eq_zero_iff.mp ht
  cases x with
  | none => cases he; rfl
  | some x =>
    have := hn x b (hv x rfl) he
    simp only [Dec.nullable, D.ifEmpty, List.append_nil, if_neg this, D.map_run]
    have h' := h x b [] (hv x rfl) he hk
    rw [List.append_nil] at h'
    rw [h']
    rfl

theorem window {e : Enc α} {d : D α} {V : α → Prop} {k : Tail} (h : RoundTrips e d V k) (hk : k.Allows [])
    {x : α} {b : Bytes} (hv : V x) (he : e x = some b) (t : Bytes) :
    D.window b.length d (b ++ t) = .ok x t := by
  have h' := h x b [] hv he hk
  rw [List.append_nil] at h'
  simp [D.window, h']

theorem dynamic (S : LenPref) {len : α → Option Nat} {e : Enc α} {d : D α} {V : α → Prop} {k : Tail}
    (h : RoundTrips e d V k) (hk : k.Allows [])
    (hl : ∀ x b l, V x → e x = some b → len x = some l → l = b.length) :
    RoundTrips (Enc.dynamic S len e) (Dec.dynamic S d) V .any := by
  intro x b t hv he _
  simp only [Enc.dynamic] at he
  split at he
  · cases he
  · rename_i l hlen
    split at he
    · rename_i hmax
      obtain ⟨b1, b2, h1, h2, rfl⟩ := cat_eq_some.mp he
      cases h1
      cases hl x b2 l hv h2 hlen
      rw [List.append_assoc]
      simp only [Dec.dynamic, D.bind_run, Dec.lenPref_append S hmax, DecRes.bind_ok]
      exact h.window hk hv h2 t
    · cases he

theorem vpadded (cfg : Cfg) (n : Nat) {e : Enc α} {d : D α} {V : α → Prop} {k : Tail}
    (h : RoundTrips e d V k) (hk : k.Allows []) : RoundTrips e (Dec.vpadded cfg n d) V (.exact n) := by
  intro x b t hv he ht
  have ht : t.length = n := ht
  simp only [Dec.vpadded]
  rw [if_pos (by simp [ht]), show (b ++ t).length - n = b.length by simp [ht]]
  exact h.window hk hv he t

theorem padded (cfg : Cfg) (n : Nat) {e : Enc α} {d : D α} {V : α → Prop} {k k' : Tail}
    (h : RoundTrips e d V k) (hk : ∀ t, k'.Allows t → k.Allows (List.replicate n 0 ++ t)) :
    RoundTrips (Enc.padded n e) (Dec.padded cfg n d) V k' := by
  intro x b t hv he ht
  obtain ⟨b1, b2, h1, h2, rfl⟩ := cat_eq_some.mp he
  cases h2
  rw [List.append_assoc]
  simp only [Dec.padded, D.bind_run, h x b1 _ hv h1 (hk t ht), DecRes.bind_ok,
    D.take_append (List.length_replicate ..), ne_eq, not_true_eq_false, and_false, if_false]
  rfl

theorem seq {e : Enc α} {d : D α} {V : α → Prop} (h : RoundTrips e d V .any) (hn : NonEmpty e V) :
    RoundTrips (Enc.list e) (Dec.seq d) (fun xs => ∀ x ∈ xs, V x) (.exact 0) := by
  intro xs b t hv he ht
  cases List.length_eq_zero_iff.mp ht
  rw [List.append_nil]
  simp only [Dec.seq]
  induction xs generalizing b with
  | nil => cases he; unfold D.many; rfl
  | cons x xs ih =>
    obtain ⟨b1, b2, h1, h2, rfl⟩ := cat_eq_some.mp he
    have hx := hn x b1 (hv x (by simp)) h1
    have hb : 0 < b1.length := List.length_pos_iff.mpr hx
    unfold D.many
    rw [if_neg (by simp [hx]), h x b1 b2 (hv x (by simp)) h1 trivial]
    simp only
    rw [if_pos (by simp; exact hb), ih b2 (fun y hy => hv y (by simp [hy])) h2]
    rfl

theorem upTo {e : Enc α} {d : D α} {V : α → Prop} (h : RoundTrips e d V .any) (hn : NonEmpty e V) :
    ∀ (xs : List α) (b t : Bytes), (∀ x ∈ xs, V x) → Enc.list e xs = some b → D.upTo d xs.length (b ++ t) = .ok xs t
  | [], b, t, _, he => by cases he; rfl
  | x :: xs, b, t, hv, he => by
    obtain ⟨b1, b2, h1, h2, rfl⟩ := cat_eq_some.mp he
    have hx := hn x b1 (hv x (by simp)) h1
    have ih := upTo h hn xs b2 t (fun y hy => hv y (by simp [hy])) h2
    simp only [D.upTo, List.length_cons, D.ifEmpty]
    rw [if_neg (by simp [hx]), List.append_assoc, D.bind_run, h x b1 _ (hv x (by simp)) h1 trivial, DecRes.bind_ok,
      D.bind_run, ih]
    rfl

theorem fixSeq (n : Nat) {e : Enc α} {d : D α} {V : α → Prop} (h : RoundTrips e d V .any) (hn : NonEmpty e V) :
    RoundTrips (Enc.list e) (Dec.fixSeq n d) (fun xs => xs.length = n ∧ ∀ x ∈ xs, V x) .any := by
  intro xs b t hv he _
  obtain ⟨rfl, hv⟩ := hv
  simp only [Dec.fixSeq, D.bind_run, upTo h hn xs b t hv he, DecRes.bind_ok, if_true]
  rfl

theorem manyMax {e : Enc α} {d : D α} {V : α → Prop} (h : RoundTrips e d V .any) (hn : NonEmpty e V)
    (er : ParseError) : ∀ (n : Nat) (xs : List α) (b : Bytes), xs.length ≤ n → (∀ x ∈ xs, V x) →
    Enc.list e xs = some b → D.manyMax er d n b = .ok xs []
  | n, [], b, _, _, he => by cases he; cases n <;> rfl
  | 0, x :: xs, b, hl, _, _ => by simp at hl
  | n + 1, x :: xs, b, hl, hv, he => by
    obtain ⟨b1, b2, h1, h2, rfl⟩ := cat_eq_some.mp he
    have hx := hn x b1 (hv x (by simp)) h1
    have ih := manyMax h hn er n xs b2 (by simpa using hl) (fun y hy => hv y (by simp [hy])) h2
    simp only [D.manyMax, D.ifEmpty]
    rw [if_neg (by simp [hx]), D.bind_run, h x b1 _ (hv x (by simp)) h1 trivial, DecRes.bind_ok, D.bind_run, ih]
    rfl

theorem limSeq (n : Nat) {e : Enc α} {d : D α} {V : α → Prop} (h : RoundTrips e d V .any) (hn : NonEmpty e V) :
    RoundTrips (Enc.list e) (Dec.limSeq n d) (fun xs => xs.length ≤ n ∧ ∀ x ∈ xs, V x) (.exact 0) := by
  intro xs b t hv he ht
  cases List.length_eq_zero_iff.mp ht
  rw [List.append_nil]
  exact manyMax h hn _ n xs b hv.1 hv.2 he

theorem cstyle (w : TagWidth) (tags : List Nat) (hw : ∀ t ∈ tags, t < 256 ^ w.len) :
    RoundTrips (Enc.cstyle w tags) (Dec.cstyle w tags) (fun _ => True) .any := by
  intro x b t _ he _
  cases he
  simp only [Dec.cstyle, D.bind_run, Dec.tag_append w x.2 (hw _ x.2), DecRes.bind_ok, dif_pos x.2]
  rfl

end RoundTrips

/-- Arms of an enum: the tag selects the arm that was encoded. -/
def VRoundTrips (tags : List Nat) (w : TagWidth) (e : TagWidth → Enc β) (d : Nat → D β) (V : β → Prop)
    (k : Tail) : Prop :=
  ∀ x b t, V x → e w x = some b → k.Allows t →
    ∃ tag p, tag ∈ tags ∧ b = toBe w.len tag ++ p ∧ d tag (p ++ t) = .ok x t

theorem VRoundTrips.nil (w : TagWidth) (k : Tail) : VRoundTrips [] w Enc.vnil Dec.vnil (fun _ => True) k :=
  fun x => nomatch x

theorem VRoundTrips.cons {tags : List Nat} {w : TagWidth} {e : Enc α} {d : D α} {ev : TagWidth → Enc β}
    {dv : Nat → D β} {V : α → Prop} {V' : β → Prop} {k : Tail} (tag : Nat) (h : RoundTrips e d V k)
    (hv : VRoundTrips tags w ev dv V' k) (ht : tag ∉ tags) :
    VRoundTrips (tag :: tags) w (Enc.vcons tag e ev) (Dec.vcons tag d dv) (Sum.elim V V') k := by
  intro x b t hx he hk
  cases x with
  | inl x =>
    obtain ⟨b1, b2, h1, h2, rfl⟩ := cat_eq_some.mp he
    cases h1
    refine ⟨tag, b2, by simp, rfl, ?_⟩
    simp only [Dec.vcons, if_true, D.map_run, h x b2 t hx h2 hk]
    rfl
  | inr y =>
    obtain ⟨tag', p, h1, h2, h3⟩ := hv y b t hx he hk
    refine ⟨tag', p, by simp [h1], h2, ?_⟩
    have : tag' ≠ tag := fun h => ht (h ▸ h1)
    simp only [Dec.vcons, if_neg this, D.map_run, h3]
    rfl

theorem RoundTrips.data {tags : List Nat} (w : TagWidth) {ev : TagWidth → Enc β} {dv : Nat → D β} {V : β → Prop}
    {k : Tail} (h : VRoundTrips tags w ev dv V k) (hw : ∀ t ∈ tags, t < 256 ^ w.len) :
    RoundTrips (ev w) (Dec.data w tags dv) V k := by
  intro x b t hv he hk
  obtain ⟨tag, p, h1, rfl, h3⟩ := h x b t hv he hk
  rw [List.append_assoc]
  simp only [Dec.data, D.bind_run, Dec.tag_append w h1 (hw _ h1), DecRes.bind_ok, h3]

theorem RoundTrips.fnil : RoundTrips Enc.fnil Dec.fnil (fun _ => True) .any := by
  intro x b t _ h _
  cases h
  rfl

theorem RoundTrips.fcons {e : Enc α} {d : D α} {ef : Enc β} {df : D β} {V : α → Prop} {V' : β → Prop} {k k' k'' : Tail}
    (h : RoundTrips e d V k) (hf : RoundTrips ef df V' k')
    (hk : ∀ t, k''.Allows t → k'.Allows t ∧ ∀ y b, V' y → ef y = some b → k.Allows (b ++ t)) :
    RoundTrips (Enc.fcons e ef) (Dec.fcons d df) (fun x => V x.1 ∧ V' x.2) k'' := by
  intro x b t hv he ht
  obtain ⟨b1, b2, h1, h2, rfl⟩ := cat_eq_some.mp he
  rw [List.append_assoc]
  simp only [Dec.fcons, D.bind_run, h x.1 b1 _ hv.1 h1 ((hk t ht).2 x.2 b2 hv.2 h2), DecRes.bind_ok,
    hf x.2 b2 t hv.2 h2 (hk t ht).1]
  rfl

end Verif
