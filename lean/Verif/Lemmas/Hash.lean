import Verif.Hash
import Verif.Spec.Compare
import Verif.Lemmas.Compare
import Verif.Lemmas.Hex
import Verif.Lemmas.Num
/-
Lemmas on what values feed to a hasher.
-/
namespace Verif

/-- The lengths that occur are lengths of something in memory. -/
def HashCall.Fits : HashCall → Prop
  | .length n => n < usizeMod
  | _ => True

namespace HashOf

/-- All bytes handed to `write`, one after the other. -/
def flat (e : Endian) (cs : List HashCall) : Bytes := cs.flatMap (·.bytes e)

theorem flat_nil (e : Endian) : flat e [] = [] := rfl

theorem flat_cons (e : Endian) (c : HashCall) (cs : List HashCall) : flat e (c :: cs) = c.bytes e ++ flat e cs := by
  simp [flat]

theorem flat_append (e : Endian) (a b : List HashCall) : flat e (a ++ b) = flat e a ++ flat e b := by
  simp [flat]

@[simp] theorem endian_length (e : Endian) (k n : Nat) : (e.bytes k n).length = k := by
  cases e <;> simp [Endian.bytes]

theorem endian_inj (e : Endian) {k n m : Nat} (hn : n < 256 ^ k) (hm : m < 256 ^ k) (h : e.bytes k n = e.bytes k m) :
    n = m := by
  have : toBe k n = toBe k m := by
    cases e with
    | big => exact h
    | little => exact List.reverse_inj.mp h
  rw [← ofBe_toBe_of_lt hn, this, ofBe_toBe_of_lt hm]

theorem endian_split (e : Endian) {k n m : Nat} (hn : n < 256 ^ k) (hm : m < 256 ^ k) {t t' : Bytes}
    (h : e.bytes k n ++ t = e.bytes k m ++ t') : n = m ∧ t = t' := by
  have := List.append_inj h (by simp)
  exact ⟨endian_inj e hn hm this.1, this.2⟩

/-- Different values feed different bytes, none a beginning of the other's. -/
def PrefixFree {α : Type} (e : Endian) (f : α → List HashCall) : Prop :=
  ∀ x y, (∀ c ∈ f x, c.Fits) → (∀ c ∈ f y, c.Fits) → ∀ t t', flat e (f x) ++ t = flat e (f y) ++ t' → x = y ∧ t = t'

section
variable {e : Endian} {α β : Type}

theorem pf_comap {f : α → List HashCall} (h : PrefixFree e f) (g : β → α) (hg : ∀ x y, g x = g y → x = y) :
    PrefixFree e (fun x => f (g x)) := fun x y fx fy t t' he =>
  ⟨hg x y (h (g x) (g y) fx fy t t' he).1, (h (g x) (g y) fx fy t t' he).2⟩

theorem pf_int (k : Nat) {g : α → Nat} (hg : ∀ x y, g x = g y → x = y) (hl : ∀ x, g x < 256 ^ k) :
    PrefixFree e (fun x => [.int k (g x)]) := fun x y _ _ t t' he => by
  simp only [flat_cons, flat_nil, List.append_nil, HashCall.bytes] at he
  have := endian_split e (hl x) (hl y) he
  exact ⟨hg x y this.1, this.2⟩

theorem pf_append {f : α → List HashCall} {g : β → List HashCall} (hf : PrefixFree e f) (hg : PrefixFree e g) :
    PrefixFree e (fun x : α × β => f x.1 ++ g x.2) := fun x y fx fy t t' he => by
  simp only [flat_append, List.append_assoc] at he
  have a := hf x.1 y.1 (fun c hc => fx c (by simp [hc])) (fun c hc => fy c (by simp [hc])) _ _ he
  have b := hg x.2 y.2 (fun c hc => fx c (by simp [hc])) (fun c hc => fy c (by simp [hc])) _ _ a.2
  exact ⟨Prod.ext a.1 b.1, b.2⟩

theorem pf_list {f : α → List HashCall} (hf : PrefixFree e f) : ∀ xs ys : List α, xs.length = ys.length →
    (∀ c ∈ xs.flatMap f, c.Fits) → (∀ c ∈ ys.flatMap f, c.Fits) → ∀ t t',
    flat e (xs.flatMap f) ++ t = flat e (ys.flatMap f) ++ t' → xs = ys ∧ t = t'
  | [], [], _, _, _, _, _, he => ⟨rfl, he⟩
  | [], _ :: _, hl, _, _, _, _, _ => by simp at hl
  | _ :: _, [], hl, _, _, _, _, _ => by simp at hl
  | x :: xs, y :: ys, hl, fx, fy, t, t', he => by
    simp only [List.flatMap_cons, flat_append, List.append_assoc] at he
    have a := hf x y (fun c hc => fx c (by simp [hc])) (fun c hc => fy c (by simp [hc])) _ _ he
    have b := pf_list hf xs ys (by simpa using hl)
      (fun c hc => fx c (by rw [List.flatMap_cons]; exact List.mem_append_right _ hc))
      (fun c hc => fy c (by rw [List.flatMap_cons]; exact List.mem_append_right _ hc)) t t' a.2
    exact ⟨by rw [a.1, b.1], b.2⟩

theorem flat_elems (e : Endian) (w : IntTy) (zs : List (Schema.int w).Val) :
    flat e (elems e (.int w) (Schema.hash e (.int w)) zs) = flat e (zs.flatMap (Schema.hash e (.int w))) := by
  have k : ∀ zs : List w.Val, flat e [.write (zs.flatMap fun x => e.bytes w.len x.toNat)] =
      flat e (zs.flatMap fun x : w.Val => [.int w.len x.toNat]) := by
    intro zs
    induction zs with
    | nil => rfl
    | cons z zs ih =>
      rw [List.flatMap_cons, List.flatMap_cons, flat_append, ← ih]
      simp [flat, HashCall.bytes]
  exact k zs

theorem pf_slice (s : Schema) (h : PrefixFree e (s.hash e)) : PrefixFree e (slice e s (s.hash e)) :=
    fun xs ys fx fy t t' he => by
  simp only [slice, flat_cons, HashCall.bytes, List.append_assoc] at he
  have lx : xs.length < usizeMod := fx (.length xs.length) (by simp [slice])
  have ly : ys.length < usizeMod := fy (.length ys.length) (by simp [slice])
  rw [usizeMod_bytes] at lx ly
  have a := endian_split e lx ly he
  by_cases hi : ∃ t, s = .int t
  · obtain ⟨w, rfl⟩ := hi
    have k := flat_elems e w
    have nofits : ∀ zs : List (Schema.int w).Val, ∀ c ∈ zs.flatMap (Schema.hash e (.int w)), c.Fits := by
      intro zs c hc
      obtain ⟨z, _, hz⟩ := List.mem_flatMap.mp hc
      simp only [Schema.hash, List.mem_singleton] at hz
      subst hz; trivial
    have a2 := a.2
    rw [k xs, k ys] at a2
    exact pf_list h xs ys a.1 (nofits xs) (nofits ys) t t' a2
  · have k : ∀ zs : List s.Val, elems e s (s.hash e) zs = zs.flatMap (s.hash e) := by
      intro zs
      cases s <;> first | rfl | exact absurd ⟨_, rfl⟩ hi
    have a2 := a.2
    rw [k xs, k ys] at a2
    exact pf_list h xs ys a.1 (fun c hc => fx c (by rw [slice, k]; exact List.mem_cons_of_mem _ hc))
      (fun c hc => fy c (by rw [slice, k]; exact List.mem_cons_of_mem _ hc)) t t' a2

theorem pf_bytes : PrefixFree e bytes := fun x y fx fy t t' he => by
  simp only [bytes, flat_cons, flat_nil, HashCall.bytes, List.append_nil, List.append_assoc] at he
  have lx : x.length < usizeMod := fx (.length x.length) (by simp [bytes])
  have ly : y.length < usizeMod := fy (.length y.length) (by simp [bytes])
  rw [usizeMod_bytes] at lx ly
  have a := endian_split e lx ly he
  exact List.append_inj a.2 a.1

theorem limbs_inj : ∀ n m : Nat, limbs n = limbs m → n = m := by
  intro n
  induction n using Nat.strongRecOn with
  | _ n ih =>
    intro m h
    rw [limbs, limbs.eq_1 m] at h
    split at h <;> split at h
    · omega
    · simp at h
    · simp at h
    · have h' := List.cons.inj h
      have hg := usizeMod_ge
      have := ih (n / usizeMod) (Nat.div_lt_self (by omega) (by omega)) _ h'.2
      rw [← Nat.div_add_mod n usizeMod, ← Nat.div_add_mod m usizeMod, this, h'.1]

theorem limbs_lt (n : Nat) : ∀ d ∈ limbs n, d < 256 ^ usizeBytes := by
  induction n using Nat.strongRecOn with
  | _ n ih =>
    intro d hd
    rw [limbs] at hd
    split at hd
    · simp at hd
    · rcases List.mem_cons.mp hd with rfl | hd
      · rw [← usizeMod_bytes]
        exact Nat.mod_lt _ (Nat.lt_of_lt_of_le (by decide) usizeMod_ge)
      · have hg := usizeMod_ge
        exact ih (n / usizeMod) (Nat.div_lt_self (by omega) (by omega)) d hd

theorem digits_split (e : Endian) : ∀ xs ys : List Nat, xs.length = ys.length → (∀ d ∈ xs, d < 256 ^ usizeBytes) →
    (∀ d ∈ ys, d < 256 ^ usizeBytes) → ∀ t t', xs.flatMap (e.bytes usizeBytes) ++ t = ys.flatMap (e.bytes usizeBytes) ++ t' → xs = ys ∧ t = t'
  | [], [], _, _, _, _, _, he => ⟨rfl, he⟩
  | [], _ :: _, hl, _, _, _, _, _ => by simp at hl
  | _ :: _, [], hl, _, _, _, _, _ => by simp at hl
  | x :: xs, y :: ys, hl, hx, hy, t, t', he => by
    simp only [List.flatMap_cons, List.append_assoc] at he
    have a := endian_split e (hx x (by simp)) (hy y (by simp)) he
    have b := digits_split e xs ys (by simpa using hl) (fun d hd => hx d (List.mem_cons_of_mem _ hd))
      (fun d hd => hy d (List.mem_cons_of_mem _ hd)) t t' a.2
    exact ⟨by rw [a.1, b.1], b.2⟩

theorem pf_bigUint : PrefixFree e (bigUint e) := fun x y fx fy t t' he => by
  simp only [bigUint, flat_cons, flat_nil, HashCall.bytes, List.append_nil, List.append_assoc] at he
  have lx : (limbs x).length < usizeMod := fx (.length _) (by simp [bigUint])
  have ly : (limbs y).length < usizeMod := fy (.length _) (by simp [bigUint])
  rw [usizeMod_bytes] at lx ly
  have a := endian_split e lx ly he
  have b := digits_split e _ _ a.1 (limbs_lt x) (limbs_lt y) t t' a.2
  exact ⟨limbs_inj x y b.1, b.2⟩

theorem pf_bigInt : PrefixFree e (bigInt e) := fun x y fx fy t t' he => by
  have hd : ∀ {a b : Nat} {r r' : Bytes}, a < 3 → b < 3 → e.bytes usizeBytes a ++ r = e.bytes usizeBytes b ++ r' → a = b ∧ r = r' :=
    fun ha hb h => by
      have hg := usizeMod_ge
      rw [usizeMod_bytes] at hg
      exact endian_split e (by omega) (by omega) h
  have key : ∀ z : Int, ∃ a < 3, ∃ r, bigInt e z = .discr a :: r ∧
      ((a = 0 ∧ z < 0 ∧ r = bigUint e z.natAbs) ∨ (a = 1 ∧ z = 0 ∧ r = []) ∨ (a = 2 ∧ 0 < z ∧ r = bigUint e z.natAbs)) := by
    intro z
    unfold bigInt
    split
    · exact ⟨0, by omega, _, rfl, by simp_all⟩
    · split
      · exact ⟨1, by omega, _, rfl, by simp_all⟩
      · exact ⟨2, by omega, _, rfl, Or.inr (Or.inr ⟨rfl, by omega, rfl⟩)⟩
  obtain ⟨a, ha, r, hx, cx⟩ := key x
  obtain ⟨b, hb, q, hy, cy⟩ := key y
  rw [hx, hy, flat_cons, flat_cons] at he
  simp only [HashCall.bytes, List.append_assoc] at he
  have s := hd ha hb he
  rw [hx] at fx
  rw [hy] at fy
  have fr : ∀ c ∈ r, c.Fits := fun c hc => fx c (List.mem_cons_of_mem _ hc)
  have fq : ∀ c ∈ q, c.Fits := fun c hc => fy c (List.mem_cons_of_mem _ hc)
  rcases cx with ⟨a0, zx, rfl⟩ | ⟨a0, zx, rfl⟩ | ⟨a0, zx, rfl⟩ <;>
    rcases cy with ⟨b0, zy, rfl⟩ | ⟨b0, zy, rfl⟩ | ⟨b0, zy, rfl⟩ <;> try omega
  · have p := pf_bigUint _ _ fr fq _ _ s.2
    exact ⟨by omega, p.2⟩
  · exact ⟨by omega, s.2⟩
  · have p := pf_bigUint _ _ fr fq _ _ s.2
    exact ⟨by omega, p.2⟩

theorem pf_option {f : α → List HashCall} (h : PrefixFree e f) : PrefixFree e (option f) := fun x y fx fy t t' he => by
  have h1 : (1 : Nat) < 256 ^ usizeBytes := usizeMod_bytes ▸ (by decide : 1 < usizeMod)
  have h0 : (0 : Nat) < 256 ^ usizeBytes := usizeMod_bytes ▸ (by decide : 0 < usizeMod)
  cases x <;> cases y <;> simp only [option, flat_cons, flat_nil, HashCall.bytes, List.append_assoc, List.nil_append] at he
  · exact ⟨rfl, (endian_split e h0 h0 he).2⟩
  · exact absurd (endian_split e h0 h1 he).1 (by decide)
  · exact absurd (endian_split e h1 h0 he).1 (by decide)
  · have a := h _ _ (fun c hc => fx c (List.mem_cons_of_mem _ hc)) (fun c hc => fy c (List.mem_cons_of_mem _ hc)) t t'
      (endian_split e h1 h1 he).2
    exact ⟨by rw [a.1], a.2⟩

end

/-- The byte `0xff` does not occur in UTF-8. -/
theorem utf8_no_ff (cs : List Char) : (0xff : Byte) ∉ utf8 cs := by
  intro h
  obtain ⟨c, _, hc⟩ := List.mem_flatMap.mp h
  have hv := char_valid c
  have k : ∀ n, n < 255 → (0xff : Byte) ≠ UInt8.ofNat n := by
    intro n hn he
    have := congrArg UInt8.toNat he
    simp only [UInt8.toNat_ofNat'] at this
    have e255 : (255 : UInt8).toNat = 255 := rfl
    omega
  unfold utf8Char at hc
  simp only at hc
  have hm : c.toNat < 0x110000 := by
    have := c.valid
    have h' : c.toNat < 0xd800 ∨ (0xdfff < c.toNat ∧ c.toNat < 0x110000) := this
    omega
  split at hc
  · simp only [List.mem_singleton] at hc; exact k _ (by omega) hc
  · split at hc
    · simp only [List.mem_cons, List.not_mem_nil, or_false] at hc
      rcases hc with hc | hc <;> exact k _ (by omega) hc
    · split at hc <;> simp only [List.mem_cons, List.not_mem_nil, or_false] at hc
      · rcases hc with hc | hc | hc <;> exact k _ (by omega) hc
      · rcases hc with hc | hc | hc | hc <;> exact k _ (by omega) hc

theorem split_at {b : Byte} : ∀ (x y t t' : Bytes), b ∉ x → b ∉ y → x ++ b :: t = y ++ b :: t' → x = y ∧ t = t'
  | [], [], _, _, _, _, h => ⟨rfl, (List.cons.inj h).2⟩
  | [], c :: y, _, _, _, hy, h => absurd (List.cons.inj h).1 fun hc => hy (by simp [hc])
  | c :: x, [], _, _, hx, _, h => absurd (List.cons.inj h).1 fun hc => hx (by simp [hc])
  | c :: x, d :: y, t, t', hx, hy, h => by
    have a := List.cons.inj h
    have b := split_at x y t t' (fun m => hx (List.mem_cons_of_mem _ m)) (fun m => hy (List.mem_cons_of_mem _ m)) a.2
    exact ⟨by rw [a.1, b.1], b.2⟩

theorem pf_str {e : Endian} : PrefixFree e (fun x : List Char => [.str (utf8 x)]) := fun x y _ _ t t' he => by
  simp only [flat_cons, flat_nil, List.append_nil, HashCall.bytes, List.append_assoc, List.singleton_append] at he
  have a := split_at _ _ _ _ (utf8_no_ff x) (utf8_no_ff y) he
  exact ⟨utf8_inj x y a.1, a.2⟩

theorem intTy_lt (t : IntTy) (x : t.Val) : x.toNat < 256 ^ t.len := by
  have := x.isLt
  rw [show (256 : Nat) = 2 ^ 8 from rfl, ← Nat.pow_mul]
  exact this

theorem mem_single : ∀ {l : List Nat} {a b : Nat}, l.length ≤ 1 → a ∈ l → b ∈ l → a = b
  | [], _, _, _, ha, _ => by simp at ha
  | [_], _, _, _, ha, hb => by simp at ha hb; rw [ha, hb]
  | _ :: _ :: _, _, _, h, _, _ => by simp at h

end HashOf

open HashOf

/-- The bytes start with the tag of one of the arms. -/
theorem Variants.hash_head (e : Endian) (w : TagWidth) : (vs : Variants) → ∀ x, ∃ tag ∈ vs.tags, ∃ r,
    vs.hash e w x = .int w.len tag :: r
  | .nil => fun (x : Empty) => x.elim
  | .cons tag _ vs => fun x => match x with
    | .inl _ => ⟨tag, by simp [Variants.tags], _, rfl⟩
    | .inr y => by
      obtain ⟨t, ht, r, h⟩ := vs.hash_head e w y
      exact ⟨t, by simp [Variants.tags, ht], r, h⟩

mutual
theorem Schema.hash_pf (e : Endian) : (s : Schema) → s.floatFree = true → s.tagsOk → PrefixFree e (s.hash e)
  | .unit, _, _ => fun (_ _ : Unit) _ _ _ _ he => ⟨rfl, he⟩
  | .bool, _, _ => pf_int 1 (g := fun x : Bool => if x then 1 else 0) (by decide) (by decide)
  | .int t, _, _ => pf_int t.len (g := fun x : t.Val => x.toNat) (fun _ _ => BitVec.eq_of_toNat_eq) (intTy_lt t)
  | .f64, h, _ => absurd h (by simp [Schema.floatFree])
  | .rangedInt t _ _, _, _ => pf_int t.len (g := fun x : t.Val => x.toNat) (fun _ _ => BitVec.eq_of_toNat_eq) (intTy_lt t)
  | .rangedFloat _ _, h, _ => absurd h (by simp [Schema.floatFree])
  | .zarithN, _, _ => pf_bigUint
  | .zarithZ, _, _ => pf_bigInt
  | .bytes, _, _ => pf_bytes
  | .vecU8, _, _ => pf_bytes
  | .string, _, _ => pf_str
  | .fixedBytes n, _, _ => pf_comap pf_bytes (fun x : ByteArr n => x.1) fun _ _ h => Subtype.ext h
  | .fixedString n, _, _ => pf_comap pf_bytes (fun x : ByteArr n => x.1) fun _ _ h => Subtype.ext h
  | .option s, h, ht => pf_option (s.hash_pf e h ht)
  | .nullable s, h, ht => pf_option (s.hash_pf e h ht)
  | .dynamic _ s, h, ht => s.hash_pf e h ht
  | .vpadded _ s, h, ht => s.hash_pf e h ht
  | .padded _ s, h, ht => s.hash_pf e h ht
  | .seq s, h, ht => pf_slice s (s.hash_pf e h ht)
  | .fixSeq _ s, h, ht => pf_slice s (s.hash_pf e h ht)
  | .limSeq _ s, h, ht => pf_slice s (s.hash_pf e h ht)
  | .autobox s, h, ht => s.hash_pf e h ht
  | .hole _, _, _ => fun (x : Empty) => x.elim
  | .cstyle w tags, _, ht => fun (x y : CEnum tags) fx fy t t' he => by
    simp only [Schema.hash] at he
    split at he
    · rename_i h1
      exact ⟨Subtype.ext (mem_single h1 x.2 y.2), he⟩
    · simp only [flat_cons, flat_nil, List.append_nil, HashCall.bytes] at he
      have a := endian_split e (ht _ x.2) (ht _ y.2) he
      exact ⟨Subtype.ext a.1, a.2⟩
  | .data w vs, h, ht => vs.hash_pf e w h ht.2 ht.1
  | .record fs, h, ht => fs.hash_pf e h ht
theorem Variants.hash_pf (e : Endian) (w : TagWidth) : (vs : Variants) → vs.floatFree = true → vs.tagsOk →
    (∀ t ∈ vs.tags, t < 256 ^ w.len) → PrefixFree e (vs.hash e w)
  | .nil, _, _, _ => fun (x : Empty) => x.elim
  | .cons tag s vs, h, ht, hw => fun x y fx fy t t' he =>
    have h' := (Bool.and_eq_true _ _).mp h
    have hw0 : tag < 256 ^ w.len := hw tag (by simp [Variants.tags])
    have hw' : ∀ t ∈ vs.tags, t < 256 ^ w.len := fun t m => hw t (by simp [Variants.tags, m])
    match x, y with
    | .inl x, .inl y => by
      simp only [Variants.hash, Sum.elim_inl, flat_cons, HashCall.bytes, List.append_assoc] at he
      have a := s.hash_pf e h'.1 ht.2.1 x y (fun c hc => fx c (List.mem_cons_of_mem _ hc))
        (fun c hc => fy c (List.mem_cons_of_mem _ hc)) t t' (endian_split e hw0 hw0 he).2
      exact ⟨by rw [a.1], a.2⟩
    | .inl x, .inr y => by
      obtain ⟨tg, m, r, hr⟩ := vs.hash_head e w y
      simp only [Variants.hash, Sum.elim_inl, Sum.elim_inr, hr, flat_cons, HashCall.bytes, List.append_assoc] at he
      exact absurd m ((endian_split e hw0 (hw' _ m) he).1 ▸ ht.1)
    | .inr x, .inl y => by
      obtain ⟨tg, m, r, hr⟩ := vs.hash_head e w x
      simp only [Variants.hash, Sum.elim_inl, Sum.elim_inr, hr, flat_cons, HashCall.bytes, List.append_assoc] at he
      exact absurd m ((endian_split e (hw' _ m) hw0 he).1 ▸ ht.1)
    | .inr x, .inr y => by
      have a := vs.hash_pf e w h'.2 ht.2.2 hw' x y fx fy t t' he
      exact ⟨by rw [a.1], a.2⟩
theorem Fields.hash_pf (e : Endian) : (fs : Fields) → fs.floatFree = true → fs.tagsOk → PrefixFree e (fs.hash e)
  | .nil, _, _ => fun (_ _ : Unit) _ _ _ _ he => ⟨rfl, he⟩
  | .cons s fs, h, ht =>
    have h' := (Bool.and_eq_true _ _).mp h
    pf_append (s.hash_pf e h'.1 ht.1) (fs.hash_pf e h'.2 ht.2)
end

end Verif
