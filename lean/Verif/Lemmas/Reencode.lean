import Verif.Lemmas.Structure
/-
Decoded values can be encoded again.
-/
namespace Verif

variable {α β : Type}

theorem D.window_eq_ok {n : Nat} {d : D α} {v r : Bytes} {a : α} :
    D.window n d v = .ok a r ↔ n ≤ v.length ∧ d (v.take n) = .ok a [] ∧ r = v.drop n := by
  simp only [D.window]
  split
  · rename_i hn
    constructor
    · intro h
      obtain ⟨a', left, h1, h2⟩ := DecRes.bind_eq_ok.mp h
      split at h2
      · rename_i hl
        cases h2
        exact ⟨hn, hl ▸ h1, rfl⟩
      · cases h2
    · rintro ⟨_, h1, rfl⟩
      rw [h1]
      rfl
  · rename_i hn
    simp only [hn, false_and, iff_false, D.short]
    split <;> simp

/-! ### sizes of numbers -/

theorem Dec.val7_lt (bs : Bytes) : Dec.val7 bs < 128 ^ bs.length := by
  induction bs with
  | nil => simp [Dec.val7]
  | cons b bs ih =>
    simp only [Dec.val7] at ih
    simp only [Dec.val7, List.foldr_cons, List.length_cons, Nat.pow_succ]
    omega

theorem Enc.nat7_length_le {n k : Nat} (hk : 0 < k) (h : n < 128 ^ k) : (Enc.nat7 n).length ≤ k := by
  induction k generalizing n with
  | zero => omega
  | succ k ih =>
    unfold Enc.nat7
    split
    · simp
    · rename_i hn
      have hk : 0 < k := by
        rcases Nat.eq_zero_or_pos k with rfl | h'
        · simp at h; omega
        · exact h'
      have := @ih (n / 128) hk (by rw [Nat.pow_succ] at h; exact Nat.div_lt_of_lt_mul (by omega))
      simpa using this

theorem Enc.int7_length_le {z : Int} {k : Nat} (h : z.natAbs < 64 * 128 ^ k) : (Enc.int7 z).length ≤ k + 1 := by
  unfold Enc.int7
  simp only
  split
  · simp
  · rename_i hn
    have hk : 0 < k := by
      rcases Nat.eq_zero_or_pos k with rfl | h'
      · simp at h; omega
      · exact h'
    have := @Enc.nat7_length_le (z.natAbs / 64) k hk (Nat.div_lt_of_lt_mul (by omega))
    simpa using this

theorem Dec.ival7_lt {bs : Bytes} {k : Nat} (h : bs.length = k + 1) : (Dec.ival7 bs).natAbs < 64 * 128 ^ k := by
  cases bs with
  | nil => simp at h
  | cons b bs =>
    have h1 := Dec.val7_lt bs
    simp only [List.length_cons, Nat.add_right_cancel_iff] at h
    rw [h] at h1
    simp only [Dec.ival7]
    split <;> omega

theorem D.until'_eq_ok {f : Byte → Bool} : ∀ {v acc bs r : Bytes}, D.until' f acc v = .ok bs r →
    ∃ p b, bs = acc ++ p ++ [b] ∧ v = p ++ [b] ++ r ∧ (∀ x ∈ p, f x = false) ∧ f b = true
  | [], _, _, _, h => by cases h
  | b :: v, acc, bs, r, h => by
    simp only [D.until'] at h
    split at h
    · rename_i hb
      cases h
      exact ⟨[], b, by simp, by simp, by simp, hb⟩
    · rename_i hb
      obtain ⟨p, b', rfl, rfl, h3, h4⟩ := D.until'_eq_ok h
      refine ⟨b :: p, b', by simp, by simp, ?_, h4⟩
      intro x hx
      rcases List.mem_cons.mp hx with rfl | hx
      · simpa using hb
      · exact h3 x hx

theorem Dec.terminated_ok {v bs r : Bytes} (h : Dec.terminated v = .ok bs r) :
    v = bs ++ r ∧ ∃ p b, bs = p ++ [b] ∧ (∀ x ∈ p, 128 ≤ x.toNat) ∧ b.toNat < 128 := by
  obtain ⟨p, b, h1, rfl, h3, h4⟩ := D.until'_eq_ok h
  simp only [List.nil_append] at h1
  subst h1
  refine ⟨rfl, p, b, rfl, fun x hx => ?_, by simpa using h4⟩
  have := h3 x hx
  simpa using this

/-! ### re-encoding -/

namespace Reencodes

theorem of_canonical {e : Enc α} {d : D α} {V : α → Prop} (h : Canonical e d)
    (hv : ∀ v a rest, d v = .ok a rest → V a) : Reencodes e d V := by
  intro v a rest hd
  obtain ⟨b, h1, rfl⟩ := h v a rest hd
  exact ⟨hv _ _ _ hd, b, h1, by simp⟩

end Reencodes

namespace Canonical

theorem unit : Canonical Enc.unit Dec.unit := by
  intro v a rest h
  cases h
  exact ⟨[], rfl, rfl⟩

theorem bool : Canonical Enc.bool Dec.bool := by
  intro v a rest h
  cases v with
  | nil => cases h
  | cons b v =>
    simp only [Dec.bool, D.bind_run, D.byte, DecRes.bind_ok] at h
    split at h
    · rename_i hb
      cases h
      exact ⟨[0xff], rfl, by simp [hb]⟩
    · split at h
      · rename_i hb
        cases h
        exact ⟨[0x00], rfl, by simp [hb]⟩
      · cases h

theorem int (t : IntTy) : Canonical (Enc.int t) (Dec.int t) := by
  intro v a rest h
  obtain ⟨bs, h1, rfl⟩ := D.map_eq_ok.mp h
  obtain ⟨h2, rfl⟩ := D.take_eq_ok.mp h1
  refine ⟨bs, ?_, rfl⟩
  simp only [Enc.int, Option.some.injEq, BitVec.toNat_ofNat]
  have := ofBe_lt bs
  rw [h2, ← IntTy.pow_eq] at this
  rw [Nat.mod_eq_of_lt this, ← h2, toBe_ofBe]

theorem f64 : Canonical Enc.f64 Dec.f64 := int .u64

theorem check_ok {ε : Type} {r : Except ε α} {f : ε → ParseError} {v rest : Bytes} {a : α} :
    Dec.check r f v = .ok a rest ↔ r = .ok a ∧ v = rest := by
  unfold Dec.check
  cases r with
  | ok x =>
    simp only [D.pure_run, DecRes.ok.injEq, Except.ok.injEq]
  | error e => simp

theorem rangedInt (t : IntTy) (min max : Int) : Canonical (Enc.rangedInt t min max) (Dec.rangedInt t min max) := by
  intro v a rest h
  obtain ⟨x, r', h1, h2⟩ := D.bind_eq_ok.mp h
  obtain ⟨h3, rfl⟩ := check_ok.mp h2
  obtain ⟨b, h4, rfl⟩ := int t _ _ _ h1
  cases hr : restrict (t.toInt x) min max with
  | ok u =>
    rw [hr] at h3
    cases h3
    refine ⟨b, ?_, rfl⟩
    simp only [Enc.rangedInt]
    rw [if_pos (restrict_ok_iff.mp hr)]
    exact h4
  | error e => rw [hr] at h3; cases h3

theorem restrictFloat_ok {x y min max : BitVec 64} : restrictFloat x min max = .ok y ↔
    y = x ∧ F64.le min x = true ∧ F64.le x max = true ∧ F64.le min max = true := by
  unfold restrictFloat
  cases h1 : F64.le min max <;> cases h2 : F64.le min x <;> cases h3 : F64.le x max <;> simp [eq_comm]

theorem rangedFloat_ok {min max : BitVec 64} {v rest : Bytes} {a : BitVec 64} :
    Dec.rangedFloat min max v = .ok a rest ↔ Dec.f64 v = .ok a rest ∧
      F64.le min a = true ∧ F64.le a max = true ∧ F64.le min max = true := by
  constructor
  · intro h
    obtain ⟨x, r', h1, h2⟩ := D.bind_eq_ok.mp h
    obtain ⟨h3, rfl⟩ := check_ok.mp h2
    obtain ⟨rfl, h4⟩ := restrictFloat_ok.mp h3
    exact ⟨h1, h4⟩
  · rintro ⟨h1, h4⟩
    exact D.bind_eq_ok.mpr ⟨a, rest, h1, check_ok.mpr ⟨restrictFloat_ok.mpr ⟨rfl, h4⟩, rfl⟩⟩

theorem rangedFloat (min max : BitVec 64) : Canonical Enc.f64 (Dec.rangedFloat min max) :=
  fun v a rest h => f64 v a rest (rangedFloat_ok.mp h).1

theorem byteArr (n : Nat) : Canonical (Enc.byteArr n) (Dec.byteArr n) := by
  intro v a rest h
  obtain ⟨x, r', h1, h2⟩ := D.bind_eq_ok.mp h
  obtain ⟨h3, rfl⟩ := D.take_eq_ok.mp h1
  rw [dif_pos h3] at h2
  cases h2
  exact ⟨x, rfl, rfl⟩

theorem bytes : Canonical Enc.bytes Dec.bytes := by
  intro v a rest h
  cases h
  exact ⟨v, rfl, by simp⟩

theorem option {e : Enc α} {d : D α} (h : Canonical e d) : Canonical (Enc.option e) (Dec.option d) := by
  intro v a rest hd
  obtain ⟨t, r', h1, h2⟩ := D.bind_eq_ok.mp hd
  obtain ⟨hm, -, rfl⟩ := Dec.tag_mem h1
  split at h2
  · rename_i ht
    subst ht
    obtain ⟨x, h3, rfl⟩ := D.map_eq_ok.mp h2
    obtain ⟨b, h4, rfl⟩ := h _ _ _ h3
    refine ⟨0xff :: b, ?_, rfl⟩
    simp [Enc.option, h4, cat_some]
  · rename_i ht
    cases h2
    have : t = 0 := by simpa [ht] using hm
    subst this
    exact ⟨[0], rfl, rfl⟩

theorem nullable {e : Enc α} {d : D α} (h : Canonical e d) : Canonical (Enc.nullable e) (Dec.nullable d) := by
  intro v a rest hd
  simp only [Dec.nullable, D.ifEmpty] at hd
  split at hd
  · cases hd
    exact ⟨[], rfl, rfl⟩
  · obtain ⟨x, h3, rfl⟩ := D.map_eq_ok.mp hd
    exact h _ _ _ h3

theorem window {e : Enc α} {d : D α} (h : Canonical e d) (n : Nat) {v r : Bytes} {a : α}
    (hd : D.window n d v = .ok a r) : ∃ b, e a = some b ∧ v = b ++ r ∧ b.length = n := by
  obtain ⟨hn, h1, rfl⟩ := D.window_eq_ok.mp hd
  obtain ⟨b, h2, h3⟩ := h _ _ _ h1
  rw [List.append_nil] at h3
  refine ⟨b, h2, ?_, ?_⟩
  · rw [← h3, List.take_append_drop]
  · rw [← h3]; simp [hn]

theorem dynamic (S : LenPref) {len : α → Option Nat} {e : Enc α} {d : D α}
    (h : Canonical e d) (hl : ∀ x b, e x = some b → len x = some b.length) :
    Canonical (Enc.dynamic S len e) (Dec.dynamic S d) := by
  intro v a rest hd
  obtain ⟨n, r', h1, h2⟩ := D.bind_eq_ok.mp hd
  obtain ⟨hm, rfl⟩ := Dec.lenPref_ok h1
  obtain ⟨b, h3, rfl, rfl⟩ := h.window n h2
  refine ⟨toBe S.len b.length ++ b, ?_, by simp⟩
  simp [Enc.dynamic, hl a b h3, hm, h3, cat_some]

theorem vpadded (cfg : Cfg) (n : Nat) {e : Enc α} {d : D α} (h : Canonical e d) :
    Canonical e (Dec.vpadded cfg n d) := by
  intro v a rest hd
  simp only [Dec.vpadded] at hd
  split at hd
  · obtain ⟨b, h3, h4, -⟩ := h.window _ hd
    exact ⟨b, h3, h4⟩
  · split at hd <;> cases hd

theorem padded (cfg : Cfg) (n : Nat) (hc : cfg.checkPadding = true ∨ n = 0) {e : Enc α} {d : D α} (h : Canonical e d) :
    Canonical (Enc.padded n e) (Dec.padded cfg n d) := by
  intro v a rest hd
  obtain ⟨x, r', h1, h2⟩ := D.bind_eq_ok.mp hd
  obtain ⟨p, r'', h3, h4⟩ := D.bind_eq_ok.mp h2
  obtain ⟨h5, rfl⟩ := D.take_eq_ok.mp h3
  obtain ⟨b, h6, rfl⟩ := h _ _ _ h1
  split at h4
  · cases h4
  · rename_i hp
    cases h4
    have : p = List.replicate n 0 := by
      rcases hc with hc | rfl
      · simpa [hc] using hp
      · exact List.length_eq_zero_iff.mp h5
    subst this
    exact ⟨b ++ List.replicate n 0, by simp [Enc.padded, h6, cat_some], by simp⟩

theorem many_ok {d : D α} (_ : ReadsPrefix d) : ∀ (v : Bytes) {as : List α} {r : Bytes}, D.many d v = .ok as r →
    r = [] ∧ ((v = [] ∧ as = []) ∨ ∃ a rest as', v ≠ [] ∧ d v = .ok a rest ∧ rest.length < v.length ∧
      D.many d rest = .ok as' [] ∧ as = a :: as') := by
  intro v
  induction hl : v.length using Nat.strongRecOn generalizing v with
  | _ n ih =>
    intro as r h
    unfold D.many at h
    split at h
    · rename_i hv
      cases h
      exact ⟨rfl, .inl ⟨hv, rfl⟩⟩
    · rename_i hv
      split at h
      · rename_i a rest hd
        split at h
        · rename_i hlt
          obtain ⟨as', r', h1, h2⟩ := DecRes.bind_eq_ok.mp h
          cases h2
          have := ih _ (hl ▸ hlt) rest rfl h1
          obtain ⟨rfl, -⟩ := this
          exact ⟨rfl, .inr ⟨a, rest, as', hv, hd, hl ▸ hlt, h1, rfl⟩⟩
        · split at h <;> cases h
      all_goals cases h

theorem seq {e : Enc α} {d : D α} (h : Canonical e d) (hp : ReadsPrefix d) :
    Canonical (Enc.list e) (Dec.seq d) := by
  intro v as r hd
  simp only [Dec.seq] at hd
  induction hl : v.length using Nat.strongRecOn generalizing v as r with
  | _ n ih =>
    obtain ⟨rfl, ⟨rfl, rfl⟩ | ⟨a, rest, as', hv, h1, h2, h3, rfl⟩⟩ := many_ok hp v hd
    · exact ⟨[], rfl, rfl⟩
    · obtain ⟨b, h4, h5⟩ := h _ _ _ h1
      obtain ⟨b', h6, h7⟩ := ih _ (hl ▸ h2) rest as' [] h3 rfl
      refine ⟨b ++ b', by simp [Enc.list, h4, h6, cat_some], ?_⟩
      rw [h5, h7]
      simp

theorem upTo {e : Enc α} {d : D α} (h : Canonical e d) : ∀ k, Canonical (Enc.list e) (D.upTo d k)
  | 0 => by
    intro v as r hd
    cases hd
    exact ⟨[], rfl, rfl⟩
  | k + 1 => by
    intro v as r hd
    simp only [D.upTo, D.ifEmpty] at hd
    split at hd
    · cases hd
      exact ⟨[], rfl, rfl⟩
    · obtain ⟨a, r1, h1, h2⟩ := D.bind_eq_ok.mp hd
      obtain ⟨as', r2, h3, h4⟩ := D.bind_eq_ok.mp h2
      cases h4
      obtain ⟨b, h5, rfl⟩ := h _ _ _ h1
      obtain ⟨b', h6, rfl⟩ := upTo h k _ _ _ h3
      exact ⟨b ++ b', by simp [Enc.list, h5, h6, cat_some], by simp⟩

theorem manyMax (er : ParseError) {e : Enc α} {d : D α} (h : Canonical e d) :
    ∀ k, Canonical (Enc.list e) (D.manyMax er d k)
  | 0 => by
    intro v as r hd
    simp only [D.manyMax, D.ifEmpty] at hd
    split at hd
    · cases hd
      exact ⟨[], rfl, rfl⟩
    · obtain ⟨a, r1, h1, h2⟩ := D.bind_eq_ok.mp hd
      cases h2
  | k + 1 => by
    intro v as r hd
    simp only [D.manyMax, D.ifEmpty] at hd
    split at hd
    · cases hd
      exact ⟨[], rfl, rfl⟩
    · obtain ⟨a, r1, h1, h2⟩ := D.bind_eq_ok.mp hd
      obtain ⟨as', r2, h3, h4⟩ := D.bind_eq_ok.mp h2
      cases h4
      obtain ⟨b, h5, rfl⟩ := h _ _ _ h1
      obtain ⟨b', h6, rfl⟩ := manyMax er h k _ _ _ h3
      exact ⟨b ++ b', by simp [Enc.list, h5, h6, cat_some], by simp⟩

theorem fixSeq (n : Nat) {e : Enc α} {d : D α} (h : Canonical e d) :
    Canonical (Enc.list e) (Dec.fixSeq n d) := by
  intro v as r hd
  obtain ⟨l, r1, h1, h2⟩ := D.bind_eq_ok.mp hd
  split at h2
  · cases h2
    exact upTo h n _ _ _ h1
  · cases h2

theorem limSeq (n : Nat) {e : Enc α} {d : D α} (h : Canonical e d) :
    Canonical (Enc.list e) (Dec.limSeq n d) := manyMax _ h n

theorem cstyle (w : TagWidth) (tags : List Nat) : Canonical (Enc.cstyle w tags) (Dec.cstyle w tags) := by
  intro v a rest hd
  obtain ⟨t, r', h1, h2⟩ := D.bind_eq_ok.mp hd
  obtain ⟨hm, -, rfl⟩ := Dec.tag_mem h1
  rw [dif_pos hm] at h2
  cases h2
  exact ⟨_, rfl, rfl⟩

theorem fnil : Canonical Enc.fnil Dec.fnil := by
  intro v a rest h
  cases h
  exact ⟨[], rfl, rfl⟩

theorem fcons {e : Enc α} {d : D α} {ef : Enc β} {df : D β} (h : Canonical e d) (hf : Canonical ef df) :
    Canonical (Enc.fcons e ef) (Dec.fcons d df) := by
  intro v a rest hd
  obtain ⟨x, r1, h1, h2⟩ := D.bind_eq_ok.mp hd
  obtain ⟨y, r2, h3, h4⟩ := D.bind_eq_ok.mp h2
  cases h4
  obtain ⟨b, h5, rfl⟩ := h _ _ _ h1
  obtain ⟨b', h6, rfl⟩ := hf _ _ _ h3
  exact ⟨b ++ b', by simp [Enc.fcons, h5, h6, cat_some], by simp⟩

end Canonical

/-- What decoding an arm yields is encoded with the tag of the arm. -/
def VCanonical (w : TagWidth) (e : TagWidth → Enc β) (d : Nat → D β) : Prop :=
  ∀ t v a rest, d t v = .ok a rest → ∃ b, e w a = some (toBe w.len t ++ b) ∧ v = b ++ rest

theorem VCanonical.nil (w : TagWidth) : VCanonical w Enc.vnil Dec.vnil := fun _ _ a => nomatch a

theorem VCanonical.cons {w : TagWidth} {e : Enc α} {d : D α} {ev : TagWidth → Enc β} {dv : Nat → D β} (tag : Nat)
    (h : Canonical e d) (hv : VCanonical w ev dv) : VCanonical w (Enc.vcons tag e ev) (Dec.vcons tag d dv) := by
  intro t v a rest hd
  simp only [Dec.vcons] at hd
  split at hd
  · rename_i ht
    subst ht
    obtain ⟨x, h1, rfl⟩ := D.map_eq_ok.mp hd
    obtain ⟨b, h2, rfl⟩ := h _ _ _ h1
    exact ⟨b, by simp [Enc.vcons, h2, cat_some], rfl⟩
  · obtain ⟨x, h1, rfl⟩ := D.map_eq_ok.mp hd
    exact hv _ _ _ _ h1

theorem Canonical.data (w : TagWidth) (tags : List Nat) {ev : TagWidth → Enc β} {dv : Nat → D β}
    (h : VCanonical w ev dv) : Canonical (ev w) (Dec.data w tags dv) := by
  intro v a rest hd
  obtain ⟨t, r', h1, h2⟩ := D.bind_eq_ok.mp hd
  obtain ⟨-, -, rfl⟩ := Dec.tag_mem h1
  obtain ⟨b, h3, rfl⟩ := h _ _ _ _ h2
  exact ⟨_, h3, by simp⟩

/-! ### re-encoding in general -/

namespace Reencodes

theorem zarithN : Reencodes Enc.zarithN Dec.zarithN (fun _ => True) := by
  intro v a rest h
  obtain ⟨bs, h1, rfl⟩ := D.map_eq_ok.mp h
  obtain ⟨rfl, p, b, rfl, -⟩ := Dec.terminated_ok h1
  refine ⟨trivial, _, rfl, ?_⟩
  have := Enc.nat7_length_le (k := (p ++ [b]).length) (by simp) (Dec.val7_lt (p ++ [b]))
  simp only [List.length_append] at this ⊢
  omega

theorem zarithZ : Reencodes Enc.zarithZ Dec.zarithZ (fun _ => True) := by
  intro v a rest h
  obtain ⟨bs, h1, rfl⟩ := D.map_eq_ok.mp h
  obtain ⟨rfl, p, b, rfl, -⟩ := Dec.terminated_ok h1
  refine ⟨trivial, _, rfl, ?_⟩
  have := Enc.int7_length_le (k := p.length) (Dec.ival7_lt (show (p ++ [b]).length = p.length + 1 by simp))
  simp only [List.length_append, List.length_cons, List.length_nil] at this ⊢
  omega

variable {V : α → Prop} {V' : β → Prop}

theorem option {e : Enc α} {d : D α} (h : Reencodes e d V) :
    Reencodes (Enc.option e) (Dec.option d) (fun o => ∀ x, o = some x → V x) := by
  intro v a rest hd
  obtain ⟨t, r', h1, h2⟩ := D.bind_eq_ok.mp hd
  obtain ⟨hm, -, rfl⟩ := Dec.tag_mem h1
  split at h2
  · obtain ⟨x, h3, rfl⟩ := D.map_eq_ok.mp h2
    obtain ⟨hv, b, h4, h5⟩ := h _ _ _ h3
    refine ⟨fun y hy => by cases hy; exact hv, 0xff :: b, by simp [Enc.option, h4, cat_some], ?_⟩
    simp [TagWidth.len]
    omega
  · cases h2
    exact ⟨fun y hy => by (cases hy), [0], rfl, by simp [TagWidth.len]⟩

theorem nullable {e : Enc α} {d : D α} (h : Reencodes e d V) :
    Reencodes (Enc.nullable e) (Dec.nullable d) (fun o => ∀ x, o = some x → V x) := by
  intro v a rest hd
  simp only [Dec.nullable, D.ifEmpty] at hd
  split at hd
  · cases hd
    exact ⟨fun y hy => (by cases hy), [], rfl, by simp⟩
  · obtain ⟨x, h3, rfl⟩ := D.map_eq_ok.mp hd
    obtain ⟨hv, b, h4, h5⟩ := h _ _ _ h3
    exact ⟨fun y hy => by cases hy; exact hv, b, h4, h5⟩

theorem window {e : Enc α} {d : D α} (h : Reencodes e d V) {n : Nat} {v r : Bytes} {a : α}
    (hd : D.window n d v = .ok a r) : V a ∧ ∃ b, e a = some b ∧ b.length ≤ n ∧ n + r.length ≤ v.length := by
  obtain ⟨hn, h1, rfl⟩ := D.window_eq_ok.mp hd
  obtain ⟨hv, b, h2, h3⟩ := h _ _ _ h1
  refine ⟨hv, b, h2, ?_, ?_⟩
  · simp at h3; omega
  · simp; omega

theorem dynamic (S : LenPref) {len : α → Option Nat} {e : Enc α} {d : D α}
    (h : Reencodes e d V) (hl : ∀ x b, V x → e x = some b → len x = some b.length) :
    Reencodes (Enc.dynamic S len e) (Dec.dynamic S d) V := by
  intro v a rest hd
  obtain ⟨n, r', h1, h2⟩ := D.bind_eq_ok.mp hd
  obtain ⟨hm, rfl⟩ := Dec.lenPref_ok h1
  obtain ⟨hv, b, h3, h4, h5⟩ := h.window h2
  refine ⟨hv, toBe S.len b.length ++ b, ?_, ?_⟩
  · simp [Enc.dynamic, hl a b hv h3, Nat.le_trans h4 hm, h3, cat_some]
  · simp
    omega

theorem vpadded (cfg : Cfg) (n : Nat) {e : Enc α} {d : D α} (h : Reencodes e d V) :
    Reencodes e (Dec.vpadded cfg n d) V := by
  intro v a rest hd
  simp only [Dec.vpadded] at hd
  split at hd
  · obtain ⟨hv, b, h3, h4, h5⟩ := h.window hd
    exact ⟨hv, b, h3, by omega⟩
  · split at hd <;> cases hd

theorem padded (cfg : Cfg) (n : Nat) {e : Enc α} {d : D α} (h : Reencodes e d V) :
    Reencodes (Enc.padded n e) (Dec.padded cfg n d) V := by
  intro v a rest hd
  obtain ⟨x, r', h1, h2⟩ := D.bind_eq_ok.mp hd
  obtain ⟨p, r'', h3, h4⟩ := D.bind_eq_ok.mp h2
  obtain ⟨h5, rfl⟩ := D.take_eq_ok.mp h3
  obtain ⟨hv, b, h6, h7⟩ := h _ _ _ h1
  split at h4
  · cases h4
  · cases h4
    refine ⟨hv, b ++ List.replicate n 0, by simp [Enc.padded, h6, cat_some], ?_⟩
    simp at h7 ⊢
    omega

theorem seq {e : Enc α} {d : D α} (h : Reencodes e d V) (hp : ReadsPrefix d) :
    Reencodes (Enc.list e) (Dec.seq d) (fun xs => ∀ x ∈ xs, V x) := by
  intro v as r hd
  simp only [Dec.seq] at hd
  induction hl : v.length using Nat.strongRecOn generalizing v as r with
  | _ n ih =>
    obtain ⟨rfl, ⟨rfl, rfl⟩ | ⟨a, rest, as', hv, h1, h2, h3, rfl⟩⟩ := Canonical.many_ok hp v hd
    · exact ⟨by simp, [], rfl, by simp⟩
    · obtain ⟨hx, b, h4, h5⟩ := h _ _ _ h1
      obtain ⟨hxs, b', h6, h7⟩ := ih _ (hl ▸ h2) rest as' [] h3 rfl
      refine ⟨by simpa using ⟨hx, hxs⟩, b ++ b', by simp [Enc.list, h4, h6, cat_some], ?_⟩
      simp at h7 ⊢
      omega

theorem upTo {e : Enc α} {d : D α} (h : Reencodes e d V) :
    ∀ k, Reencodes (Enc.list e) (D.upTo d k) (fun xs => ∀ x ∈ xs, V x)
  | 0 => by
    intro v as r hd
    cases hd
    exact ⟨by simp, [], rfl, by simp⟩
  | k + 1 => by
    intro v as r hd
    simp only [D.upTo, D.ifEmpty] at hd
    split at hd
    · cases hd
      exact ⟨by simp, [], rfl, by simp⟩
    · obtain ⟨a, r1, h1, h2⟩ := D.bind_eq_ok.mp hd
      obtain ⟨as', r2, h3, h4⟩ := D.bind_eq_ok.mp h2
      cases h4
      obtain ⟨hx, b, h5, h6⟩ := h _ _ _ h1
      obtain ⟨hxs, b', h7, h8⟩ := upTo h k _ _ _ h3
      refine ⟨by simpa using ⟨hx, hxs⟩, b ++ b', by simp [Enc.list, h5, h7, cat_some], ?_⟩
      simp
      omega

theorem manyMax (er : ParseError) {e : Enc α} {d : D α} (h : Reencodes e d V) :
    ∀ k, Reencodes (Enc.list e) (D.manyMax er d k) (fun xs => xs.length ≤ k ∧ ∀ x ∈ xs, V x)
  | 0 => by
    intro v as r hd
    simp only [D.manyMax, D.ifEmpty] at hd
    split at hd
    · cases hd
      exact ⟨by simp, [], rfl, by simp⟩
    · obtain ⟨a, r1, h1, h2⟩ := D.bind_eq_ok.mp hd
      cases h2
  | k + 1 => by
    intro v as r hd
    simp only [D.manyMax, D.ifEmpty] at hd
    split at hd
    · cases hd
      exact ⟨by simp, [], rfl, by simp⟩
    · obtain ⟨a, r1, h1, h2⟩ := D.bind_eq_ok.mp hd
      obtain ⟨as', r2, h3, h4⟩ := D.bind_eq_ok.mp h2
      cases h4
      obtain ⟨hx, b, h5, h6⟩ := h _ _ _ h1
      obtain ⟨⟨hlen, hxs⟩, b', h7, h8⟩ := manyMax er h k _ _ _ h3
      refine ⟨⟨by simpa using hlen, by simpa using ⟨hx, hxs⟩⟩, b ++ b', by simp [Enc.list, h5, h7, cat_some], ?_⟩
      simp
      omega

theorem fixSeq (n : Nat) {e : Enc α} {d : D α} (h : Reencodes e d V) :
    Reencodes (Enc.list e) (Dec.fixSeq n d) (fun xs => xs.length = n ∧ ∀ x ∈ xs, V x) := by
  intro v as r hd
  obtain ⟨l, r1, h1, h2⟩ := D.bind_eq_ok.mp hd
  split at h2
  · rename_i hl
    cases h2
    obtain ⟨h3, h4⟩ := upTo h n _ _ _ h1
    exact ⟨⟨hl, h3⟩, h4⟩
  · cases h2

theorem limSeq (n : Nat) {e : Enc α} {d : D α} (h : Reencodes e d V) :
    Reencodes (Enc.list e) (Dec.limSeq n d) (fun xs => xs.length ≤ n ∧ ∀ x ∈ xs, V x) := manyMax _ h n

theorem fnil : Reencodes Enc.fnil Dec.fnil (fun _ => True) := of_canonical .fnil fun _ _ _ _ => trivial

theorem fcons {e : Enc α} {d : D α} {ef : Enc β} {df : D β} (h : Reencodes e d V) (hf : Reencodes ef df V') :
    Reencodes (Enc.fcons e ef) (Dec.fcons d df) (fun x => V x.1 ∧ V' x.2) := by
  intro v a rest hd
  obtain ⟨x, r1, h1, h2⟩ := D.bind_eq_ok.mp hd
  obtain ⟨y, r2, h3, h4⟩ := D.bind_eq_ok.mp h2
  cases h4
  obtain ⟨hx, b, h5, h6⟩ := h _ _ _ h1
  obtain ⟨hy, b', h7, h8⟩ := hf _ _ _ h3
  refine ⟨⟨hx, hy⟩, b ++ b', by simp [Enc.fcons, h5, h7, cat_some], ?_⟩
  simp
  omega

end Reencodes

def VReencodes (w : TagWidth) (e : TagWidth → Enc β) (d : Nat → D β) (V : β → Prop) : Prop :=
  ∀ t v a rest, d t v = .ok a rest →
    V a ∧ ∃ b, e w a = some (toBe w.len t ++ b) ∧ b.length + rest.length ≤ v.length

theorem VReencodes.nil (w : TagWidth) : VReencodes w Enc.vnil Dec.vnil (fun _ => True) := fun _ _ a => nomatch a

theorem VReencodes.cons {w : TagWidth} {e : Enc α} {d : D α} {ev : TagWidth → Enc β} {dv : Nat → D β} {V : α → Prop}
    {V' : β → Prop} (tag : Nat) (h : Reencodes e d V) (hv : VReencodes w ev dv V') :
    VReencodes w (Enc.vcons tag e ev) (Dec.vcons tag d dv) (Sum.elim V V') := by
  intro t v a rest hd
  simp only [Dec.vcons] at hd
  split at hd
  · rename_i ht
    subst ht
    obtain ⟨x, h1, rfl⟩ := D.map_eq_ok.mp hd
    obtain ⟨hx, b, h2, h3⟩ := h _ _ _ h1
    exact ⟨hx, b, by simp [Enc.vcons, h2, cat_some], h3⟩
  · obtain ⟨x, h1, rfl⟩ := D.map_eq_ok.mp hd
    exact hv _ _ _ _ h1

theorem Reencodes.data (w : TagWidth) (tags : List Nat) {ev : TagWidth → Enc β} {dv : Nat → D β} {V : β → Prop}
    (h : VReencodes w ev dv V) : Reencodes (ev w) (Dec.data w tags dv) V := by
  intro v a rest hd
  obtain ⟨t, r', h1, h2⟩ := D.bind_eq_ok.mp hd
  obtain ⟨-, -, rfl⟩ := Dec.tag_mem h1
  obtain ⟨hv, b, h3, h4⟩ := h _ _ _ _ h2
  exact ⟨hv, _, h3, by simp; omega⟩

end Verif
