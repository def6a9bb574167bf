import Verif.Lemmas.Schema
import Verif.Lemmas.Utf8
/-
Decoded values are valid; decoded texts are at most three times as long as what was read.
-/
namespace Verif

variable {α β : Type}

/-! ### decoded values are valid -/

def Yields (d : D α) (V : α → Prop) : Prop := ∀ v a rest, d v = .ok a rest → V a

namespace Yields

theorem triv (d : D α) : Yields d (fun _ => True) := fun _ _ _ _ => trivial

theorem bind {d : D α} {f : α → D β} {V : α → Prop} {V' : β → Prop} (h : Yields d V) (hf : ∀ a, V a → Yields (f a) V') :
    Yields (d >>= f) V' := by
  intro v b rest hd
  obtain ⟨a, r, h1, h2⟩ := D.bind_eq_ok.mp hd
  exact hf a (h _ _ _ h1) _ _ _ h2

theorem pure {a : α} {V : α → Prop} (h : V a) : Yields (Pure.pure a : D α) V := fun _ _ _ hd => by cases hd; exact h

theorem map {d : D α} {f : α → β} {V : α → Prop} {V' : β → Prop} (h : Yields d V) (hf : ∀ a, V a → V' (f a)) :
    Yields (f <$> d) V' := by
  intro v b rest hd
  obtain ⟨a, h1, rfl⟩ := D.map_eq_ok.mp hd
  exact hf a (h _ _ _ h1)

theorem ifEmpty {d d' : D α} {V : α → Prop} (h : Yields d V) (h' : Yields d' V) : Yields (D.ifEmpty d d') V := by
  intro v a rest hd
  simp only [D.ifEmpty] at hd
  split at hd
  · exact h _ _ _ hd
  · exact h' _ _ _ hd

theorem window {d : D α} {V : α → Prop} (h : Yields d V) (n : Nat) : Yields (D.window n d) V :=
  fun _ _ _ hd => h _ _ _ (D.window_eq_ok.mp hd).2.1

theorem option {d : D α} {V : α → Prop} (h : Yields d V) : Yields (Dec.option d) (fun o => ∀ x, o = some x → V x) :=
  bind (triv _) fun t _ => by
    split
    · exact map h fun a ha x hx => by cases hx; exact ha
    · exact pure fun x hx => by cases hx

theorem nullable {d : D α} {V : α → Prop} (h : Yields d V) : Yields (Dec.nullable d) (fun o => ∀ x, o = some x → V x) :=
  ifEmpty (pure fun x hx => by cases hx) (map h fun a ha x hx => by cases hx; exact ha)

theorem dynamic {d : D α} {V : α → Prop} (S : LenPref) (h : Yields d V) : Yields (Dec.dynamic S d) V :=
  bind (triv _) fun n _ => h.window n

theorem vpadded {d : D α} {V : α → Prop} (cfg : Cfg) (n : Nat) (h : Yields d V) : Yields (Dec.vpadded cfg n d) V := by
  intro v a rest hd
  simp only [Dec.vpadded] at hd
  split at hd
  · exact h.window _ _ _ _ hd
  · split at hd <;> cases hd

theorem padded {d : D α} {V : α → Prop} (cfg : Cfg) (n : Nat) (h : Yields d V) : Yields (Dec.padded cfg n d) V :=
  bind h fun a ha => bind (triv _) fun p _ => by
    split
    · exact fun _ _ _ hd => by cases hd
    · exact pure ha

theorem seq {d : D α} {V : α → Prop} (h : Yields d V) (hp : ReadsPrefix d) :
    Yields (Dec.seq d) (fun xs => ∀ x ∈ xs, V x) := by
  intro v as r hd
  simp only [Dec.seq] at hd
  induction hl : v.length using Nat.strongRecOn generalizing v as r with
  | _ n ih =>
    obtain ⟨rfl, ⟨rfl, rfl⟩ | ⟨a, rest, as', hv, h1, h2, h3, rfl⟩⟩ := Canonical.many_ok hp v hd
    · simp
    · simpa using ⟨h _ _ _ h1, ih _ (hl ▸ h2) rest as' [] h3 rfl⟩

theorem upTo {d : D α} {V : α → Prop} (h : Yields d V) : ∀ k, Yields (D.upTo d k) (fun xs => ∀ x ∈ xs, V x)
  | 0 => pure (by simp)
  | k + 1 => ifEmpty (pure (by simp)) (bind h fun a ha => bind (upTo h k) fun as has => pure (by simpa using ⟨ha, has⟩))

theorem manyMax {d : D α} {V : α → Prop} (er : ParseError) (h : Yields d V) :
    ∀ k, Yields (D.manyMax er d k) (fun xs => xs.length ≤ k ∧ ∀ x ∈ xs, V x)
  | 0 => ifEmpty (pure (by simp)) (bind h fun _ _ => fun _ _ _ hd => by cases hd)
  | k + 1 => ifEmpty (pure (by simp)) (bind h fun a ha => bind (manyMax er h k) fun as has =>
      pure (by simpa using ⟨has.1, ha, has.2⟩))

theorem fixSeq {d : D α} {V : α → Prop} (n : Nat) (h : Yields d V) :
    Yields (Dec.fixSeq n d) (fun xs => xs.length = n ∧ ∀ x ∈ xs, V x) :=
  bind (upTo h n) fun as has => by
    split
    · rename_i hl; exact pure ⟨hl, has⟩
    · exact fun _ _ _ hd => by cases hd

theorem limSeq {d : D α} {V : α → Prop} (n : Nat) (h : Yields d V) :
    Yields (Dec.limSeq n d) (fun xs => xs.length ≤ n ∧ ∀ x ∈ xs, V x) := manyMax _ h n

theorem vcons {d : D α} {dv : Nat → D β} {V : α → Prop} {V' : β → Prop} (tag : Nat) (h : Yields d V)
    (hv : ∀ t, Yields (dv t) V') (t : Nat) : Yields (Dec.vcons tag d dv t) (Sum.elim V V') := by
  unfold Dec.vcons
  split
  · exact map h fun _ h => h
  · exact map (hv t) fun _ h => h

end Yields

mutual
theorem Schema.yields (cfg : Cfg) : ∀ s : Schema, Yields (s.dec cfg) s.Valid
  | .unit | .bool | .int _ | .f64 | .rangedInt _ _ _ | .zarithN | .zarithZ | .bytes | .vecU8 | .string | .fixedBytes _
  | .fixedString _ | .cstyle _ _ => fun _ _ _ _ => trivial
  | .rangedFloat _ _ => fun _ _ _ h => (Canonical.rangedFloat_ok.mp h).2
  | .option s => .option (s.yields cfg)
  | .nullable s => .nullable (s.yields cfg)
  | .dynamic S s => .dynamic S (s.yields cfg)
  | .vpadded n s => .vpadded cfg n (s.yields cfg)
  | .padded n s => .padded cfg n (s.yields cfg)
  | .seq s => .seq (s.yields cfg) (s.readsPrefix cfg)
  | .fixSeq n s => .fixSeq n (s.yields cfg)
  | .limSeq n s => .limSeq n (s.yields cfg)
  | .autobox s => s.yields cfg
  | .hole _ => fun _ _ _ h => by cases h
  | .data _ vs => .bind (.triv _) fun t _ => vs.yields cfg t
  | .record fs => fs.yields cfg
theorem Variants.yields (cfg : Cfg) : ∀ (vs : Variants) (t : Nat), Yields (vs.dec cfg t) vs.Valid
  | .nil, _ => fun _ _ _ _ => trivial
  | .cons tag s vs, t => .vcons tag (s.yields cfg) (vs.yields cfg) t
theorem Fields.yields (cfg : Cfg) : ∀ fs : Fields, Yields (fs.dec cfg) fs.Valid
  | .nil => fun _ _ _ _ => trivial
  | .cons s fs => .bind (s.yields cfg) fun _ ha => .bind (fs.yields cfg) fun _ hb => .pure ⟨ha, hb⟩
end

/-! ### length of decoded text -/

theorem utf8Char_le (c : Char) : (utf8Char c).length ≤ 4 := by
  unfold utf8Char
  simp only
  split
  · simp
  · split
    · simp
    · split <;> simp

theorem utf8Char_replacement : (utf8Char replacement).length = 3 := by decide

theorem utf8Char_ofNat {n : Nat} (h : n < 128) : (utf8Char (Char.ofNat n)).length = 1 := by
  have : (Char.ofNat n).toNat = n := by
    unfold Char.ofNat
    rw [dif_pos (by left; omega)]
    simp [Char.ofNatAux, Char.toNat]
  unfold utf8Char
  simp only [this]
  rw [if_pos h]
  rfl

theorem lossyStep_length (a : Byte) (bs : Bytes) :
    (utf8Char (lossyStep a bs).1).length + 3 * (bs.drop ((lossyStep a bs).2 - 1)).length ≤ 3 * (bs.length + 1) := by
  have h4 := utf8Char_le
  have hr := utf8Char_replacement
  have key : ∀ (c : Char) (n : Nat), bs ≠ [] → 2 ≤ n →
      (utf8Char c).length + 3 * (bs.drop (n - 1)).length ≤ 3 * (bs.length + 1) := by
    intro c n hb hn
    have := h4 c
    have := List.length_pos_iff.mpr hb
    rw [List.length_drop]
    omega
  have one : ∀ c : Char, (utf8Char c).length ≤ 3 →
      (utf8Char c).length + 3 * (bs.drop (1 - 1)).length ≤ 3 * (bs.length + 1) := by
    intro c hc
    rw [Nat.sub_self, List.drop_zero]
    omega
  have hb : ∀ {p : Byte → Bool}, p 0 = false → ¬ (!p (safeGet bs 0)) = true → bs ≠ [] := by
    rintro p hp h rfl
    simp [safeGet, hp] at h
  have s3 : second3 a 0 = false := by simp [second3]
  have s4 : second4 a 0 = false := by simp [second4]
  unfold lossyStep
  simp only
  split
  · rename_i h
    refine one _ ?_
    have : a.toNat < 128 := by
      unfold charWidth at h
      simp only at h
      split at h
      · omega
      · split at h
        · cases h
        · split at h
          · cases h
          · split at h <;> cases h
    rw [utf8Char_ofNat this]
    omega
  · split
    · exact one _ (Nat.le_of_eq hr)
    · rename_i h
      exact key _ _ (hb (p := isCont) (by decide) h) (by omega)
  · split
    · exact one _ (Nat.le_of_eq hr)
    · rename_i h
      have := hb (p := second3 a) s3 h
      split
      · exact key _ _ this (by omega)
      · exact key _ _ this (by omega)
  · split
    · exact one _ (Nat.le_of_eq hr)
    · rename_i h
      have := hb (p := second4 a) s4 h
      split
      · exact key _ _ this (by omega)
      · split
        · exact key _ _ this (by omega)
        · exact key _ _ this (by omega)
  · exact one _ (Nat.le_of_eq hr)

theorem lossy_length (v : Bytes) : (utf8 (lossy v)).length ≤ 3 * v.length := by
  induction v using lossy.induct with
  | case1 => rw [lossy]; simp [utf8]
  | case2 a bs ih =>
    rw [lossy, utf8_cons, List.length_append, List.length_cons]
    have := lossyStep_length a bs
    omega

/-! ### re-encoding when there is text -/

/-- From at most `L / 3` bytes, only values that can be encoded are decoded, and the encoding is at most three
times as long as what was read. -/
def Grows (L : Nat) (e : Enc α) (d : D α) (V : α → Prop) : Prop := ∀ v a rest, 3 * v.length ≤ L → d v = .ok a rest →
  V a ∧ ∃ b, e a = some b ∧ b.length + 3 * rest.length ≤ 3 * v.length

namespace Grows

variable {V : α → Prop} {V' : β → Prop} {L : Nat}

theorem of_reencodes {e : Enc α} {d : D α} (h : Reencodes e d V) : Grows L e d V := by
  intro v a rest _ hd
  obtain ⟨hv, b, h1, h2⟩ := h _ _ _ hd
  exact ⟨hv, b, h1, by omega⟩

theorem string : Grows L Enc.string Dec.string (fun _ => True) := by
  intro v a rest _ hd
  have : a = lossy v ∧ rest = [] := by
    cases hd
    exact ⟨rfl, rfl⟩
  obtain ⟨rfl, rfl⟩ := this
  exact ⟨trivial, _, rfl, by simpa using lossy_length v⟩

theorem option {e : Enc α} {d : D α} (h : Grows L e d V) :
    Grows L (Enc.option e) (Dec.option d) (fun o => ∀ x, o = some x → V x) := by
  intro v a rest hL hd
  obtain ⟨t, r', h1, h2⟩ := D.bind_eq_ok.mp hd
  obtain ⟨hm, -, rfl⟩ := Dec.tag_mem h1
  split at h2
  · obtain ⟨x, h3, rfl⟩ := D.map_eq_ok.mp h2
    obtain ⟨hv, b, h4, h5⟩ := h _ _ _ (by simp at hL; omega) h3
    refine ⟨fun y hy => by cases hy; exact hv, 0xff :: b, by simp [Enc.option, h4, cat_some], ?_⟩
    simp [TagWidth.len]
    omega
  · cases h2
    exact ⟨fun y hy => by (cases hy), [0], rfl, by simp [TagWidth.len]; omega⟩

theorem nullable {e : Enc α} {d : D α} (h : Grows L e d V) :
    Grows L (Enc.nullable e) (Dec.nullable d) (fun o => ∀ x, o = some x → V x) := by
  intro v a rest hL hd
  simp only [Dec.nullable, D.ifEmpty] at hd
  split at hd
  · cases hd
    exact ⟨fun y hy => (by cases hy), [], rfl, by simp⟩
  · obtain ⟨x, h3, rfl⟩ := D.map_eq_ok.mp hd
    obtain ⟨hv, b, h4, h5⟩ := h _ _ _ hL h3
    exact ⟨fun y hy => by cases hy; exact hv, b, h4, h5⟩

theorem window {e : Enc α} {d : D α} (h : Grows L e d V) {n : Nat} {v r : Bytes} {a : α} (hL : 3 * v.length ≤ L)
    (hd : D.window n d v = .ok a r) : V a ∧ ∃ b, e a = some b ∧ b.length ≤ 3 * n ∧ n + r.length = v.length := by
  obtain ⟨hn, h1, rfl⟩ := D.window_eq_ok.mp hd
  obtain ⟨hv, b, h2, h3⟩ := h _ _ _ (by simp; omega) h1
  refine ⟨hv, b, h2, ?_, ?_⟩
  · simp at h3; omega
  · simp; omega

theorem dynamic (S : LenPref) {len : α → Option Nat} {e : Enc α} {d : D α} (hS : L ≤ S.maxLen)
    (h : Grows L e d V) (hl : ∀ x b, V x → e x = some b → len x = some b.length) :
    Grows L (Enc.dynamic S len e) (Dec.dynamic S d) V := by
  intro v a rest hL hd
  obtain ⟨n, r', h1, h2⟩ := D.bind_eq_ok.mp hd
  obtain ⟨hm, rfl⟩ := Dec.lenPref_ok h1
  simp at hL
  obtain ⟨hv, b, h3, h4, h5⟩ := h.window (by omega) h2
  have hb : b.length ≤ S.maxLen := by omega
  refine ⟨hv, toBe S.len b.length ++ b, ?_, ?_⟩
  · simp [Enc.dynamic, hl a b hv h3, hb, h3, cat_some]
  · simp
    omega

theorem vpadded (cfg : Cfg) (n : Nat) {e : Enc α} {d : D α} (h : Grows L e d V) :
    Grows L e (Dec.vpadded cfg n d) V := by
  intro v a rest hL hd
  simp only [Dec.vpadded] at hd
  split at hd
  · obtain ⟨hv, b, h3, h4, h5⟩ := h.window hL hd
    exact ⟨hv, b, h3, by omega⟩
  · split at hd <;> cases hd

theorem padded (cfg : Cfg) (n : Nat) {e : Enc α} {d : D α} (h : Grows L e d V) :
    Grows L (Enc.padded n e) (Dec.padded cfg n d) V := by
  intro v a rest hL hd
  obtain ⟨x, r', h1, h2⟩ := D.bind_eq_ok.mp hd
  obtain ⟨p, r'', h3, h4⟩ := D.bind_eq_ok.mp h2
  obtain ⟨h5, rfl⟩ := D.take_eq_ok.mp h3
  obtain ⟨hv, b, h6, h7⟩ := h _ _ _ hL h1
  split at h4
  · cases h4
  · cases h4
    refine ⟨hv, b ++ List.replicate n 0, by simp [Enc.padded, h6, cat_some], ?_⟩
    simp at h7 ⊢
    omega

theorem seq {e : Enc α} {d : D α} (h : Grows L e d V) (hp : ReadsPrefix d) :
    Grows L (Enc.list e) (Dec.seq d) (fun xs => ∀ x ∈ xs, V x) := by
  intro v as r hL hd
  simp only [Dec.seq] at hd
  induction hl : v.length using Nat.strongRecOn generalizing v as r with
  | _ n ih =>
    obtain ⟨rfl, ⟨rfl, rfl⟩ | ⟨a, rest, as', hv, h1, h2, h3, rfl⟩⟩ := Canonical.many_ok hp v hd
    · exact ⟨by simp, [], rfl, by simp⟩
    · obtain ⟨hx, b, h4, h5⟩ := h _ _ _ hL h1
      obtain ⟨hxs, b', h6, h7⟩ := ih _ (hl ▸ h2) rest as' [] (by omega) h3 rfl
      refine ⟨by simpa using ⟨hx, hxs⟩, b ++ b', by simp [Enc.list, h4, h6, cat_some], ?_⟩
      simp at h7 ⊢
      omega

theorem upTo {e : Enc α} {d : D α} (h : Grows L e d V) (hp : ReadsPrefix d) :
    ∀ k, Grows L (Enc.list e) (D.upTo d k) (fun xs => ∀ x ∈ xs, V x)
  | 0 => by
    intro v as r _ hd
    cases hd
    exact ⟨by simp, [], rfl, by simp⟩
  | k + 1 => by
    intro v as r hL hd
    simp only [D.upTo, D.ifEmpty] at hd
    split at hd
    · cases hd
      exact ⟨by simp, [], rfl, by simp⟩
    · obtain ⟨a, r1, h1, h2⟩ := D.bind_eq_ok.mp hd
      obtain ⟨as', r2, h3, h4⟩ := D.bind_eq_ok.mp h2
      cases h4
      obtain ⟨hx, b, h5, h6⟩ := h _ _ _ hL h1
      obtain ⟨p, hp'⟩ := hp _ _ _ h1
      have := congrArg List.length hp'
      simp at this
      obtain ⟨hxs, b', h7, h8⟩ := upTo h hp k _ _ _ (by omega) h3
      refine ⟨by simpa using ⟨hx, hxs⟩, b ++ b', by simp [Enc.list, h5, h7, cat_some], ?_⟩
      simp
      omega

theorem manyMax (er : ParseError) {e : Enc α} {d : D α} (h : Grows L e d V) (hp : ReadsPrefix d) :
    ∀ k, Grows L (Enc.list e) (D.manyMax er d k) (fun xs => xs.length ≤ k ∧ ∀ x ∈ xs, V x)
  | 0 => by
    intro v as r _ hd
    simp only [D.manyMax, D.ifEmpty] at hd
    split at hd
    · cases hd
      exact ⟨by simp, [], rfl, by simp⟩
    · obtain ⟨a, r1, h1, h2⟩ := D.bind_eq_ok.mp hd
      cases h2
  | k + 1 => by
    intro v as r hL hd
    simp only [D.manyMax, D.ifEmpty] at hd
    split at hd
    · cases hd
      exact ⟨by simp, [], rfl, by simp⟩
    · obtain ⟨a, r1, h1, h2⟩ := D.bind_eq_ok.mp hd
      obtain ⟨as', r2, h3, h4⟩ := D.bind_eq_ok.mp h2
      cases h4
      obtain ⟨hx, b, h5, h6⟩ := h _ _ _ hL h1
      obtain ⟨p, hp'⟩ := hp _ _ _ h1
      have := congrArg List.length hp'
      simp at this
      obtain ⟨⟨hlen, hxs⟩, b', h7, h8⟩ := manyMax er h hp k _ _ _ (by omega) h3
      refine ⟨⟨by simpa using hlen, by simpa using ⟨hx, hxs⟩⟩, b ++ b', by simp [Enc.list, h5, h7, cat_some], ?_⟩
      simp
      omega

theorem fixSeq (n : Nat) {e : Enc α} {d : D α} (h : Grows L e d V) (hp : ReadsPrefix d) :
    Grows L (Enc.list e) (Dec.fixSeq n d) (fun xs => xs.length = n ∧ ∀ x ∈ xs, V x) := by
  intro v as r hL hd
  obtain ⟨l, r1, h1, h2⟩ := D.bind_eq_ok.mp hd
  split at h2
  · rename_i hl
    cases h2
    obtain ⟨h3, h4⟩ := upTo h hp n _ _ _ hL h1
    exact ⟨⟨hl, h3⟩, h4⟩
  · cases h2

theorem limSeq (n : Nat) {e : Enc α} {d : D α} (h : Grows L e d V) (hp : ReadsPrefix d) :
    Grows L (Enc.list e) (Dec.limSeq n d) (fun xs => xs.length ≤ n ∧ ∀ x ∈ xs, V x) := manyMax _ h hp n

theorem fcons {e : Enc α} {d : D α} {ef : Enc β} {df : D β} (h : Grows L e d V) (hp : ReadsPrefix d)
    (hf : Grows L ef df V') : Grows L (Enc.fcons e ef) (Dec.fcons d df) (fun x => V x.1 ∧ V' x.2) := by
  intro v a rest hL hd
  obtain ⟨x, r1, h1, h2⟩ := D.bind_eq_ok.mp hd
  obtain ⟨y, r2, h3, h4⟩ := D.bind_eq_ok.mp h2
  cases h4
  obtain ⟨hx, b, h5, h6⟩ := h _ _ _ hL h1
  obtain ⟨p, hp'⟩ := hp _ _ _ h1
  have := congrArg List.length hp'
  simp at this
  obtain ⟨hy, b', h7, h8⟩ := hf _ _ _ (by omega) h3
  refine ⟨⟨hx, hy⟩, b ++ b', by simp [Enc.fcons, h5, h7, cat_some], ?_⟩
  simp
  omega

end Grows

def VGrows (L : Nat) (w : TagWidth) (e : TagWidth → Enc β) (d : Nat → D β) (V : β → Prop) : Prop :=
  ∀ t v a rest, 3 * v.length ≤ L → d t v = .ok a rest →
    V a ∧ ∃ b, e w a = some (toBe w.len t ++ b) ∧ b.length + 3 * rest.length ≤ 3 * v.length

theorem VGrows.nil (L : Nat) (w : TagWidth) : VGrows L w Enc.vnil Dec.vnil (fun _ => True) := fun _ _ a => nomatch a

theorem VGrows.cons {L : Nat} {w : TagWidth} {e : Enc α} {d : D α} {ev : TagWidth → Enc β} {dv : Nat → D β}
    {V : α → Prop} {V' : β → Prop} (tag : Nat) (h : Grows L e d V) (hv : VGrows L w ev dv V') :
    VGrows L w (Enc.vcons tag e ev) (Dec.vcons tag d dv) (Sum.elim V V') := by
  intro t v a rest hL hd
  simp only [Dec.vcons] at hd
  split at hd
  · rename_i ht
    subst ht
    obtain ⟨x, h1, rfl⟩ := D.map_eq_ok.mp hd
    obtain ⟨hx, b, h2, h3⟩ := h _ _ _ hL h1
    exact ⟨hx, b, by simp [Enc.vcons, h2, cat_some], h3⟩
  · obtain ⟨x, h1, rfl⟩ := D.map_eq_ok.mp hd
    exact hv _ _ _ _ hL h1

theorem Grows.data {L : Nat} (w : TagWidth) (tags : List Nat) {ev : TagWidth → Enc β} {dv : Nat → D β} {V : β → Prop}
    (h : VGrows L w ev dv V) : Grows L (ev w) (Dec.data w tags dv) V := by
  intro v a rest hL hd
  obtain ⟨t, r', h1, h2⟩ := D.bind_eq_ok.mp hd
  obtain ⟨-, -, rfl⟩ := Dec.tag_mem h1
  simp at hL
  obtain ⟨hv, b, h3, h4⟩ := h _ _ _ _ (by omega) h2
  exact ⟨hv, _, h3, by simp; omega⟩

mutual
theorem Schema.grows (cfg : Cfg) (L : Nat) : ∀ s : Schema, s.textLimit L = true → Grows L s.wire (s.dec cfg) s.Valid
  | .unit, _ => .of_reencodes (Schema.reencodes cfg .unit rfl)
  | .bool, _ => .of_reencodes (Schema.reencodes cfg .bool rfl)
  | .int t, _ => .of_reencodes (Schema.reencodes cfg (.int t) rfl)
  | .f64, _ => .of_reencodes (Schema.reencodes cfg .f64 rfl)
  | .rangedInt t min max, _ => .of_reencodes (Schema.reencodes cfg (.rangedInt t min max) rfl)
  | .rangedFloat min max, _ => .of_reencodes (Schema.reencodes cfg (.rangedFloat min max) rfl)
  | .zarithN, _ => .of_reencodes .zarithN
  | .zarithZ, _ => .of_reencodes .zarithZ
  | .bytes, _ => .of_reencodes (Schema.reencodes cfg .bytes rfl)
  | .vecU8, _ => .of_reencodes (Schema.reencodes cfg .vecU8 rfl)
  | .string, _ => .string
  | .fixedBytes n, _ => .of_reencodes (Schema.reencodes cfg (.fixedBytes n) rfl)
  | .fixedString n, _ => .of_reencodes (Schema.reencodes cfg (.fixedString n) rfl)
  | .option s, h => .option (s.grows cfg L h)
  | .nullable s, h => .nullable (s.grows cfg L h)
  | .dynamic S s, h => by
    simp only [Schema.textLimit, Bool.or_eq_true, Bool.and_eq_true, decide_eq_true_eq] at h
    rcases h with h | ⟨h1, h2⟩
    · exact .of_reencodes (.dynamic S (s.reencodes cfg h) fun x b _ hb => by rw [hb]; rfl)
    · exact .dynamic S h1 (s.grows cfg L h2) fun x b _ hb => by rw [hb]; rfl
  | .vpadded n s, h => .vpadded cfg n (s.grows cfg L h)
  | .padded n s, h => .padded cfg n (s.grows cfg L h)
  | .seq s, h => .seq (s.grows cfg L h) (s.readsPrefix cfg)
  | .fixSeq n s, h => .fixSeq n (s.grows cfg L h) (s.readsPrefix cfg)
  | .limSeq n s, h => .limSeq n (s.grows cfg L h) (s.readsPrefix cfg)
  | .autobox s, h => s.grows cfg L h
  | .hole _, _ => fun _ _ _ _ h => by cases h
  | .cstyle w tags, _ => .of_reencodes (Schema.reencodes cfg (.cstyle w tags) rfl)
  | .data w vs, h => .data w _ (vs.grows cfg L w h)
  | .record fs, h => fs.grows cfg L h
theorem Variants.grows (cfg : Cfg) (L : Nat) (w : TagWidth) : ∀ vs : Variants, vs.textLimit L = true →
    VGrows L w vs.wire (vs.dec cfg) vs.Valid
  | .nil, _ => .nil L w
  | .cons tag s vs, h => by
    simp only [Variants.textLimit, Bool.and_eq_true] at h
    exact .cons tag (s.grows cfg L h.1) (vs.grows cfg L w h.2)
theorem Fields.grows (cfg : Cfg) (L : Nat) : ∀ fs : Fields, fs.textLimit L = true → Grows L fs.wire (fs.dec cfg) fs.Valid
  | .nil, _ => .of_reencodes .fnil
  | .cons s fs, h => by
    simp only [Fields.textLimit, Bool.and_eq_true] at h
    exact .fcons (s.grows cfg L h.1) (s.readsPrefix cfg) (fs.grows cfg L h.2)
end

end Verif
