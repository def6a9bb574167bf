import Verif.Spec.Sizes
import Verif.Lemmas.Size
import Verif.Lemmas.Width
/-
The sizes of messages: of what is encoded, of what is decoded, and that all of them occur.
-/
namespace Verif

variable {α β : Type}

/-! ### of what is decoded -/

/-- What is read has one of the sizes. -/
def Measures (d : D α) (L : Nat → Prop) : Prop := ∀ v x r, d v = .ok x r → ∃ u, v = u ++ r ∧ L u.length

namespace Measures

variable {d : D α} {L L' : Nat → Prop}

theorem mono (h : Measures d L) (hl : ∀ n, L n → L' n) : Measures d L' := fun v x r hd =>
  let ⟨u, h1, h2⟩ := h v x r hd
  ⟨u, h1, hl _ h2⟩

theorem of_canonical {e : Enc α} (h : Canonical e d) (hl : ∀ x b, (∃ v r, d v = .ok x r) → e x = some b → L b.length) :
    Measures d L := fun v x r hd =>
  let ⟨b, h1, h2⟩ := h v x r hd
  ⟨b, h2, hl x b ⟨v, r, hd⟩ h1⟩

theorem of_reads (h : ReadsPrefix d) (hl : ∀ n, L n) : Measures d L := fun v x r hd =>
  let ⟨p, h1⟩ := h v x r hd
  ⟨p, h1, hl _⟩

theorem map {f : α → β} (h : Measures d L) : Measures (f <$> d) L := by
  intro v b r hd
  obtain ⟨a, h1, -⟩ := D.map_eq_ok.mp hd
  exact h v a r h1

theorem terminated : Measures Dec.terminated (fun n => 1 ≤ n) := by
  intro v x r h
  obtain ⟨h1, p, b, rfl, -⟩ := Dec.terminated_ok h
  exact ⟨_, h1, by simp⟩

theorem tag (w : TagWidth) (tags : List Nat) {f : Nat → D α} (h : ∀ t ∈ tags, Measures (f t) L) :
    Measures (Dec.tag w tags >>= f) (fun n => ∃ m, L m ∧ n = w.len + m) := by
  intro v x r hd
  obtain ⟨t, v', h1, h2⟩ := D.bind_eq_ok.mp hd
  obtain ⟨h3, -, rfl⟩ := Dec.tag_mem h1
  obtain ⟨u, rfl, h4⟩ := h t h3 v' x r h2
  exact ⟨toBe w.len t ++ u, by simp, u.length, h4, by simp⟩

theorem run : ∀ {v : Bytes} {l : List α} {r : Bytes}, Measures d L → Run d v l r →
    ∃ (ls : List Nat) (u : Bytes), v = u ++ r ∧ ls.length = l.length ∧ (∀ n ∈ ls, L n) ∧ ls.sum = u.length
  | _, [], _, _, h => ⟨[], [], by cases h; rfl, rfl, nofun, rfl⟩
  | v, a :: l, r, hd, ⟨w, h1, h2⟩ => by
    obtain ⟨u, rfl, h3⟩ := hd v a w h1
    obtain ⟨ls, u', rfl, h4, h5, h6⟩ := run hd h2
    refine ⟨u.length :: ls, u ++ u', by simp, by simp [h4], ?_, by simp [h6]⟩
    intro n hn
    rcases List.mem_cons.mp hn with rfl | hn
    · exact h3
    · exact h5 n hn

end Measures

theorem Run1.run {d : D α} : ∀ {v : Bytes} {l : List α} {r : Bytes}, Run1 d v l r → Run d v l r
  | _, [], _, h => h
  | _, _ :: _, _, ⟨w, h1, _, h2⟩ => ⟨w, h1, run h2⟩

mutual
theorem Schema.measures (cfg : Cfg) : ∀ s : Schema, Measures (s.dec cfg) s.Sizes
  | .unit => .of_canonical Canonical.unit fun _ _ _ h => by cases h; rfl
  | .bool => .of_canonical Canonical.bool fun _ _ _ h => by cases h; rfl
  | .int t => .of_canonical (Canonical.int t) fun _ _ _ h => by cases h; simp [Schema.Sizes]
  | .f64 => .of_canonical Canonical.f64 fun _ _ _ h => by cases h; simp [Schema.Sizes]
  | .rangedInt t min max => .of_canonical (Canonical.rangedInt t min max) fun x b _ h => by
    simp only [Enc.rangedInt] at h
    split at h
    · rename_i hr
      cases h
      exact ⟨by simp, x, hr⟩
    · cases h
  | .rangedFloat min max => .of_canonical (Canonical.rangedFloat min max) fun x b hx h => by
    obtain ⟨v, r, hd⟩ := hx
    cases h
    exact ⟨by simp, (Canonical.rangedFloat_ok.mp hd).2.2.2⟩
  | .zarithN => Measures.terminated.map
  | .zarithZ => Measures.terminated.map
  | .bytes => .of_reads ReadsPrefix.bytes fun _ => trivial
  | .vecU8 => .of_reads ReadsPrefix.bytes fun _ => trivial
  | .string => .of_reads ReadsPrefix.string fun _ => trivial
  | .fixedBytes n => .of_canonical (Canonical.byteArr n) fun x _ _ h => by cases h; exact x.2
  | .fixedString n => .of_canonical (Canonical.byteArr n) fun x _ _ h => by cases h; exact x.2
  | .option s => by
    refine (Measures.tag (L := fun n => n = 0 ∨ s.Sizes n) .u8 [0x00, 0xff] fun t _ => ?_).mono ?_
    · intro v x r hd
      split at hd
      · obtain ⟨a, h1, -⟩ := D.map_eq_ok.mp hd
        obtain ⟨u, h2, h3⟩ := s.measures cfg v a r h1
        exact ⟨u, h2, .inr h3⟩
      · cases hd
        exact ⟨[], rfl, .inl rfl⟩
    · rintro n ⟨m, rfl | h, rfl⟩
      · exact .inl rfl
      · exact .inr ⟨m, h, rfl⟩
  | .nullable s => by
    intro v x r hd
    simp only [Schema.dec, Dec.nullable, D.ifEmpty] at hd
    split at hd
    · cases hd
      exact ⟨[], rfl, .inl rfl⟩
    · obtain ⟨a, h1, -⟩ := D.map_eq_ok.mp hd
      obtain ⟨u, h2, h3⟩ := s.measures cfg v a r h1
      exact ⟨u, h2, .inr h3⟩
  | .dynamic S s => by
    intro v x r hd
    obtain ⟨n, v', h1, h2⟩ := D.bind_eq_ok.mp hd
    obtain ⟨h3, rfl⟩ := Dec.lenPref_ok h1
    obtain ⟨h4, h5, rfl⟩ := D.window_eq_ok.mp h2
    obtain ⟨u, h6, h7⟩ := s.measures cfg _ _ _ h5
    rw [List.append_nil] at h6
    subst h6
    refine ⟨toBe S.len n ++ v'.take n, by simp, (v'.take n).length, h7, by simp; omega, by simp⟩
  | .vpadded n s => by
    intro v x r hd
    simp only [Schema.dec, Dec.vpadded] at hd
    split at hd
    · obtain ⟨h4, h5, rfl⟩ := D.window_eq_ok.mp hd
      obtain ⟨u, h6, h7⟩ := s.measures cfg _ _ _ h5
      rw [List.append_nil] at h6
      subst h6
      exact ⟨_, (List.take_append_drop _ _).symm, h7⟩
    · split at hd <;> cases hd
  | .padded n s => by
    intro v x r hd
    obtain ⟨a, w, h2, h3⟩ := D.bind_eq_ok.mp hd
    obtain ⟨p, u, h4, h5⟩ := D.bind_eq_ok.mp h3
    obtain ⟨h6, rfl⟩ := D.take_eq_ok.mp h4
    obtain ⟨q, rfl, h7⟩ := s.measures cfg _ _ _ h2
    split at h5
    · cases h5
    · cases h5
      exact ⟨q ++ p, by simp, q.length, h7, by simp [h6]⟩
  | .seq s => by
    intro v x r hd
    obtain ⟨ls, u, h1, -, h3, h4⟩ := (s.measures cfg).run (Run1.of_many hd).run
    exact ⟨u, h1, ls, trivial, h3, h4⟩
  | .fixSeq n s => by
    intro v x r hd
    obtain ⟨l, w, h1, h2⟩ := D.bind_eq_ok.mp hd
    obtain ⟨ls, u, h3, h4, h5, h6⟩ := (s.measures cfg).run (Run.of_upTo h1).1
    split at h2
    · rename_i hl
      cases h2
      exact ⟨u, h3, ls, h4.trans hl, h5, h6⟩
    · cases h2
  | .limSeq n s => by
    intro v x r hd
    obtain ⟨h1, h2⟩ := Run.of_manyMax hd
    obtain ⟨ls, u, h3, h4, h5, h6⟩ := (s.measures cfg).run h1
    exact ⟨u, h3, ls, h4 ▸ h2, h5, h6⟩
  | .autobox s => s.measures cfg
  | .hole _ => fun _ _ _ h => nomatch h
  | .cstyle w tags => by
    refine (Measures.tag (L := fun n => n = 0 ∧ tags ≠ []) w tags fun t ht => ?_).mono ?_
    · intro v x r hd
      rw [dif_pos ht] at hd
      cases hd
      exact ⟨[], rfl, rfl, List.ne_nil_of_mem ht⟩
    · rintro n ⟨m, ⟨rfl, h⟩, rfl⟩
      exact ⟨rfl, h⟩
  | .data w vs => Measures.tag w vs.tags fun t _ => vs.measures cfg t
  | .record fs => fs.measures cfg
theorem Variants.measures (cfg : Cfg) : ∀ (vs : Variants) (t : Nat), Measures (vs.dec cfg t) vs.Sizes
  | .nil, _ => fun _ _ _ h => nomatch h
  | .cons t s vs, t' => by
    intro v x r hd
    simp only [Variants.dec, Dec.vcons] at hd
    split at hd
    · obtain ⟨a, h1, -⟩ := D.map_eq_ok.mp hd
      obtain ⟨u, h2, h3⟩ := s.measures cfg v a r h1
      exact ⟨u, h2, .inl h3⟩
    · obtain ⟨a, h1, -⟩ := D.map_eq_ok.mp hd
      obtain ⟨u, h2, h3⟩ := vs.measures cfg t' v a r h1
      exact ⟨u, h2, .inr h3⟩
theorem Fields.measures (cfg : Cfg) : ∀ fs : Fields, Measures (fs.dec cfg) fs.Sizes
  | .nil => fun v _ _ h => by cases h; exact ⟨[], rfl, rfl⟩
  | .cons s fs => by
    intro v x r hd
    obtain ⟨a, w, h2, h3⟩ := D.bind_eq_ok.mp hd
    obtain ⟨b, u, h4, h5⟩ := D.bind_eq_ok.mp h3
    cases h5
    obtain ⟨p, rfl, h6⟩ := s.measures cfg _ _ _ h2
    obtain ⟨q, rfl, h7⟩ := fs.measures cfg _ _ _ h4
    exact ⟨p ++ q, by simp, p.length, q.length, h6, h7, by simp⟩
end

/-! ### of what is encoded -/

theorem Enc.nat7_pos (n : Nat) : 1 ≤ (Enc.nat7 n).length := by
  unfold Enc.nat7
  split <;> simp

theorem Enc.int7_pos (z : Int) : 1 ≤ (Enc.int7 z).length := by
  unfold Enc.int7
  simp only
  split <;> simp

theorem Enc.list_sizes {e : Enc α} {L : Nat → Prop} : ∀ {xs : List α} {b : Bytes}, (∀ x ∈ xs, ∀ c, e x = some c → L c.length) →
    Enc.list e xs = some b → ∃ ls : List Nat, ls.length = xs.length ∧ (∀ n ∈ ls, L n) ∧ ls.sum = b.length
  | [], _, _, h => by cases h; exact ⟨[], rfl, nofun, rfl⟩
  | x :: xs, b, h, hb => by
    obtain ⟨p, q, h1, h2, rfl⟩ := cat_eq_some.mp hb
    obtain ⟨ls, h3, h4, h5⟩ := list_sizes (fun y hy => h y (List.mem_cons_of_mem _ hy)) h2
    refine ⟨p.length :: ls, by simp [h3], ?_, by simp [h5]⟩
    intro n hn
    rcases List.mem_cons.mp hn with rfl | hn
    · exact h x List.mem_cons_self _ h1
    · exact h4 n hn

mutual
theorem Schema.wire_sizes : ∀ (s : Schema) (x : s.Val) (b : Bytes), s.Valid x → s.wire x = some b → s.Sizes b.length
  | .unit, _, _, _, h => by cases h; rfl
  | .bool, _, _, _, h => by cases h; rfl
  | .int t, _, _, _, h => by cases h; simp [Schema.Sizes]
  | .f64, _, _, _, h => by cases h; simp [Schema.Sizes]
  | .rangedInt t min max, x, b, _, h => by
    simp only [Schema.wire, Enc.rangedInt] at h
    split at h
    · rename_i hr
      cases h
      exact ⟨by simp, x, hr⟩
    · cases h
  | .rangedFloat min max, x, b, hv, h => by cases h; exact ⟨by simp, hv.2.2⟩
  | .zarithN, _, _, _, h => by cases h; exact Enc.nat7_pos _
  | .zarithZ, _, _, _, h => by cases h; exact Enc.int7_pos _
  | .bytes, _, _, _, _ => trivial
  | .vecU8, _, _, _, _ => trivial
  | .string, _, _, _, _ => trivial
  | .fixedBytes n, x, _, _, h => by cases h; exact x.2
  | .fixedString n, x, _, _, h => by cases h; exact x.2
  | .option s, none, _, _, h => by cases h; exact .inl rfl
  | .option s, some x, b, hv, h => by
    obtain ⟨p, q, h1, h2, rfl⟩ := cat_eq_some.mp h
    cases h1
    exact .inr ⟨q.length, s.wire_sizes x q (hv x rfl) h2, by simp; omega⟩
  | .nullable s, none, _, _, h => by cases h; exact .inl rfl
  | .nullable s, some x, b, hv, h => .inr (s.wire_sizes x b (hv x rfl) h)
  | .dynamic S s, x, b, hv, h => by
    simp only [Schema.wire, Enc.dynamic] at h
    split at h
    · cases h
    · rename_i l hl
      split at h
      · rename_i hm
        obtain ⟨p, q, h1, h2, rfl⟩ := cat_eq_some.mp h
        cases h1
        rw [h2] at hl
        cases hl
        exact ⟨q.length, s.wire_sizes x q hv h2, hm, by simp⟩
      · cases h
  | .vpadded _ s, x, b, hv, h => s.wire_sizes x b hv h
  | .padded k s, x, b, hv, h => by
    obtain ⟨p, q, h1, h2, rfl⟩ := cat_eq_some.mp h
    cases h2
    exact ⟨p.length, s.wire_sizes x p hv h1, by simp⟩
  | .seq s, xs, b, hv, h =>
    let ⟨ls, _, h2, h3⟩ := Enc.list_sizes (fun x hx c hc => s.wire_sizes x c (hv x hx) hc) h
    ⟨ls, trivial, h2, h3⟩
  | .fixSeq _ s, xs, b, hv, h =>
    let ⟨ls, h1, h2, h3⟩ := Enc.list_sizes (fun x hx c hc => s.wire_sizes x c (hv.2 x hx) hc) h
    ⟨ls, h1.trans hv.1, h2, h3⟩
  | .limSeq _ s, xs, b, hv, h =>
    let ⟨ls, h1, h2, h3⟩ := Enc.list_sizes (fun x hx c hc => s.wire_sizes x c (hv.2 x hx) hc) h
    ⟨ls, h1 ▸ hv.1, h2, h3⟩
  | .autobox s, x, b, hv, h => s.wire_sizes x b hv h
  | .hole _, x, _, _, _ => nomatch x
  | .cstyle w tags, x, _, _, h => by cases h; exact ⟨by simp, List.ne_nil_of_mem x.2⟩
  | .data w vs, x, b, hv, h => vs.wire_sizes w x b hv h
  | .record fs, x, b, hv, h => fs.wire_sizes x b hv h
theorem Variants.wire_sizes : ∀ (vs : Variants) (w : TagWidth) (x : vs.Val) (b : Bytes), vs.Valid x → vs.wire w x = some b →
    ∃ m, vs.Sizes m ∧ b.length = w.len + m
  | .nil, _, x, _, _, _ => nomatch x
  | .cons t s vs, w, .inl x, b, hv, h => by
    obtain ⟨p, q, h1, h2, rfl⟩ := cat_eq_some.mp h
    cases h1
    exact ⟨q.length, .inl (s.wire_sizes x q hv h2), by simp⟩
  | .cons t s vs, w, .inr x, b, hv, h =>
    let ⟨m, h1, h2⟩ := vs.wire_sizes w x b hv h
    ⟨m, .inr h1, h2⟩
theorem Fields.wire_sizes : ∀ (fs : Fields) (x : fs.Val) (b : Bytes), fs.Valid x → fs.wire x = some b → fs.Sizes b.length
  | .nil, _, _, _, h => by cases h; rfl
  | .cons s fs, x, b, hv, h => by
    obtain ⟨p, q, h1, h2, rfl⟩ := cat_eq_some.mp h
    exact ⟨p.length, q.length, s.wire_sizes _ p hv.1 h1, fs.wire_sizes _ q hv.2 h2, by simp⟩
end

/-! ### all of them occur -/

theorem Enc.nat7_exact : ∀ k : Nat, (Enc.nat7 (128 ^ k)).length = k + 1
  | 0 => by unfold Enc.nat7; simp
  | k + 1 => by
    have h : 1 ≤ 128 ^ k := Nat.one_le_pow _ _ (by decide)
    unfold Enc.nat7
    rw [if_neg (by rw [Nat.pow_succ]; omega)]
    have e : 128 ^ (k + 1) / 128 = 128 ^ k := by rw [Nat.pow_succ]; exact Nat.mul_div_cancel _ (by decide)
    rw [List.length_cons, e, nat7_exact k]

theorem Enc.int7_exact : ∀ k : Nat, ∃ z : Int, (Enc.int7 z).length = k + 1
  | 0 => ⟨0, by unfold Enc.int7; simp⟩
  | k + 1 => by
    refine ⟨((64 * 128 ^ k : Nat) : Int), ?_⟩
    have h : 1 ≤ 128 ^ k := Nat.one_le_pow _ _ (by decide)
    unfold Enc.int7
    simp only [Int.natAbs_natCast]
    rw [if_neg (by omega), List.length_cons, Nat.mul_div_cancel_left _ (by decide), nat7_exact k]

theorem utf8_replicate (n : Nat) : (utf8 (List.replicate n 'a')).length = n := by
  induction n with
  | zero => rfl
  | succ n ih =>
    rw [List.replicate_succ, utf8_cons, List.length_append, ih]
    have : (utf8Char 'a').length = 1 := by decide
    omega

theorem Enc.list_occurs {e : Enc α} {V : α → Prop} {L : Nat → Prop} (h : ∀ n, L n → ∃ x b, V x ∧ e x = some b ∧ b.length = n) :
    ∀ ls : List Nat, (∀ n ∈ ls, L n) → ∃ xs b, (∀ x ∈ xs, V x) ∧ xs.length = ls.length ∧ Enc.list e xs = some b ∧ b.length = ls.sum
  | [], _ => ⟨[], [], nofun, rfl, rfl, rfl⟩
  | n :: ls, hl => by
    obtain ⟨x, b, h1, h2, rfl⟩ := h n (hl n List.mem_cons_self)
    obtain ⟨xs, c, h3, h4, h5, h6⟩ := list_occurs h ls fun m hm => hl m (List.mem_cons_of_mem _ hm)
    refine ⟨x :: xs, b ++ c, ?_, by simp [h4], cat_eq_some.mpr ⟨b, c, h2, h5, rfl⟩, by simp [h6]⟩
    intro y hy
    rcases List.mem_cons.mp hy with rfl | hy
    · exact h1
    · exact h3 y hy

theorem F64.le_self_of_le {x y : BitVec 64} (h : F64.le x y = true) : F64.le x x = true := by
  simp only [F64.le, Bool.and_eq_true, decide_eq_true_eq] at h ⊢
  exact ⟨⟨h.1.1, h.1.1⟩, Int.le_refl _⟩

mutual
theorem Schema.occurs : ∀ (s : Schema) (n : Nat), s.Sizes n → ∃ x b, (s.Valid x ∧ s.EstOk x) ∧ s.wire x = some b ∧ b.length = n
  | .unit, n, h => ⟨(), [], ⟨trivial, trivial⟩, rfl, h.symm⟩
  | .bool, n, h => ⟨true, [0xff], ⟨trivial, trivial⟩, rfl, h.symm⟩
  | .int t, n, h => ⟨(0 : BitVec _), _, ⟨trivial, trivial⟩, rfl, by rw [h]; simp⟩
  | .f64, n, h => ⟨(0 : BitVec 64), _, ⟨trivial, trivial⟩, rfl, by rw [h]; simp⟩
  | .rangedInt t min max, n, ⟨h, x, hx⟩ => ⟨x, toBe t.len x.toNat, ⟨trivial, trivial⟩, if_pos hx, by rw [h]; simp⟩
  | .rangedFloat min max, n, ⟨h, hx⟩ => ⟨min, _, ⟨⟨F64.le_self_of_le hx, hx, hx⟩, trivial⟩, rfl, by rw [h]; simp⟩
  | .zarithN, n, h => ⟨(128 ^ (n - 1) : Nat), _, ⟨trivial, Nat.ne_of_gt (Nat.pow_pos (by decide))⟩, rfl, by
      have : 1 ≤ n := h
      rw [Enc.nat7_exact]; omega⟩
  | .zarithZ, n, h => by
    have h' : 1 ≤ n := h
    obtain ⟨z, hz⟩ := Enc.int7_exact (n - 1)
    exact ⟨z, _, ⟨trivial, trivial⟩, rfl, by rw [hz]; omega⟩
  | .bytes, n, _ => ⟨List.replicate n (0 : Byte), _, ⟨trivial, trivial⟩, rfl, by simp⟩
  | .vecU8, n, _ => ⟨List.replicate n (0 : Byte), _, ⟨trivial, trivial⟩, rfl, by simp⟩
  | .string, n, _ => ⟨List.replicate n 'a', _, ⟨trivial, trivial⟩, rfl, utf8_replicate n⟩
  | .fixedBytes k, n, h => ⟨⟨List.replicate k (0 : Byte), by simp⟩, _, ⟨trivial, trivial⟩, rfl, by simp; exact h.symm⟩
  | .fixedString k, n, h => ⟨⟨List.replicate k (0 : Byte), by simp⟩, _, ⟨trivial, trivial⟩, rfl, by simp; exact h.symm⟩
  | .option s, n, .inl h => ⟨(none : Option s.Val), [0x00], ⟨nofun, nofun⟩, rfl, h.symm⟩
  | .option s, n, .inr ⟨m, hm, h⟩ => by
    obtain ⟨x, b, h1, h2, h3⟩ := s.occurs m hm
    exact ⟨some x, [0xff] ++ b, ⟨fun y hy => by cases hy; exact h1.1, fun y hy => by cases hy; exact h1.2⟩,
      cat_eq_some.mpr ⟨[0xff], b, rfl, h2, rfl⟩, by rw [h]; simp [h3]; omega⟩
  | .nullable s, n, .inl h => ⟨(none : Option s.Val), [], ⟨nofun, nofun⟩, rfl, h.symm⟩
  | .nullable s, n, .inr h => by
    obtain ⟨x, b, h1, h2, h3⟩ := s.occurs n h
    exact ⟨some x, b, ⟨fun y hy => by cases hy; exact h1.1, fun y hy => by cases hy; exact h1.2⟩, h2, h3⟩
  | .dynamic S s, n, ⟨m, hm, hl, h⟩ => by
    obtain ⟨x, b, h1, h2, h3⟩ := s.occurs m hm
    refine ⟨x, toBe S.len m ++ b, h1, ?_, by rw [h]; simp [h3]⟩
    simp only [Schema.wire, Enc.dynamic, h2, Option.map_some, h3, if_pos hl]
    exact cat_eq_some.mpr ⟨_, b, rfl, rfl, rfl⟩
  | .vpadded _ s, n, h => s.occurs n h
  | .padded k s, n, ⟨m, hm, h⟩ => by
    obtain ⟨x, b, h1, h2, h3⟩ := s.occurs m hm
    exact ⟨x, b ++ List.replicate k 0, h1, cat_eq_some.mpr ⟨b, _, h2, rfl, rfl⟩, by rw [h]; simp [h3]⟩
  | .seq s, n, ⟨ls, _, h2, h3⟩ => by
    obtain ⟨xs, b, h4, _, h6, h7⟩ := Enc.list_occurs (s.occurs) ls h2
    exact ⟨xs, b, ⟨fun x hx => (h4 x hx).1, fun x hx => (h4 x hx).2⟩, h6, h7.trans h3⟩
  | .fixSeq k s, n, ⟨ls, h1, h2, h3⟩ => by
    obtain ⟨xs, b, h4, h5, h6, h7⟩ := Enc.list_occurs (s.occurs) ls h2
    exact ⟨xs, b, ⟨⟨h5.trans h1, fun x hx => (h4 x hx).1⟩, fun x hx => (h4 x hx).2⟩, h6, h7.trans h3⟩
  | .limSeq k s, n, ⟨ls, h1, h2, h3⟩ => by
    obtain ⟨xs, b, h4, h5, h6, h7⟩ := Enc.list_occurs (s.occurs) ls h2
    exact ⟨xs, b, ⟨⟨h5 ▸ h1, fun x hx => (h4 x hx).1⟩, fun x hx => (h4 x hx).2⟩, h6, h7.trans h3⟩
  | .autobox s, n, h => s.occurs n h
  | .hole _, _, h => nomatch h
  | .cstyle w tags, n, ⟨h, ht⟩ =>
    ⟨⟨tags.head ht, List.head_mem ht⟩, _, ⟨trivial, trivial⟩, rfl, by rw [h]; simp⟩
  | .data w vs, n, ⟨m, hm, h⟩ =>
    let ⟨x, b, h1, h2, h3⟩ := vs.occurs w m hm
    ⟨x, b, h1, h2, h3.trans h.symm⟩
  | .record fs, n, h => fs.occurs n h
theorem Variants.occurs : ∀ (vs : Variants) (w : TagWidth) (n : Nat), vs.Sizes n →
    ∃ x b, (vs.Valid x ∧ vs.EstOk x) ∧ vs.wire w x = some b ∧ b.length = w.len + n
  | .nil, _, _, h => nomatch h
  | .cons t s vs, w, n, .inl h => by
    obtain ⟨x, b, h1, h2, h3⟩ := s.occurs n h
    exact ⟨.inl x, toBe w.len t ++ b, h1, cat_eq_some.mpr ⟨_, b, rfl, h2, rfl⟩, by simp [h3]⟩
  | .cons t s vs, w, n, .inr h =>
    let ⟨x, b, h1, h2, h3⟩ := vs.occurs w n h
    ⟨.inr x, b, h1, h2, h3⟩
theorem Fields.occurs : ∀ (fs : Fields) (n : Nat), fs.Sizes n → ∃ x b, (fs.Valid x ∧ fs.EstOk x) ∧ fs.wire x = some b ∧ b.length = n
  | .nil, n, h => ⟨(), [], ⟨trivial, trivial⟩, rfl, h.symm⟩
  | .cons s fs, n, ⟨a, b, ha, hb, h⟩ => by
    obtain ⟨x, p, h1, h2, h3⟩ := s.occurs a ha
    obtain ⟨y, q, h4, h5, h6⟩ := fs.occurs b hb
    exact ⟨(x, y), p ++ q, ⟨⟨h1.1, h4.1⟩, ⟨h1.2, h4.2⟩⟩, cat_eq_some.mpr ⟨p, q, h2, h5, rfl⟩, by rw [h]; simp [h3, h6]⟩
end

/-! ### the smallest and a bound on the largest -/

theorem IntTy.toInt_bounds (t : IntTy) (x : t.Val) : t.lo ≤ t.toInt x ∧ t.toInt x ≤ t.hi := by
  cases t <;> simp only [IntTy.lo, IntTy.hi, IntTy.toInt, IntTy.signed, IntTy.len, if_true, Bool.false_eq_true, if_false] <;>
    first
      | (have h1 := BitVec.le_toInt x; have h2 := BitVec.toInt_lt (x := x); simp only [IntTy.len] at h1 h2; omega)
      | (have := x.isLt; simp only [IntTy.len] at this; omega)

theorem IntTy.exists_toInt (t : IntTy) {n : Int} (h1 : t.lo ≤ n) (h2 : n ≤ t.hi) : ∃ x : t.Val, t.toInt x = n := by
  refine ⟨BitVec.ofInt _ n, ?_⟩
  cases t <;> simp only [IntTy.lo, IntTy.hi, IntTy.toInt, IntTy.signed, IntTy.len, if_true, Bool.false_eq_true, if_false,
      BitVec.toInt_ofInt, BitVec.toNat_ofInt, Int.bmod] at h1 h2 ⊢ <;> omega

theorem exists_inRange_iff (t : IntTy) (lo hi : Int) : (∃ x : t.Val, Enc.inRange lo hi (t.toInt x)) ↔
    (0 < lo ∧ lo ≤ hi) ∨ (lo ≤ 0 ∧ lo ≤ hi ∧ lo ≤ t.hi ∧ t.lo ≤ hi) := by
  have hl : t.lo ≤ 0 ∧ 0 ≤ t.hi := by cases t <;> decide
  constructor
  · rintro ⟨x, hx⟩
    have := t.toInt_bounds x
    unfold Enc.inRange at hx
    split at hx <;> omega
  · intro h
    by_cases h0 : 0 < lo
    · obtain ⟨x, hx⟩ := t.exists_toInt (n := 0) hl.1 hl.2
      refine ⟨x, ?_⟩
      rw [hx, Enc.inRange, if_pos h0]
      omega
    · by_cases h1 : t.lo ≤ lo
      · obtain ⟨x, hx⟩ := t.exists_toInt (n := lo) h1 (by omega)
        refine ⟨x, ?_⟩
        rw [hx, Enc.inRange, if_neg h0]
        omega
      · obtain ⟨x, hx⟩ := t.exists_toInt (n := t.lo) (Int.le_refl _) (by omega)
        refine ⟨x, ?_⟩
        rw [hx, Enc.inRange, if_neg h0]
        omega

/-- The smallest of some numbers, if there are any. -/
def Least (o : Option Nat) (L : Nat → Prop) : Prop :=
  (∀ m, o = some m → L m ∧ ∀ n, L n → m ≤ n) ∧ (o = none → ∀ n, ¬ L n)

namespace Least

variable {o o' : Option Nat} {L L' : Nat → Prop}

theorem some {m : Nat} (h : L m) (hm : ∀ n, L n → m ≤ n) : Least (some m) L :=
  ⟨fun _ e => by cases e; exact ⟨h, hm⟩, nofun⟩

theorem none (h : ∀ n, ¬ L n) : Least none L := ⟨nofun, fun _ => h⟩

theorem ite {p : Prop} [Decidable p] {k : Nat} (h : ∀ n, L n ↔ n = k ∧ p) : Least (if p then .some k else .none) L := by
  split
  · rename_i hp
    exact .some ((h k).mpr ⟨rfl, hp⟩) fun n hn => Nat.le_of_eq ((h n).mp hn).1.symm
  · rename_i hp
    exact .none fun n hn => hp ((h n).mp hn).2

theorem map (h : Least o L) (f : Nat → Nat) (hf : ∀ a b, a ≤ b → f a ≤ f b) :
    Least (o.map f) (fun n => ∃ m, L m ∧ n = f m) := by
  cases o with
  | none => exact .none fun n ⟨m, hm, _⟩ => h.2 rfl m hm
  | some k =>
    obtain ⟨h1, h2⟩ := h.1 k rfl
    refine .some ⟨k, h1, rfl⟩ ?_
    rintro n ⟨m, hm, rfl⟩
    exact hf _ _ (h2 m hm)

theorem min (h : Least o L) (h' : Least o' L') : Least (optMin o o') (fun n => L n ∨ L' n) := by
  cases o with
  | none =>
    cases o' with
    | none => exact .none fun n hn => hn.elim (h.2 rfl n) (h'.2 rfl n)
    | some b =>
      obtain ⟨h3, h4⟩ := h'.1 b rfl
      exact .some (.inr h3) fun n hn => hn.elim (fun hn => absurd hn (h.2 rfl n)) (h4 n)
  | some a =>
    obtain ⟨h1, h2⟩ := h.1 a rfl
    cases o' with
    | none => exact .some (.inl h1) fun n hn => hn.elim (h2 n) (fun hn => absurd hn (h'.2 rfl n))
    | some b =>
      obtain ⟨h3, h4⟩ := h'.1 b rfl
      refine .some ?_ fun n hn => hn.elim (fun hn => Nat.le_trans (Nat.min_le_left _ _) (h2 n hn))
        fun hn => Nat.le_trans (Nat.min_le_right _ _) (h4 n hn)
      rcases Nat.le_total a b with hab | hab
      · exact .inl (by rw [Nat.min_eq_left hab]; exact h1)
      · exact .inr (by rw [Nat.min_eq_right hab]; exact h3)

end Least

theorem sum_ge {m : Nat} : ∀ {ls : List Nat}, (∀ l ∈ ls, m ≤ l) → ls.length * m ≤ ls.sum
  | [], _ => by simp
  | l :: ls, h => by
    have h1 := h l List.mem_cons_self
    have h2 := sum_ge fun n hn => h n (List.mem_cons_of_mem _ hn)
    rw [List.length_cons, List.sum_cons, Nat.succ_mul]
    omega

theorem sum_le {m : Nat} : ∀ {ls : List Nat}, (∀ l ∈ ls, l ≤ m) → ls.sum ≤ ls.length * m
  | [], _ => by simp
  | l :: ls, h => by
    have h1 := h l List.mem_cons_self
    have h2 := sum_le fun n hn => h n (List.mem_cons_of_mem _ hn)
    rw [List.length_cons, List.sum_cons, Nat.succ_mul]
    omega

theorem sum_replicate (k m : Nat) : (List.replicate k m).sum = k * m := by
  induction k with
  | zero => simp
  | succ k ih => rw [List.replicate_succ, List.sum_cons, ih, Nat.succ_mul, Nat.add_comm]

mutual
theorem Schema.least_spec : ∀ s : Schema, Least s.least s.Sizes
  | .unit => .some rfl fun _ h => Nat.le_of_eq h.symm
  | .bool => .some rfl fun _ h => Nat.le_of_eq h.symm
  | .int t => .some rfl fun _ h => Nat.le_of_eq h.symm
  | .f64 => .some rfl fun _ h => Nat.le_of_eq h.symm
  | .rangedInt t min max => .ite fun n => by rw [← exists_inRange_iff]; exact Iff.rfl
  | .rangedFloat min max => .ite fun n => Iff.rfl
  | .zarithN => .some (Nat.le_refl 1) fun _ h => h
  | .zarithZ => .some (Nat.le_refl 1) fun _ h => h
  | .bytes => .some trivial fun _ _ => Nat.zero_le _
  | .vecU8 => .some trivial fun _ _ => Nat.zero_le _
  | .string => .some trivial fun _ _ => Nat.zero_le _
  | .fixedBytes k => .some rfl fun _ h => Nat.le_of_eq h.symm
  | .fixedString k => .some rfl fun _ h => Nat.le_of_eq h.symm
  | .option s => .some (.inl rfl) fun n h => by
    rcases h with rfl | ⟨m, _, rfl⟩ <;> omega
  | .nullable s => .some (.inl rfl) fun _ _ => Nat.zero_le _
  | .dynamic S s => by
    have ih := s.least_spec
    unfold Schema.least
    split
    · rename_i m hm
      obtain ⟨h1, h2⟩ := ih.1 m hm
      split
      · rename_i hl
        refine .some ⟨m, h1, hl, rfl⟩ ?_
        rintro n ⟨k, hk, _, rfl⟩
        have := h2 k hk
        omega
      · rename_i hl
        refine .none ?_
        rintro n ⟨k, hk, hk', rfl⟩
        have := h2 k hk
        omega
    · rename_i hm
      exact .none fun n ⟨k, hk, _⟩ => ih.2 hm k hk
  | .vpadded _ s => s.least_spec
  | .padded k s => s.least_spec.map (· + k) fun _ _ h => Nat.add_le_add_right h _
  | .seq s => .some ⟨[], trivial, nofun, rfl⟩ fun _ _ => Nat.zero_le _
  | .fixSeq k s => by
    have ih := s.least_spec
    unfold Schema.least
    split
    · rename_i hk
      exact .some ⟨[], hk.symm, nofun, rfl⟩ fun _ _ => Nat.zero_le _
    · rename_i hk
      cases hs : s.least with
      | none =>
        refine .none ?_
        rintro n ⟨ls, hl, h1, -⟩
        cases ls with
        | nil => exact hk hl.symm
        | cons l ls => exact ih.2 hs l (h1 l List.mem_cons_self)
      | some m =>
        obtain ⟨h1, h2⟩ := ih.1 m hs
        refine .some ⟨List.replicate k m, by simp, ?_, sum_replicate k m⟩ ?_
        · intro l hl
          rw [(List.mem_replicate.mp hl).2]
          exact h1
        · rintro n ⟨ls, hl, h3, rfl⟩
          have := sum_ge fun l hl => h2 l (h3 l hl)
          rwa [hl] at this
  | .limSeq k s => .some ⟨[], Nat.zero_le _, nofun, rfl⟩ fun _ _ => Nat.zero_le _
  | .autobox s => s.least_spec
  | .hole _ => .none fun _ h => h
  | .cstyle w tags => by
    unfold Schema.least
    split
    · rename_i h
      exact .none fun n hn => hn.2 h
    · rename_i h
      exact .some ⟨rfl, h⟩ fun n hn => Nat.le_of_eq hn.1.symm
  | .data w vs => vs.least_spec.map (w.len + ·) fun _ _ h => Nat.add_le_add_left h _
  | .record fs => fs.least_spec
theorem Variants.least_spec : ∀ vs : Variants, Least vs.least vs.Sizes
  | .nil => .none fun _ h => h
  | .cons _ s vs => s.least_spec.min vs.least_spec
theorem Fields.least_spec : ∀ fs : Fields, Least fs.least fs.Sizes
  | .nil => .some rfl fun _ _ => Nat.zero_le _
  | .cons s fs => by
    have h1 := s.least_spec
    have h2 := fs.least_spec
    unfold Fields.least
    cases hs : s.least with
    | none => exact .none fun n ⟨a, b, ha, _, _⟩ => h1.2 hs a ha
    | some a =>
      cases hf : fs.least with
      | none => exact .none fun n ⟨_, b, _, hb, _⟩ => h2.2 hf b hb
      | some b =>
        obtain ⟨h3, h4⟩ := h1.1 a hs
        obtain ⟨h5, h6⟩ := h2.1 b hf
        refine .some ⟨a, b, h3, h5, rfl⟩ ?_
        rintro n ⟨c, e, hc, he, rfl⟩
        exact Nat.add_le_add (h4 c hc) (h6 e he)
end

theorem Least.exists {o : Option Nat} {L : Nat → Prop} (h : Least o L) (ho : o ≠ Option.none) : ∃ n, L n := by
  cases o with
  | none => exact absurd rfl ho
  | some m => exact ⟨m, (h.1 m rfl).1⟩

/-- A bound on some numbers, positive only if one of them is; or there is none. -/
def Bound (o : Option Nat) (L : Nat → Prop) : Prop :=
  (∀ m, o = some m → (∀ n, L n → n ≤ m) ∧ (0 < m → ∃ n, 0 < n ∧ L n)) ∧ (o = none → ∀ N, ∃ n, N ≤ n ∧ L n)

namespace Bound

variable {o o' : Option Nat} {L L' : Nat → Prop}

theorem some {m : Nat} (h : ∀ n, L n → n ≤ m) (hm : 0 < m → ∃ n, 0 < n ∧ L n) : Bound (some m) L :=
  ⟨fun _ e => by cases e; exact ⟨h, hm⟩, nofun⟩

theorem zero (h : ∀ n, L n → n = 0) : Bound (.some 0) L := .some (fun n hn => Nat.le_of_eq (h n hn)) nofun

theorem exact {m : Nat} (h : ∀ n, L n ↔ n = m) : Bound (.some m) L :=
  .some (fun n hn => Nat.le_of_eq ((h n).mp hn)) fun hm => ⟨m, hm, (h m).mpr rfl⟩

theorem none (h : ∀ N, ∃ n, N ≤ n ∧ L n) : Bound none L := ⟨nofun, fun _ => h⟩

theorem least (h : Least o L) (h1 : ∀ a b, L a → L b → a = b) : Bound (.some (o.getD 0)) L := by
  cases o with
  | none => exact .zero fun n hn => absurd hn (h.2 rfl n)
  | some m => exact .exact fun n => ⟨fun hn => h1 n m hn (h.1 m rfl).1, fun e => e ▸ (h.1 m rfl).1⟩

/-- With something more in front. -/
theorem add (h : Bound o L) (hl : ∃ n, L n) (k : Nat) : Bound (o.map (k + ·)) (fun n => ∃ m, L m ∧ n = k + m) := by
  cases o with
  | none =>
    refine .none fun N => ?_
    obtain ⟨n, h1, h2⟩ := h.2 rfl N
    exact ⟨k + n, by omega, n, h2, rfl⟩
  | some m =>
    obtain ⟨h1, h2⟩ := h.1 m rfl
    refine .some ?_ fun hm => ?_
    · rintro n ⟨l, hl, rfl⟩
      exact Nat.add_le_add_left (h1 l hl) k
    · by_cases hk : 0 < k
      · obtain ⟨l, hl⟩ := hl
        exact ⟨k + l, by omega, l, hl, rfl⟩
      · have hm' : 0 < k + m := hm
        obtain ⟨n, h3, h4⟩ := h2 (by omega)
        exact ⟨k + n, by omega, n, h4, rfl⟩

theorem congr (h : Bound o L) (e : ∀ n, L n ↔ L' n) : Bound o L' := by
  have : L = L' := funext fun n => propext (e n)
  exact this ▸ h

end Bound

theorem pow_mul_ge {N m : Nat} (h : 0 < m) : N ≤ N * m := Nat.le_mul_of_pos_right _ h

mutual
theorem Schema.most_spec : ∀ s : Schema, Bound s.most s.Sizes
  | .unit => .exact fun _ => Iff.rfl
  | .bool => .exact fun _ => Iff.rfl
  | .int t => .exact fun _ => Iff.rfl
  | .f64 => .exact fun _ => Iff.rfl
  | .rangedInt t min max => .least (Schema.least_spec _) fun a b h h' => h.1.trans h'.1.symm
  | .rangedFloat min max => .least (Schema.least_spec _) fun a b h h' => h.1.trans h'.1.symm
  | .zarithN => .none fun N => ⟨N + 1, by omega, Nat.le_add_left _ _⟩
  | .zarithZ => .none fun N => ⟨N + 1, by omega, Nat.le_add_left _ _⟩
  | .bytes => .none fun N => ⟨N, Nat.le_refl _, trivial⟩
  | .vecU8 => .none fun N => ⟨N, Nat.le_refl _, trivial⟩
  | .string => .none fun N => ⟨N, Nat.le_refl _, trivial⟩
  | .fixedBytes k => .exact fun _ => Iff.rfl
  | .fixedString k => .exact fun _ => Iff.rfl
  | .option s => by
    have h : Bound s.most (fun n => s.Sizes n ∨ n = 0) := by
      have ih := s.most_spec
      cases hs : s.most with
      | none =>
        rw [hs] at ih
        exact .none fun N => let ⟨n, h1, h2⟩ := ih.2 rfl N; ⟨n, h1, .inl h2⟩
      | some m =>
        rw [hs] at ih
        obtain ⟨h1, h2⟩ := ih.1 m rfl
        refine .some ?_ fun hm => let ⟨n, h3, h4⟩ := h2 hm; ⟨n, h3, .inl h4⟩
        rintro n (h | rfl)
        · exact h1 n h
        · exact Nat.zero_le _
    refine (h.add ⟨0, .inr rfl⟩ 1).congr fun n => ⟨?_, ?_⟩
    · rintro ⟨m, h | rfl, rfl⟩
      · exact .inr ⟨m, h, rfl⟩
      · exact .inl rfl
    · rintro (rfl | ⟨m, h, rfl⟩)
      · exact ⟨0, .inr rfl, rfl⟩
      · exact ⟨m, .inl h, rfl⟩
  | .nullable s => by
    have ih := s.most_spec
    unfold Schema.most
    cases hs : s.most with
    | none =>
      rw [hs] at ih
      exact .none fun N => let ⟨n, h1, h2⟩ := ih.2 rfl N; ⟨n, h1, .inr h2⟩
    | some m =>
      rw [hs] at ih
      obtain ⟨h1, h2⟩ := ih.1 m rfl
      refine .some ?_ fun hm => let ⟨n, h3, h4⟩ := h2 hm; ⟨n, h3, .inr h4⟩
      rintro n (rfl | h)
      · exact Nat.zero_le _
      · exact h1 n h
  | .dynamic S s => by
    have ih := s.most_spec
    have hl := Schema.least_spec (.dynamic S s)
    have hpos : 0 < S.len := by cases S <;> decide
    unfold Schema.most
    split
    · rename_i h0
      exact .zero fun n hn => absurd hn (hl.2 h0 n)
    · rename_i h0
      obtain ⟨n0, hn0⟩ := hl.exists h0
      have hn1 : 0 < n0 := by obtain ⟨m, _, _, rfl⟩ := hn0; omega
      split
      · rename_i m hm
        refine .some ?_ fun _ => ⟨n0, hn1, hn0⟩
        rintro n ⟨l, h1, h2, rfl⟩
        have := (ih.1 m hm).1 l h1
        have : l ≤ min m S.maxLen := Nat.le_min.mpr ⟨this, h2⟩
        omega
      · refine .some ?_ fun _ => ⟨n0, hn1, hn0⟩
        rintro n ⟨l, h1, h2, rfl⟩
        omega
  | .vpadded _ s => s.most_spec
  | .padded k s => by
    have ih := s.most_spec
    have hl := s.least_spec
    unfold Schema.most
    split
    · rename_i h0
      exact .zero fun n ⟨m, hm, _⟩ => absurd hm (hl.2 h0 m)
    · rename_i h0
      have e : s.most.map (· + k) = s.most.map (k + ·) := by congr 1; funext x; exact Nat.add_comm _ _
      rw [e]
      exact (ih.add (hl.exists h0) k).congr fun n =>
        exists_congr fun m => and_congr_right fun _ => by rw [Nat.add_comm]
  | .seq s => by
    have ih := s.most_spec
    unfold Schema.most
    split
    · rename_i h0
      refine .zero ?_
      rintro n ⟨ls, _, h2, rfl⟩
      have := sum_le fun l hl => (ih.1 0 h0).1 l (h2 l hl)
      omega
    · rename_i h0
      have hx : ∃ n, 0 < n ∧ s.Sizes n := by
        cases hs : s.most with
        | none =>
          obtain ⟨n, h1, h2⟩ := ih.2 hs 1
          exact ⟨n, h1, h2⟩
        | some m =>
          refine (ih.1 m hs).2 (Nat.pos_of_ne_zero fun e => h0 (by rw [hs, e]))
      obtain ⟨n, h1, h2⟩ := hx
      refine .none fun N => ⟨N * n, pow_mul_ge h1, List.replicate N n, trivial, ?_, sum_replicate N n⟩
      intro l hl
      rw [(List.mem_replicate.mp hl).2]
      exact h2
  | .fixSeq k s => by
    have ih := s.most_spec
    have hl := s.least_spec
    unfold Schema.most
    split
    · rename_i h0
      refine .zero ?_
      rintro n ⟨ls, h1, h2, rfl⟩
      cases ls with
      | nil => rfl
      | cons l ls =>
        rcases h0 with rfl | h0
        · simp at h1
        · exact absurd (h2 l List.mem_cons_self) (hl.2 h0 l)
    · rename_i h0
      have hk : 0 < k := Nat.pos_of_ne_zero fun e => h0 (.inl e)
      have mk : ∀ n, s.Sizes n → sizesSum (fun l => l = k) s.Sizes (k * n) := by
        intro n hn
        refine ⟨List.replicate k n, by simp, ?_, sum_replicate k n⟩
        intro l hl
        rw [(List.mem_replicate.mp hl).2]
        exact hn
      cases hs : s.most with
      | none =>
        refine .none fun N => ?_
        obtain ⟨n, h1, h2⟩ := ih.2 hs N
        exact ⟨k * n, Nat.le_trans h1 (Nat.le_mul_of_pos_left _ hk), mk n h2⟩
      | some m =>
        obtain ⟨h1, h2⟩ := ih.1 m hs
        refine .some ?_ fun hm => ?_
        · rintro n ⟨ls, h3, h4, rfl⟩
          have := sum_le fun l hl => h1 l (h4 l hl)
          rwa [h3] at this
        · obtain ⟨n, h3, h4⟩ := h2 (Nat.pos_of_mul_pos_left hm)
          exact ⟨k * n, Nat.mul_pos hk h3, mk n h4⟩
  | .limSeq k s => by
    have ih := s.most_spec
    unfold Schema.most
    split
    · rename_i h0
      refine .zero ?_
      rintro n ⟨ls, h1, h2, rfl⟩
      have h1' : ls.length ≤ k := h1
      have : ls = [] := List.length_eq_zero_iff.mp (by omega)
      subst this
      rfl
    · rename_i h0
      have hk : 0 < k := Nat.pos_of_ne_zero h0
      have mk : ∀ n, s.Sizes n → sizesSum (fun l => l ≤ k) s.Sizes n := by
        intro n hn
        refine ⟨[n], hk, ?_, by simp⟩
        intro l hl
        rw [List.mem_singleton.mp hl]
        exact hn
      cases hs : s.most with
      | none =>
        refine .none fun N => ?_
        obtain ⟨n, h1, h2⟩ := ih.2 hs N
        exact ⟨n, h1, mk n h2⟩
      | some m =>
        obtain ⟨h1, h2⟩ := ih.1 m hs
        refine .some ?_ fun hm => ?_
        · rintro n ⟨ls, h3, h4, rfl⟩
          exact Nat.le_trans (sum_le fun l hl => h1 l (h4 l hl)) (Nat.mul_le_mul_right _ h3)
        · obtain ⟨n, h3, h4⟩ := h2 (Nat.pos_of_mul_pos_left hm)
          exact ⟨n, h3, mk n h4⟩
  | .autobox s => s.most_spec
  | .hole _ => .zero fun _ h => nomatch h
  | .cstyle w tags => by
    unfold Schema.most
    split
    · rename_i h
      exact .zero fun n hn => absurd h hn.2
    · rename_i h
      exact .exact fun n => ⟨fun hn => hn.1, fun hn => ⟨hn, h⟩⟩
  | .data w vs => by
    have ih := vs.most_spec
    have hl := vs.least_spec
    unfold Schema.most
    split
    · rename_i h0
      exact .zero fun n ⟨m, hm, _⟩ => absurd hm (hl.2 h0 m)
    · rename_i h0
      exact ih.add (hl.exists h0) w.len
  | .record fs => fs.most_spec
theorem Variants.most_spec : ∀ vs : Variants, Bound vs.most vs.Sizes
  | .nil => .zero fun _ h => nomatch h
  | .cons _ s vs => by
    have ih := s.most_spec
    have ih' := vs.most_spec
    unfold Variants.most
    cases hs : s.most with
    | none => exact .none fun N => let ⟨n, h1, h2⟩ := ih.2 hs N; ⟨n, h1, .inl h2⟩
    | some a =>
      cases hv : vs.most with
      | none => exact .none fun N => let ⟨n, h1, h2⟩ := ih'.2 hv N; ⟨n, h1, .inr h2⟩
      | some b =>
        obtain ⟨h1, h2⟩ := ih.1 a hs
        obtain ⟨h3, h4⟩ := ih'.1 b hv
        refine .some ?_ fun hm => ?_
        · rintro n (h | h)
          · exact Nat.le_trans (h1 n h) (Nat.le_max_left _ _)
          · exact Nat.le_trans (h3 n h) (Nat.le_max_right _ _)
        · by_cases ha : 0 < a
          · obtain ⟨n, h5, h6⟩ := h2 ha
            exact ⟨n, h5, .inl h6⟩
          · obtain ⟨n, h5, h6⟩ := h4 (by omega)
            exact ⟨n, h5, .inr h6⟩
theorem Fields.most_spec : ∀ fs : Fields, Bound fs.most fs.Sizes
  | .nil => .exact fun _ => Iff.rfl
  | .cons s fs => by
    have ih := s.most_spec
    have ih' := fs.most_spec
    have hl := s.least_spec
    have hl' := fs.least_spec
    unfold Fields.most
    split
    · rename_i h0
      refine .zero ?_
      rintro n ⟨a, b, ha, hb, -⟩
      rcases h0 with h0 | h0
      · exact absurd ha (hl.2 h0 a)
      · exact absurd hb (hl'.2 h0 b)
    · rename_i h0
      obtain ⟨a0, ha0⟩ := hl.exists fun e => h0 (.inl e)
      obtain ⟨b0, hb0⟩ := hl'.exists fun e => h0 (.inr e)
      cases hs : s.most with
      | none =>
        refine .none fun N => ?_
        obtain ⟨n, h1, h2⟩ := ih.2 hs N
        exact ⟨n + b0, by omega, n, b0, h2, hb0, rfl⟩
      | some a =>
        cases hv : fs.most with
        | none =>
          refine .none fun N => ?_
          obtain ⟨n, h1, h2⟩ := ih'.2 hv N
          exact ⟨a0 + n, by omega, a0, n, ha0, h2, rfl⟩
        | some b =>
          obtain ⟨h1, h2⟩ := ih.1 a hs
          obtain ⟨h3, h4⟩ := ih'.1 b hv
          refine .some ?_ fun hm => ?_
          · rintro n ⟨x, y, hx, hy, rfl⟩
            exact Nat.add_le_add (h1 x hx) (h3 y hy)
          · by_cases ha : 0 < a
            · obtain ⟨n, h5, h6⟩ := h2 ha
              exact ⟨n + b0, by omega, n, b0, h6, hb0, rfl⟩
            · obtain ⟨n, h5, h6⟩ := h4 (by omega)
              exact ⟨a0 + n, by omega, a0, n, ha0, h6, rfl⟩
end

end Verif
