import Verif.Spec.Surplus
import Verif.Lemmas.Shortfall
/-
The length estimate, for all values: too small by the number of zero `N`s and too large by the vacancies of `FixSeq`s.
-/
namespace Verif

theorem Enc.list_length_int {α : Type} {e : Enc α} {f g : α → Int}
    (h : ∀ x b, e x = some b → f x = b.length + g x) : ∀ {xs : List α} {b : Bytes},
    Enc.list e xs = some b → (xs.map f).sum = b.length + (xs.map g).sum
  | [], b, hb => by cases hb; simp
  | x :: xs, b, hb => by
    obtain ⟨b1, b2, h1, h2, rfl⟩ := cat_eq_some.mp hb
    have := list_length_int h h2
    have := h x b1 h1
    simp
    omega

theorem sum_const_int {α : Type} (c : Int) : ∀ xs : List α, (xs.map fun _ => c).sum = xs.length * c
  | [] => by simp
  | _ :: xs => by
    rw [List.map_cons, List.sum_cons, sum_const_int c xs, List.length_cons, Int.natCast_add, Int.add_mul]
    omega

mutual
theorem Schema.width_vacancy (cfg : Cfg) : ∀ (s : Schema) {n : Nat}, s.width = some n → ∀ x b, s.out cfg x = some b →
    (n : Int) = b.length + s.vacancy x
  | .unit, _, h, _, _, hb => by cases h; cases hb; rfl
  | .bool, _, h, _, _, hb => by cases h; cases hb; rfl
  | .int t, _, h, x, _, hb => by
    cases h; cases hb
    exact (congrArg (Nat.cast (R := Int)) (toBe_length t.len (show t.Val from x).toNat)).symm.trans (Int.add_zero _).symm
  | .f64, _, h, x, _, hb => by
    cases h; cases hb
    exact (congrArg (Nat.cast (R := Int)) (toBe_length 8 (show BitVec 64 from x).toNat)).symm.trans (Int.add_zero _).symm
  | .rangedInt t min max, n, h, x, b, hb => by
    cases h
    have key : ∀ y : t.Val, Enc.rangedInt t min max y = some b → b.length = t.len := fun y hy => by
      unfold Enc.rangedInt at hy
      split at hy
      · cases hy; exact toBe_length _ _
      · cases hy
    have := key x hb
    show (t.len : Int) = b.length + 0
    omega
  | .rangedFloat _ _, _, h, x, _, hb => by
    cases h; cases hb
    exact (congrArg (Nat.cast (R := Int)) (toBe_length 8 (show BitVec 64 from x).toNat)).symm.trans (Int.add_zero _).symm
  | .zarithN, _, h, _, _, _ => by cases h
  | .zarithZ, _, h, _, _, _ => by cases h
  | .bytes, _, h, _, _, _ => by cases h
  | .vecU8, _, h, _, _, _ => by cases h
  | .string, _, h, _, _, _ => by cases h
  | .fixedBytes n, _, h, x, _, hb => by
    cases h; cases hb
    have := (show ByteArr n from x).2
    show (n : Int) = (show ByteArr n from x).1.length + 0
    omega
  | .fixedString n, _, h, x, _, hb => by
    cases h; cases hb
    have := (show ByteArr n from x).2
    show (n : Int) = (show ByteArr n from x).1.length + 0
    omega
  | .option s, n, h, x, b, hb => by
    simp only [Schema.width] at h
    split at h
    · rename_i h0
      cases h
      rcases Enc.option_length hb with ⟨rfl, h1⟩ | ⟨y, b', rfl, h1, h2⟩
      · show (1 : Int) = b.length + 0
        omega
      · have := s.width_vacancy cfg h0 y b' h1
        show (1 : Int) = b.length + s.vacancy y
        omega
    · cases h
  | .nullable s, n, h, x, b, hb => by
    simp only [Schema.width] at h
    split at h
    · rename_i h0
      cases h
      match x, hb with
      | none, hb => cases hb; rfl
      | some y, hb => exact s.width_vacancy cfg h0 y b hb
    · cases h
  | .dynamic S s, n, h, x, b, hb => by
    simp only [Schema.width, Option.map_eq_some_iff] at h
    obtain ⟨m, hm, rfl⟩ := h
    obtain ⟨l, b', h1, h2, h3, rfl⟩ := Enc.dynamic_eq_some.mp hb
    have := s.width_vacancy cfg hm x b' h3
    show ((S.len + m : Nat) : Int) = (toBe S.len l ++ b').length + s.vacancy x
    rw [List.length_append, toBe_length]
    omega
  | .vpadded _ s, n, h, x, b, hb => s.width_vacancy cfg h x b hb
  | .padded k s, n, h, x, b, hb => by
    simp only [Schema.width, Option.map_eq_some_iff] at h
    obtain ⟨m, hm, rfl⟩ := h
    obtain ⟨b1, b2, h1, h2, rfl⟩ := cat_eq_some.mp hb
    cases h2
    have := s.width_vacancy cfg hm x b1 h1
    show ((m + k : Nat) : Int) = (b1 ++ List.replicate k 0).length + s.vacancy x
    rw [List.length_append, List.length_replicate]
    omega
  | .seq s, _, h, _, _, _ => by cases h
  | .fixSeq k s, n, h, x, b, hb => by
    simp only [Schema.width, Option.map_eq_some_iff] at h
    obtain ⟨m, hm, rfl⟩ := h
    have := (sum_const_int (m : Int) (show List s.Val from x)).symm.trans
      (Enc.list_length_int (f := fun _ => (m : Int)) (g := s.vacancy) (s.width_vacancy cfg hm) hb)
    show ((k * m : Nat) : Int) = b.length + (((k : Int) - (show List s.Val from x).length) * (s.width.getD 0 : Nat) +
      ((show List s.Val from x).map s.vacancy).sum)
    rw [hm, Option.getD_some, Int.sub_mul, Int.natCast_mul]
    omega
  | .limSeq _ s, _, h, _, _, _ => by cases h
  | .autobox s, n, h, x, b, hb => s.width_vacancy cfg h x b hb
  | .hole _, _, h, _, _, _ => by cases h
  | .cstyle w tags, _, h, x, _, hb => by
    cases h; cases hb
    exact (congrArg (Nat.cast (R := Int)) (toBe_length w.len (show CEnum tags from x).1)).symm.trans (Int.add_zero _).symm
  | .data _ _, _, h, _, _, _ => by cases h
  | .record fs, n, h, x, b, hb => fs.width_vacancy cfg h x b hb
theorem Fields.width_vacancy (cfg : Cfg) : ∀ (fs : Fields) {n : Nat}, fs.width = some n → ∀ x b, fs.out cfg x = some b →
    (n : Int) = b.length + fs.vacancy x
  | .nil, _, h, _, _, hb => by cases h; cases hb; rfl
  | .cons s fs, n, h, x, b, hb => by
    simp only [Fields.width] at h
    split at h
    · rename_i m k h1 h2
      cases h
      obtain ⟨b1, b2, h3, h4, rfl⟩ := cat_eq_some.mp hb
      have e1 := s.width_vacancy cfg h1 _ _ h3
      have e2 := fs.width_vacancy cfg h2 _ _ h4
      show ((m + k : Nat) : Int) = (b1 ++ b2).length + (s.vacancy x.1 + fs.vacancy x.2)
      rw [List.length_append]
      omega
    · cases h
end

theorem Schema.surplus_of (cfg : Cfg) (s : Schema) {x : s.Val} {b : Bytes}
    (hu : s.out cfg x = some b → ((s.codec cfg).unknown x : Int) + s.zeros x = b.length + s.hidden x)
    (hb : s.out cfg x = some b) : ((s.codec cfg).estimate x : Int) + s.zeros x =
      b.length + countFor s.width (s.vacancy x) (s.hidden x) := by
  unfold Codec.estimate
  rw [s.known_eq cfg]
  cases hw : s.width with
  | none => exact hu hb
  | some n =>
    rw [s.zeros_of_width hw x]
    exact (Int.add_zero _).trans (s.width_vacancy cfg hw x b hb)

theorem sum_add_int {α : Type} (f : α → Nat) (g : α → Nat) : ∀ xs : List α,
    (xs.map fun x => (f x : Int) + g x).sum = ((xs.map f).sum : Nat) + ((xs.map g).sum : Nat)
  | [] => rfl
  | x :: xs => by
    simp only [List.map_cons, List.sum_cons, sum_add_int f g xs]
    omega

theorem Enc.list_surplus {α : Type} {e : Enc α} {f z : α → Nat} {g : α → Int}
    (h : ∀ x b, e x = some b → (f x : Int) + z x = b.length + g x) {xs : List α} {b : Bytes} (hb : Enc.list e xs = some b) :
    (((xs.map f).sum : Nat) : Int) + ((xs.map z).sum : Nat) = b.length + (xs.map g).sum := by
  rw [← sum_add_int]
  exact list_length_int h hb

mutual
theorem Schema.unknown_hidden (cfg : Cfg) : ∀ (s : Schema) (x : s.Val) (b : Bytes), s.out cfg x = some b →
    ((s.codec cfg).unknown x : Int) + s.zeros x = b.length + s.hidden x
  | .unit, x, b, hb => by
    have := Schema.unknown_gap cfg .unit x b trivial hb
    show ((Schema.unit.codec cfg).unknown x : Int) + Schema.unit.zeros x = b.length + 0
    omega
  | .bool, x, b, hb => by
    have := Schema.unknown_gap cfg .bool x b trivial hb
    show ((Schema.bool.codec cfg).unknown x : Int) + Schema.bool.zeros x = b.length + 0
    omega
  | .int t, x, b, hb => by
    have := Schema.unknown_gap cfg (.int t) x b trivial hb
    show (((Schema.int t).codec cfg).unknown x : Int) + (Schema.int t).zeros x = b.length + 0
    omega
  | .f64, x, b, hb => by
    have := Schema.unknown_gap cfg .f64 x b trivial hb
    show ((Schema.f64.codec cfg).unknown x : Int) + Schema.f64.zeros x = b.length + 0
    omega
  | .rangedInt t min max, x, b, hb => Schema.width_vacancy cfg (.rangedInt t min max) rfl x b hb
  | .rangedFloat min max, x, b, hb => Schema.width_vacancy cfg (.rangedFloat min max) rfl x b hb
  | .zarithN, x, b, hb => by
    have := Schema.unknown_gap cfg .zarithN x b trivial hb
    show ((Schema.zarithN.codec cfg).unknown x : Int) + Schema.zarithN.zeros x = b.length + 0
    omega
  | .zarithZ, x, b, hb => by
    have := Schema.unknown_gap cfg .zarithZ x b trivial hb
    show ((Schema.zarithZ.codec cfg).unknown x : Int) + Schema.zarithZ.zeros x = b.length + 0
    omega
  | .bytes, x, b, hb => by
    have := Schema.unknown_gap cfg .bytes x b trivial hb
    show ((Schema.bytes.codec cfg).unknown x : Int) + Schema.bytes.zeros x = b.length + 0
    omega
  | .vecU8, x, b, hb => by
    have := Schema.unknown_gap cfg .vecU8 x b trivial hb
    show ((Schema.vecU8.codec cfg).unknown x : Int) + Schema.vecU8.zeros x = b.length + 0
    omega
  | .string, x, b, hb => by
    cases hb
    exact congrArg (Nat.cast (R := Int)) (Nat.mul_one _)
  | .fixedBytes n, x, b, hb => Schema.width_vacancy cfg (.fixedBytes n) rfl x b hb
  | .fixedString n, x, b, hb => Schema.width_vacancy cfg (.fixedString n) rfl x b hb
  | .option s, x, b, hb => by
    rcases Enc.option_length hb with ⟨rfl, h1⟩ | ⟨y, b', rfl, h1, h2⟩
    · show ((1 : Nat) : Int) + (0 : Nat) = b.length + 0
      omega
    · have := s.surplus_of cfg (s.unknown_hidden cfg y b') h1
      show ((1 + (s.codec cfg).estimate y : Nat) : Int) + s.zeros y = b.length + countFor s.width (s.vacancy y) (s.hidden y)
      omega
  | .nullable s, x, b, hb => by
    match x, hb with
    | none, hb => cases hb; rfl
    | some y, hb => exact s.surplus_of cfg (s.unknown_hidden cfg y b) hb
  | .dynamic S s, x, b, hb => by
    obtain ⟨l, b', h1, h2, h3, rfl⟩ := Enc.dynamic_eq_some.mp hb
    have := s.unknown_hidden cfg x b' h3
    show ((S.len + (s.codec cfg).unknown x : Nat) : Int) + s.zeros x = (toBe S.len l ++ b').length + s.hidden x
    rw [List.length_append, toBe_length]
    omega
  | .vpadded _ s, x, b, hb => s.unknown_hidden cfg x b hb
  | .padded k s, x, b, hb => by
    obtain ⟨b1, b2, h1, h2, rfl⟩ := cat_eq_some.mp hb
    cases h2
    have := s.unknown_hidden cfg x b1 h1
    show (((s.codec cfg).unknown x + k : Nat) : Int) + s.zeros x = (b1 ++ List.replicate k 0).length + s.hidden x
    rw [List.length_append, List.length_replicate]
    omega
  | .seq s, x, b, hb => Enc.list_surplus (fun y b' h' => s.surplus_of cfg (s.unknown_hidden cfg y b') h') hb
  | .fixSeq k s, x, b, hb => Enc.list_surplus (s.unknown_hidden cfg) hb
  | .limSeq _ s, x, b, hb => Enc.list_surplus (fun y b' h' => s.surplus_of cfg (s.unknown_hidden cfg y b') h') hb
  | .autobox s, x, b, hb => s.unknown_hidden cfg x b hb
  | .hole _, x, _, _ => nomatch (x : Empty)
  | .cstyle w tags, x, b, hb => Schema.width_vacancy cfg (.cstyle w tags) rfl x b hb
  | .data w vs, x, b, hb => vs.unknown_hidden cfg w x b hb
  | .record fs, x, b, hb => fs.unknown_hidden cfg x b hb
theorem Variants.unknown_hidden (cfg : Cfg) : ∀ (vs : Variants) (w : TagWidth) (x : vs.Val) (b : Bytes),
    vs.out cfg w x = some b → ((vs.codec cfg).unknown w x : Int) + vs.zeros x = b.length + vs.hidden x
  | .nil, _, x, _, _ => nomatch x
  | .cons tag s vs, w, .inl x, b, hb => by
    obtain ⟨b1, b2, h1, h2, rfl⟩ := cat_eq_some.mp hb
    cases h1
    have := s.surplus_of cfg (s.unknown_hidden cfg x b2) h2
    show ((w.len + (s.codec cfg).estimate x : Nat) : Int) + s.zeros x =
      (toBe w.len tag ++ b2).length + countFor s.width (s.vacancy x) (s.hidden x)
    rw [List.length_append, toBe_length]
    omega
  | .cons tag s vs, w, .inr x, b, hb => vs.unknown_hidden cfg w x b hb
theorem Fields.unknown_hidden (cfg : Cfg) : ∀ (fs : Fields) (x : fs.Val) (b : Bytes), fs.out cfg x = some b →
    ((fs.codec cfg).unknown x : Int) + fs.zeros x = b.length + fs.hidden x
  | .nil, _, _, hb => by cases hb; rfl
  | .cons s fs, x, b, hb => by
    obtain ⟨b1, b2, h1, h2, rfl⟩ := cat_eq_some.mp hb
    have e1 := s.unknown_hidden cfg x.1 b1 h1
    have e2 := fs.unknown_hidden cfg x.2 b2 h2
    show (((s.codec cfg).unknown x.1 + (fs.codec cfg).unknown x.2 : Nat) : Int) + (s.zeros x.1 + fs.zeros x.2 : Nat) =
      (b1 ++ b2).length + (s.hidden x.1 + fs.hidden x.2)
    rw [List.length_append]
    omega
end

theorem Schema.estimate_surplus (cfg : Cfg) (s : Schema) (x : s.Val) (b : Bytes) (hb : s.out cfg x = some b) :
    ((s.codec cfg).estimate x : Int) + s.zeros x = b.length + s.surplus x :=
  s.surplus_of cfg (s.unknown_hidden cfg x b) hb

end Verif
