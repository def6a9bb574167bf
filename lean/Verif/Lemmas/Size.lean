import Verif.Spec.Size
import Verif.Lemmas.Recursive
import Verif.Lemmas.Estimate
import Verif.Lemmas.Reencode
import Verif.Lemmas.Retext
/-
The size of a decoded value is linear in the number of bytes read.
-/
namespace Verif

/-- Values decoded without reading anything have at most size `A`; values decoded from `c` bytes at most `X - Y + B * c`. -/
def Small {α : Type} (sz : α → Nat) (B A X Y : Nat) (d : D α) : Prop :=
  ∀ v a r, d v = .ok a r →
    (r.length = v.length ∧ sz a ≤ A) ∨ (r.length < v.length ∧ sz a + Y + B * r.length ≤ X + B * v.length)

namespace Small

variable {α β : Type} {sz : α → Nat} {sz' : β → Nat} {B A X Y A' X' Y' A1 X1 Y1 A2 X2 Y2 : Nat}

theorem mul_lt (B : Nat) {a b : Nat} (h : a < b) : B * a + B ≤ B * b := by
  rw [← Nat.mul_succ]; exact Nat.mul_le_mul_left B h

theorem mono {d : D α} (h : Small sz B A X Y d) (hA : A ≤ A') (hX : X + Y' ≤ X' + Y) : Small sz B A' X' Y' d := by
  intro v a r hd
  rcases h v a r hd with ⟨h1, h2⟩ | ⟨h1, h2⟩
  · exact .inl ⟨h1, by omega⟩
  · exact .inr ⟨h1, by omega⟩

theorem length {d : D α} (h : Small sz B A X Y d) {v r : Bytes} {a : α} (hd : d v = .ok a r) : r.length ≤ v.length := by
  rcases h v a r hd with ⟨h1, _⟩ | ⟨h1, _⟩ <;> omega

/-- A value that is at most seven times as large as what is read, and one. -/
theorem leaf {d : D α} (hp : ReadsPrefix d) (h : ∀ v a r, d v = .ok a r → sz a ≤ 1 + 7 * (v.length - r.length)) (hB : Y + 7 ≤ B) :
    Small sz B 1 1 Y d := by
  intro v a r hd
  have h1 := h v a r hd
  obtain ⟨p, rfl⟩ := hp v a r hd
  cases p with
  | nil => exact .inl ⟨rfl, by simpa using h1⟩
  | cons b p =>
    refine .inr ⟨by simp only [List.length_append, List.length_cons]; omega, ?_⟩
    simp only [List.cons_append, List.length_cons, List.length_append] at h1 ⊢
    have e : p.length + r.length + 1 - r.length = p.length + 1 := by omega
    rw [e] at h1
    have e2 : B * (p.length + r.length + 1) = B * (p.length + 1) + B * r.length := by rw [← Nat.mul_add]; congr 1; omega
    have h2 : (Y + 7) * (p.length + 1) ≤ B * (p.length + 1) := Nat.mul_le_mul_right _ hB
    have h3 : (Y + 7) * (p.length + 1) = Y * p.length + Y + 7 * (p.length + 1) := by
      rw [Nat.add_mul, Nat.mul_succ]
    omega

theorem leaf_one {d : D α} (hp : ReadsPrefix d) (h : ∀ a, sz a = 1) (hB : Y + 7 ≤ B) : Small sz B 1 1 Y d :=
  leaf hp (fun _ a _ _ => by rw [h a]; omega) hB

/-- A prefix that is not part of the value, then the value. -/
theorem after {d : D β} {f : β → D α} (hp : Progress d) (hf : ∀ b, Small sz B A2 X2 Y2 (f b)) (h1 : A2 + Y ≤ X + B)
    (h2 : X2 + Y ≤ X + B + Y2) : Small sz B A X Y (d >>= f) := by
  intro v a r hd
  obtain ⟨b, w, h3, h4⟩ := D.bind_eq_ok.mp hd
  have h5 := hp v b w h3
  have h6 := mul_lt B h5
  rcases hf b w a r h4 with ⟨h7, h8⟩ | ⟨h7, h8⟩
  · rw [h7]
    exact .inr ⟨h5, by omega⟩
  · exact .inr ⟨by omega, by omega⟩

theorem map {d : D α} {f : α → β} {k : Nat} (h : Small sz B A X Y d) (hs : ∀ a, sz' (f a) ≤ k + sz a) :
    Small sz' B (A + k) (X + k) Y (f <$> d) := by
  intro v b r hd
  obtain ⟨a, h1, rfl⟩ := D.map_eq_ok.mp hd
  have := hs a
  rcases h v a r h1 with ⟨h3, h4⟩ | ⟨h3, h4⟩
  · exact .inl ⟨h3, by omega⟩
  · exact .inr ⟨h3, by omega⟩

theorem ifEmpty {d e : D α} (hd : Small sz B A X Y d) (he : Small sz B A X Y e) : Small sz B A X Y (D.ifEmpty d e) := by
  intro v a r h
  simp only [D.ifEmpty] at h
  split at h
  · exact hd v a r h
  · exact he v a r h

theorem pure {a : α} (h : sz a ≤ A) : Small sz B A X Y (Pure.pure a) := by
  intro v b r hd
  cases hd
  exact .inl ⟨rfl, h⟩

theorem throw (e : ParseError) : Small sz B A X Y (D.throw e : D α) := fun _ _ _ h => nomatch h

theorem window (n : Nat) {d : D α} (h : Small sz B A X Y d) : Small sz B A X Y (D.window n d) := by
  intro v a r hd
  simp only [D.window] at hd
  split at hd
  · rename_i hn
    obtain ⟨a', left, h1, h2⟩ := DecRes.bind_eq_ok.mp hd
    split at h2
    · rename_i hl
      cases h2
      subst hl
      have e : v.length = n + (v.drop n).length := by rw [List.length_drop]; omega
      have e2 : B * v.length = B * n + B * (v.drop n).length := by rw [← Nat.mul_add, ← e]
      have ht : (v.take n).length = n := by rw [List.length_take]; omega
      rcases h _ _ _ h1 with ⟨h3, h4⟩ | ⟨h3, h4⟩
      · rw [ht] at h3
        simp only [List.length_nil] at h3
        exact .inl ⟨by omega, h4⟩
      · rw [ht] at h3 h4
        simp only [List.length_nil] at h3 h4
        exact .inr ⟨by omega, by omega⟩
    · cases h2
  · simp only [D.short] at hd
    split at hd <;> cases hd

theorem vpadded (cfg : Cfg) (n : Nat) {d : D α} (h : Small sz B A X Y d) : Small sz B A X Y (Dec.vpadded cfg n d) := by
  intro v a r hd
  simp only [Dec.vpadded] at hd
  split at hd
  · exact window _ h v a r hd
  · split at hd <;> cases hd

theorem padded (cfg : Cfg) (n : Nat) {d : D α} (h : Small sz B A X Y d) (h1 : A + Y ≤ X + B) : Small sz B A X Y (Dec.padded cfg n d) := by
  intro v a r hd
  obtain ⟨a', w, h2, h3⟩ := D.bind_eq_ok.mp hd
  obtain ⟨p, u, h4, h5⟩ := D.bind_eq_ok.mp h3
  have h6 := (ReadsPrefix.take n) w p u h4
  obtain ⟨q, rfl⟩ := h6
  have : a' = a ∧ u = r := by
    split at h5
    · cases h5
    · cases h5; exact ⟨rfl, rfl⟩
  obtain ⟨rfl, rfl⟩ := this
  have e : B * (q ++ u).length = B * q.length + B * u.length := by rw [List.length_append, Nat.mul_add]
  rcases h v a' _ h2 with ⟨h7, h8⟩ | ⟨h7, h8⟩
  · cases q with
    | nil => exact .inl ⟨h7, h8⟩
    | cons b q =>
      rw [← h7]
      refine .inr ⟨by simp only [List.length_append, List.length_cons]; omega, ?_⟩
      rw [e]
      have : B ≤ B * (b :: q).length := Nat.le_mul_of_pos_right _ (by simp)
      omega
  · refine .inr ⟨?_, by omega⟩
    simp only [List.length_append] at h7
    omega

theorem pair {d : D α} {f : D β} (hd : Small sz B A1 X1 Y1 d) (hf : Small sz' B A2 X2 Y2 f) (h1 : A1 + A2 ≤ A)
    (h2 : A1 + X2 + Y ≤ X + Y2) (h3 : X1 + A2 + Y ≤ X + Y1) (h4 : X1 + X2 + Y ≤ X + Y1 + Y2) :
    Small (fun p : α × β => sz p.1 + sz' p.2) B A X Y (Dec.fcons d f) := by
  rintro v ⟨a, b⟩ r h
  obtain ⟨a', w, h5, h6⟩ := D.bind_eq_ok.mp h
  obtain ⟨b', u, h7, h8⟩ := D.bind_eq_ok.mp h6
  cases h8
  show (_ ∧ sz a + sz' b ≤ A) ∨ (_ ∧ sz a + sz' b + Y + _ ≤ _)
  rcases hd v a w h5 with ⟨l1, c1⟩ | ⟨l1, c1⟩ <;> rcases hf w b r h7 with ⟨l2, c2⟩ | ⟨l2, c2⟩
  · exact .inl ⟨by omega, by omega⟩
  · rw [l1] at l2 c2
    exact .inr ⟨by omega, by omega⟩
  · rw [l2]
    exact .inr ⟨by omega, by omega⟩
  · exact .inr ⟨by omega, by omega⟩

theorem pair_reads {d : D α} {f : D β} (hd : Small sz B A1 X1 Y1 d) (hp : Progress d) (hf : Small sz' B A2 X2 Y2 f)
    (h3 : X1 + A2 + Y ≤ X + Y1) (h4 : X1 + X2 + Y ≤ X + Y1 + Y2) :
    Small (fun p : α × β => sz p.1 + sz' p.2) B A X Y (Dec.fcons d f) := by
  rintro v ⟨a, b⟩ r h
  obtain ⟨a', w, h5, h6⟩ := D.bind_eq_ok.mp h
  obtain ⟨b', u, h7, h8⟩ := D.bind_eq_ok.mp h6
  cases h8
  show (_ ∧ sz a + sz' b ≤ A) ∨ (_ ∧ sz a + sz' b + Y + _ ≤ _)
  have hlt := hp v a w h5
  rcases hd v a w h5 with ⟨l1, c1⟩ | ⟨l1, c1⟩
  · omega
  rcases hf w b r h7 with ⟨l2, c2⟩ | ⟨l2, c2⟩
  · rw [l2]
    exact .inr ⟨by omega, by omega⟩
  · exact .inr ⟨by omega, by omega⟩

end Small

/-! ### lists -/

/-- The elements of a list decoded one after the other. -/
def Run {α : Type} (d : D α) : Bytes → List α → Bytes → Prop
  | v, [], r => r = v
  | v, a :: l, r => ∃ w, d v = .ok a w ∧ Run d w l r

/-- The same, each element having read something. -/
def Run1 {α : Type} (d : D α) : Bytes → List α → Bytes → Prop
  | v, [], r => r = v
  | v, a :: l, r => ∃ w, d v = .ok a w ∧ w.length < v.length ∧ Run1 d w l r

section
variable {α : Type} {sz : α → Nat} {B A X Y E p : Nat} {d : D α}

theorem Run.of_progress (hp : Progress d) : ∀ {v : Bytes} {l : List α} {r : Bytes}, Run d v l r → Run1 d v l r
  | _, [], _, h => h
  | _, _ :: _, _, ⟨w, h1, h2⟩ => ⟨w, h1, hp _ _ _ h1, of_progress hp h2⟩

theorem Run1.of_many {v : Bytes} {l : List α} {r : Bytes} (h : D.many d v = .ok l r) : Run1 d v l r := by
  induction hl : v.length using Nat.strongRecOn generalizing v l with
  | _ n ih =>
    unfold D.many at h
    split at h
    · rename_i hv; cases h; exact hv.symm
    · cases hd : d v with
      | ok a rest =>
        simp only [hd] at h
        split at h
        · rename_i hlt
          obtain ⟨l', r', h1, h2⟩ := DecRes.bind_eq_ok.mp h
          cases h2
          exact ⟨rest, hd, hlt, ih _ (hl ▸ hlt) h1 rfl⟩
        · split at h <;> cases h
      | err e => simp only [hd] at h; cases h
      | panic => simp only [hd] at h; cases h
      | diverge => simp only [hd] at h; cases h
      | wild => simp only [hd] at h; cases h

theorem Run.of_upTo : ∀ {n : Nat} {v : Bytes} {l : List α} {r : Bytes}, D.upTo d n v = .ok l r → Run d v l r ∧ l.length ≤ n
  | 0, v, l, r, h => by cases h; exact ⟨rfl, Nat.le_refl _⟩
  | n + 1, v, l, r, h => by
    simp only [D.upTo, D.ifEmpty] at h
    split at h
    · cases h; exact ⟨rfl, Nat.zero_le _⟩
    · obtain ⟨a, w, h1, h2⟩ := D.bind_eq_ok.mp h
      obtain ⟨as, u, h3, h4⟩ := D.bind_eq_ok.mp h2
      cases h4
      obtain ⟨h5, h6⟩ := of_upTo h3
      exact ⟨⟨w, h1, h5⟩, Nat.succ_le_succ h6⟩

theorem Run.of_manyMax {e : ParseError} : ∀ {n : Nat} {v : Bytes} {l : List α} {r : Bytes}, D.manyMax e d n v = .ok l r →
    Run d v l r ∧ l.length ≤ n
  | 0, v, l, r, h => by
    simp only [D.manyMax, D.ifEmpty] at h
    split at h
    · cases h; exact ⟨rfl, Nat.le_refl _⟩
    · obtain ⟨a, w, h1, h2⟩ := D.bind_eq_ok.mp h
      cases h2
  | n + 1, v, l, r, h => by
    simp only [D.manyMax, D.ifEmpty] at h
    split at h
    · cases h; exact ⟨rfl, Nat.zero_le _⟩
    · obtain ⟨a, w, h1, h2⟩ := D.bind_eq_ok.mp h
      obtain ⟨as, u, h3, h4⟩ := D.bind_eq_ok.mp h2
      cases h4
      obtain ⟨h5, h6⟩ := of_manyMax h3
      exact ⟨⟨w, h1, h5⟩, Nat.succ_le_succ h6⟩

theorem Run1.rest (ht : Small sz B p p E d) (hE : p ≤ E) : ∀ {v : Bytes} {l : List α} {r : Bytes}, Run1 d v l r →
    r.length ≤ v.length ∧ (l.map sz).sum + B * r.length ≤ B * v.length
  | _, [], _, h => by cases h; exact ⟨Nat.le_refl _, by simp⟩
  | v, a :: l, r, ⟨w, h1, h2, h3⟩ => by
    obtain ⟨h4, h5⟩ := rest ht hE h3
    rcases ht v a w h1 with ⟨h6, _⟩ | ⟨h6, h7⟩
    · omega
    · simp only [List.map_cons, List.sum_cons]
      exact ⟨by omega, by omega⟩

/-- A list whose elements all have read something. -/
theorem Run1.small (he : Small sz B A X Y d) (ht : Small sz B p p E d) (hE : p ≤ E) {v : Bytes} {l : List α} {r : Bytes}
    (h : Run1 d v l r) :
    (r.length = v.length ∧ (l.map sz).sum ≤ 0) ∨ (r.length < v.length ∧ (l.map sz).sum + Y + B * r.length ≤ X + B * v.length) := by
  cases l with
  | nil => cases h; exact .inl ⟨rfl, Nat.le_refl _⟩
  | cons a l =>
    obtain ⟨w, h1, h2, h3⟩ := h
    obtain ⟨h4, h5⟩ := h3.rest ht hE
    rcases he v a w h1 with ⟨h6, _⟩ | ⟨h6, h7⟩
    · omega
    · simp only [List.map_cons, List.sum_cons]
      exact .inr ⟨by omega, by omega⟩

theorem Run.rest (ht : Small sz B p p E d) : ∀ {v : Bytes} {l : List α} {r : Bytes}, Run d v l r →
    r.length ≤ v.length ∧ (l.map sz).sum + B * r.length ≤ l.length * p + B * v.length
  | _, [], _, h => by cases h; exact ⟨Nat.le_refl _, by simp⟩
  | v, a :: l, r, ⟨w, h1, h3⟩ => by
    obtain ⟨h4, h5⟩ := rest ht h3
    simp only [List.map_cons, List.sum_cons, List.length_cons, Nat.succ_mul]
    rcases ht v a w h1 with ⟨h6, _⟩ | ⟨h6, h7⟩
    · rw [h6] at h4 h5
      exact ⟨by omega, by omega⟩
    · exact ⟨by omega, by omega⟩

/-- A list whose elements need not have read anything. -/
theorem Run.small (he : Small sz B A X Y d) (ht : Small sz B p p E d) : ∀ {v : Bytes} {l : List α} {r : Bytes}, Run d v l r →
    (r.length = v.length ∧ (l.map sz).sum ≤ l.length * A) ∨
      (r.length < v.length ∧ (l.map sz).sum + Y + B * r.length ≤ l.length * A + X + l.length * p + B * v.length)
  | _, [], _, h => by cases h; exact .inl ⟨rfl, by simp⟩
  | v, a :: l, r, ⟨w, h1, h3⟩ => by
    simp only [List.map_cons, List.sum_cons, List.length_cons, Nat.succ_mul]
    rcases he v a w h1 with ⟨h6, h7⟩ | ⟨h6, h7⟩
    · rcases small he ht h3 with ⟨h4, h5⟩ | ⟨h4, h5⟩
      · exact .inl ⟨by omega, by omega⟩
      · rw [h6] at h4 h5
        exact .inr ⟨by omega, by omega⟩
    · obtain ⟨h4, h5⟩ := h3.rest ht
      exact .inr ⟨by omega, by omega⟩

end

/-! ### schemas -/

mutual
/-- Bound on the size of what is decoded without reading anything. -/
def Schema.free (ρ : Nat → Schema) : Schema → Nat
  | .nullable s => s.free ρ + 1
  | .vpadded _ s | .padded _ s => s.free ρ
  | .autobox s => s.free ρ + 1
  | .seq s => s.free ρ + 1
  | .fixSeq n s | .limSeq n s => if (s.fill ρ).nonempty then s.free ρ + 1 else (n + 1) * s.free ρ + 1
  | .hole _ => 0
  | .record fs => fs.free ρ
  | _ => 1
def Fields.free (ρ : Nat → Schema) : Fields → Nat
  | .nil => 1
  | .cons s fs => s.free ρ + fs.free ρ
end

mutual
/-- Bound on the size not paid for by bytes read; `h` is that of recursive types. -/
def Schema.over (ρ : Nat → Schema) (h : Nat) : Schema → Nat
  | .option s | .nullable s | .autobox s | .seq s => s.over ρ h + 1
  | .dynamic _ s => s.over ρ h
  | .vpadded _ s | .padded _ s => s.over ρ h
  | .fixSeq n s | .limSeq n s => if (s.fill ρ).nonempty then s.over ρ h + 1 else (2 * n + 1) * s.over ρ h + 1
  | .hole _ => h
  | .data _ vs => vs.over ρ h + 1
  | .record fs => fs.over ρ h
  | _ => 1
def Variants.over (ρ : Nat → Schema) (h : Nat) : Variants → Nat
  | .nil => 0
  | .cons _ s vs => s.over ρ h + vs.over ρ h
def Fields.over (ρ : Nat → Schema) (h : Nat) : Fields → Nat
  | .nil => 1
  | .cons s fs => s.over ρ h + fs.over ρ h
end

/-- With the given bounds, after something has been read or before. -/
def Fits {α : Type} (sz : α → Nat) (B E pre post : Nat) (read : Bool) (d : D α) : Prop :=
  if read then Small sz B post post E d else Small sz B pre (pre + post) (2 * E) d

section
variable {α β : Type} {sz : α → Nat} {sz' : β → Nat} {B E : Nat}

theorem Fits.of_small {c : Nat} {d : D α} (read : Bool) (h : ∀ Y, Y ≤ 2 * E → Small sz B c c Y d) : Fits sz B E c c read d := by
  cases read
  · exact (h (2 * E) (Nat.le_refl _)).mono (Nat.le_refl _) (by omega)
  · exact h E (by omega)

theorem Fits.after {c post : Nat} {d : D β} {f : β → D α} (read : Bool) (hp : Progress d) (hf : ∀ b, Small sz B post post E (f b))
    (hB : 2 * E ≤ B) : Fits sz B E c post read (d >>= f) := by
  cases read
  · exact Small.after hp hf (by omega) (by omega)
  · exact Small.after hp hf (by omega) (by omega)

theorem Fits.map {pre post k : Nat} {read : Bool} {d : D α} {f : α → β} (h : Fits sz B E pre post read d)
    (hs : ∀ a, sz' (f a) ≤ k + sz a) : Fits sz' B E (pre + k) (post + k) read (f <$> d) := by
  cases read
  · exact (Small.map h hs).mono (Nat.le_refl _) (by omega)
  · exact Small.map h hs

/-- A list of elements, at most `n` of them unless each reads something. -/
theorem Fits.list {pre post n : Nat} {ne read : Bool} {d : D α} {dl : D (List α)} (he : Fits sz B E pre post read d)
    (ht : Small sz B post post E d) (hE : post ≤ E) (h1 : ne = true → ∀ v l r, dl v = .ok l r → Run1 d v l r)
    (h2 : ne = false → ∀ v l r, dl v = .ok l r → Run d v l r ∧ l.length ≤ n) :
    Fits (fun l : List α => 1 + (l.map sz).sum) B E (if ne then pre + 1 else (n + 1) * pre + 1)
      (if ne then post + 1 else (2 * n + 1) * post + 1) read dl := by
  cases ne with
  | true =>
    simp only [if_true]
    have key : ∀ {A X Y A' X' : Nat}, Small sz B A X Y d → 1 ≤ A' → X + 1 ≤ X' →
        Small (fun l : List α => 1 + (l.map sz).sum) B A' X' Y dl := by
      intro A X Y A' X' he hA hX v l r hd
      rcases (h1 rfl v l r hd).small he ht hE with ⟨h3, h4⟩ | ⟨h3, h4⟩
      · exact .inl ⟨h3, by show 1 + _ ≤ _; omega⟩
      · exact .inr ⟨h3, by show 1 + _ + _ + _ ≤ _; omega⟩
    cases read
    · exact key he (by omega) (by omega)
    · exact key he (by omega) (by omega)
  | false =>
    simp only [Bool.false_eq_true, if_false]
    have e1 : (2 * n + 1) * post = n * post + n * post + post := by rw [Nat.add_mul, Nat.one_mul, Nat.mul_assoc, Nat.two_mul]
    have e2 : (n + 1) * pre = n * pre + pre := Nat.succ_mul n pre
    have key : ∀ {A X Y A' X' : Nat}, Small sz B A X Y d → n * A + 1 ≤ A' → n * A + X + n * post + 1 ≤ X' →
        Small (fun l : List α => 1 + (l.map sz).sum) B A' X' Y dl := by
      intro A X Y A' X' he hA hX v l r hd
      obtain ⟨h3, h4⟩ := h2 rfl v l r hd
      have h5 : l.length * A ≤ n * A := Nat.mul_le_mul_right A h4
      have h6 : l.length * post ≤ n * post := Nat.mul_le_mul_right post h4
      rcases h3.small he ht with ⟨h7, h8⟩ | ⟨h7, h8⟩
      · exact .inl ⟨h7, by show 1 + _ ≤ _; omega⟩
      · exact .inr ⟨h7, by show 1 + _ + _ + _ ≤ _; omega⟩
    cases read
    · exact key he (by omega) (by omega)
    · exact key he (by omega) (by omega)

end

/-! leaves -/

theorem Dec.zarithN_small {v r : Bytes} {a : Nat} (h : Dec.zarithN v = .ok a r) : 1 + bits a ≤ 1 + 7 * (v.length - r.length) := by
  obtain ⟨bs, h1, rfl⟩ := D.map_eq_ok.mp h
  obtain ⟨rfl, _⟩ := Dec.terminated_ok h1
  have h2 := Dec.val7_lt bs
  rw [show (128 : Nat) = 2 ^ 7 from rfl, ← Nat.pow_mul] at h2
  have := bits_le h2
  rw [List.length_append, Nat.add_sub_cancel]
  omega

theorem Dec.zarithZ_small {v r : Bytes} {a : Int} (h : Dec.zarithZ v = .ok a r) :
    1 + bits a.natAbs ≤ 1 + 7 * (v.length - r.length) := by
  obtain ⟨bs, h1, rfl⟩ := D.map_eq_ok.mp h
  obtain ⟨rfl, p, b, rfl, _⟩ := Dec.terminated_ok h1
  have h2 := Dec.ival7_lt (bs := p ++ [b]) (k := p.length) (by simp)
  rw [show (128 : Nat) = 2 ^ 7 from rfl, ← Nat.pow_mul, show (64 : Nat) = 2 ^ 6 from rfl, ← Nat.pow_add] at h2
  have := bits_le h2
  rw [List.length_append, Nat.add_sub_cancel, List.length_append, List.length_singleton]
  omega

theorem Dec.bytes_small {v r : Bytes} {a : Bytes} (h : Dec.bytes v = .ok a r) : 1 + a.length ≤ 1 + 7 * (v.length - r.length) := by
  cases h
  simp only [List.length_nil]
  omega

theorem Dec.string_small {v r : Bytes} {a : List Char} (h : Dec.string v = .ok a r) :
    1 + (utf8 a).length ≤ 1 + 7 * (v.length - r.length) := by
  obtain ⟨bs, h1, rfl⟩ := D.map_eq_ok.mp h
  cases h1
  have := lossy_length v
  simp only [List.length_nil]
  omega

theorem Dec.byteArr_small {n : Nat} {v r : Bytes} {a : ByteArr n} (h : Dec.byteArr n v = .ok a r) :
    1 + n ≤ 1 + 7 * (v.length - r.length) := by
  obtain ⟨bs, w, h1, h2⟩ := D.bind_eq_ok.mp h
  obtain ⟨h3, rfl⟩ := D.take_eq_ok.mp h1
  split at h2
  · cases h2
    rw [List.length_append]
    omega
  · rename_i h4; exact absurd h3 h4

section
variable {ρ ρ' : Nat → Schema} {B E H : Nat}

theorem over_bound (n p : Nat) : p ≤ (2 * n + 1) * p := by
  have := Nat.mul_le_mul_right p (show 1 ≤ 2 * n + 1 by omega)
  omega

mutual
theorem Schema.fits (cfg : Cfg) (hB : 2 * E + 7 ≤ B) (hn : ∀ i, (ρ i).nonempty = true → (ρ' i).nonempty = true)
    (hh : ∀ i, Small (ρ' i).size B H H E ((ρ' i).dec cfg)) :
    ∀ (s : Schema) (read : Bool), read = true ∨ s.paced ρ read = true → s.over ρ H ≤ E →
      Fits (s.fill ρ').size B E (s.free ρ) (s.over ρ H) read ((s.fill ρ').dec cfg)
  | .unit, read, _, _ => .of_small read fun _ _ => .leaf_one (Schema.unit.readsPrefix cfg) (fun _ => rfl) (by omega)
  | .bool, read, _, _ => .of_small read fun _ _ => .leaf_one (Schema.bool.readsPrefix cfg) (fun _ => rfl) (by omega)
  | .int t, read, _, _ => .of_small read fun _ _ => .leaf_one ((Schema.int t).readsPrefix cfg) (fun _ => rfl) (by omega)
  | .f64, read, _, _ => .of_small read fun _ _ => .leaf_one (Schema.f64.readsPrefix cfg) (fun _ => rfl) (by omega)
  | .rangedInt t a b, read, _, _ => .of_small read fun _ _ =>
      .leaf_one ((Schema.rangedInt t a b).readsPrefix cfg) (fun _ => rfl) (by omega)
  | .rangedFloat a b, read, _, _ => .of_small read fun _ _ =>
      .leaf_one ((Schema.rangedFloat a b).readsPrefix cfg) (fun _ => rfl) (by omega)
  | .cstyle w tags, read, _, _ => .of_small read fun _ _ =>
      .leaf_one ((Schema.cstyle w tags).readsPrefix cfg) (fun _ => rfl) (by omega)
  | .zarithN, read, _, _ => .of_small read fun _ _ =>
      .leaf (Schema.zarithN.readsPrefix cfg) (fun _ _ _ h => Dec.zarithN_small h) (by omega)
  | .zarithZ, read, _, _ => .of_small read fun _ _ =>
      .leaf (Schema.zarithZ.readsPrefix cfg) (fun _ _ _ h => Dec.zarithZ_small h) (by omega)
  | .bytes, read, _, _ => .of_small read fun _ _ =>
      .leaf (Schema.bytes.readsPrefix cfg) (fun _ _ _ h => Dec.bytes_small h) (by omega)
  | .vecU8, read, _, _ => .of_small read fun _ _ =>
      .leaf (Schema.vecU8.readsPrefix cfg) (fun _ _ _ h => Dec.bytes_small h) (by omega)
  | .string, read, _, _ => .of_small read fun _ _ =>
      .leaf (Schema.string.readsPrefix cfg) (fun _ _ _ h => Dec.string_small h) (by omega)
  | .fixedBytes n, read, _, _ => .of_small read fun _ _ =>
      .leaf ((Schema.fixedBytes n).readsPrefix cfg) (fun _ _ _ h => Dec.byteArr_small h) (by omega)
  | .fixedString n, read, _, _ => .of_small read fun _ _ =>
      .leaf ((Schema.fixedString n).readsPrefix cfg) (fun _ _ _ h => Dec.byteArr_small h) (by omega)
  | .option s, read, _, hE => by
    have ih : Small (s.fill ρ').size B (s.over ρ H) (s.over ρ H) E ((s.fill ρ').dec cfg) :=
      s.fits cfg hB hn hh true (.inl rfl) (by simp only [Schema.over] at hE; omega)
    refine Fits.after read (Progress.tag _ _) (fun t => ?_) (by omega)
    split
    · exact ih.map fun _ => Nat.le_refl _
    · exact .pure (Nat.le_add_left _ _)
  | .nullable s, read, h, hE => by
    have ih := s.fits cfg hB hn hh read h (by simp only [Schema.over] at hE; omega)
    have key : ∀ {A X Y : Nat}, Small (s.fill ρ').size B A X Y ((s.fill ρ').dec cfg) →
        Small ((Schema.nullable s).fill ρ').size B (A + 1) (X + 1) Y (Dec.nullable ((s.fill ρ').dec cfg)) := fun hc =>
      .ifEmpty (.pure (Nat.le_add_left _ _)) (hc.map fun _ => Nat.le_refl _)
    cases read
    · exact (key ih).mono (Nat.le_refl _) (by simp only [Schema.free, Schema.over]; omega)
    · exact key ih
  | .dynamic S s, read, _, hE => by
    have ih : Small (s.fill ρ').size B (s.over ρ H) (s.over ρ H) E ((s.fill ρ').dec cfg) :=
      s.fits cfg hB hn hh true (.inl rfl) (by simp only [Schema.over] at hE; omega)
    exact Fits.after read (Progress.lenPref S) (fun n => ih.window n) (by omega)
  | .vpadded n s, read, h, hE => by
    have h' : read = true ∨ s.paced ρ read = true := by
      simp only [Schema.paced, Bool.and_eq_true] at h
      exact h.imp id And.right
    have ih := s.fits cfg hB hn hh read h' (by simp only [Schema.over] at hE; omega)
    cases read
    · exact Small.vpadded cfg n ih
    · exact Small.vpadded cfg n ih
  | .padded n s, read, h, hE => by
    have h' : read = true ∨ s.paced ρ read = true := by
      simp only [Schema.paced, Bool.and_eq_true] at h
      exact h.imp id And.right
    have ih := s.fits cfg hB hn hh read h' (by simp only [Schema.over] at hE; omega)
    cases read
    · exact Small.padded cfg n ih (by omega)
    · exact Small.padded cfg n ih (by omega)
  | .seq s, read, h, hE => by
    have hE' : s.over ρ H ≤ E := by simp only [Schema.over] at hE; omega
    exact Fits.list (ne := true) (n := 0) (s.fits cfg hB hn hh read h hE') (s.fits cfg hB hn hh true (.inl rfl) hE') hE'
      (fun _ _ _ _ hd => .of_many hd) nofun
  | .fixSeq n s, read, h, hE => by
    have hE' : s.over ρ H ≤ E := by
      simp only [Schema.over] at hE
      split at hE
      · omega
      · have := over_bound n (s.over ρ H); omega
    have key : ∀ v l r, Dec.fixSeq n ((s.fill ρ').dec cfg) v = .ok l r → Run ((s.fill ρ').dec cfg) v l r ∧ l.length ≤ n := by
      intro v l r hd
      obtain ⟨l', w, h1, h2⟩ := D.bind_eq_ok.mp hd
      split at h2
      · cases h2; exact Run.of_upTo h1
      · cases h2
    exact Fits.list (s.fits cfg hB hn hh read h hE') (s.fits cfg hB hn hh true (.inl rfl) hE') hE'
      (fun hne v l r hd => (key v l r hd).1.of_progress ((s.fill ρ').progress cfg (s.nonempty_fill hn hne)))
      (fun _ => key)
  | .limSeq n s, read, h, hE => by
    have hE' : s.over ρ H ≤ E := by
      simp only [Schema.over] at hE
      split at hE
      · omega
      · have := over_bound n (s.over ρ H); omega
    have key : ∀ v l r, Dec.limSeq n ((s.fill ρ').dec cfg) v = .ok l r → Run ((s.fill ρ').dec cfg) v l r ∧ l.length ≤ n :=
      fun v l r hd => Run.of_manyMax hd
    exact Fits.list (s.fits cfg hB hn hh read h hE') (s.fits cfg hB hn hh true (.inl rfl) hE') hE'
      (fun hne v l r hd => (key v l r hd).1.of_progress ((s.fill ρ').progress cfg (s.nonempty_fill hn hne)))
      (fun _ => key)
  | .autobox s, read, h, hE => by
    have ih := s.fits cfg hB hn hh read h (by simp only [Schema.over] at hE; omega)
    have key : ∀ {A X Y : Nat}, Small (s.fill ρ').size B A X Y ((s.fill ρ').dec cfg) →
        Small ((Schema.autobox s).fill ρ').size B (A + 1) (X + 1) Y ((s.fill ρ').dec cfg) := by
      intro A X Y hc v a r hd
      rcases hc v a r hd with ⟨h1, h2⟩ | ⟨h1, h2⟩
      · exact .inl ⟨h1, by show 1 + (s.fill ρ').size a ≤ _; omega⟩
      · exact .inr ⟨h1, by show 1 + (s.fill ρ').size a + _ + _ ≤ _; omega⟩
    cases read
    · exact (key ih).mono (Nat.le_refl _) (by simp only [Schema.free, Schema.over]; omega)
    · exact key ih
  | .hole i, read, h, _ => by
    have h' : read = true := h.elim id id
    subst h'
    exact hh i
  | .data w vs, read, _, hE => by
    refine Fits.after read (Progress.tag _ _) (fun t => ?_) (by omega)
    have ih := vs.fits cfg hB hn hh (by simp only [Schema.over] at hE; omega) t
    intro v a r hd
    rcases ih v a r hd with ⟨h1, h2⟩ | ⟨h1, h2⟩
    · exact .inl ⟨h1, by show 1 + (vs.fill ρ').size a ≤ _; simp only [Schema.over]; omega⟩
    · exact .inr ⟨h1, by show 1 + (vs.fill ρ').size a + _ + _ ≤ _; simp only [Schema.over]; omega⟩
  | .record fs, read, h, hE => fs.fits cfg hB hn hh read h hE
theorem Variants.fits (cfg : Cfg) (hB : 2 * E + 7 ≤ B) (hn : ∀ i, (ρ i).nonempty = true → (ρ' i).nonempty = true)
    (hh : ∀ i, Small (ρ' i).size B H H E ((ρ' i).dec cfg)) :
    ∀ vs : Variants, vs.over ρ H ≤ E →
      ∀ t, Small (vs.fill ρ').size B (vs.over ρ H) (vs.over ρ H) E ((vs.fill ρ').dec cfg t)
  | .nil, _, _ => fun _ _ _ h => nomatch h
  | .cons tag s vs, hE, t => by
    simp only [Variants.over] at hE
    have h1 : Small (s.fill ρ').size B (s.over ρ H) (s.over ρ H) E ((s.fill ρ').dec cfg) :=
      s.fits cfg hB hn hh true (.inl rfl) (by omega)
    have h2 := vs.fits cfg hB hn hh (by omega) t
    show Small _ _ _ _ _ (if t = tag then Sum.inl <$> (s.fill ρ').dec cfg else Sum.inr <$> (vs.fill ρ').dec cfg t)
    split
    · exact (h1.map (k := vs.over ρ H) (sz' := ((Variants.cons tag s vs).fill ρ').size) fun a => Nat.le_add_left _ _).mono
        (Nat.le_refl _) (Nat.le_refl _)
    · exact (h2.map (k := s.over ρ H) (sz' := ((Variants.cons tag s vs).fill ρ').size) fun a => Nat.le_add_left _ _).mono
        (by simp only [Variants.over]; omega) (by simp only [Variants.over]; omega)
theorem Fields.fits (cfg : Cfg) (hB : 2 * E + 7 ≤ B) (hn : ∀ i, (ρ i).nonempty = true → (ρ' i).nonempty = true)
    (hh : ∀ i, Small (ρ' i).size B H H E ((ρ' i).dec cfg)) :
    ∀ (fs : Fields) (read : Bool), read = true ∨ fs.paced ρ read = true → fs.over ρ H ≤ E →
      Fits (fs.fill ρ').size B E (fs.free ρ) (fs.over ρ H) read ((fs.fill ρ').dec cfg)
  | .nil, read, _, _ => .of_small read fun _ _ => .pure (Nat.le_refl _)
  | .cons s fs, read, h, hE => by
    simp only [Fields.over] at hE
    have hs : read = true ∨ s.paced ρ read = true := by
      simp only [Fields.paced, Bool.and_eq_true] at h
      exact h.imp id And.left
    have hf : (read || (s.fill ρ).nonempty) = true ∨ fs.paced ρ (read || (s.fill ρ).nonempty) = true := by
      simp only [Fields.paced, Bool.and_eq_true] at h
      exact h.imp (fun h => by rw [h]; rfl) And.right
    have h1 := s.fits cfg hB hn hh read hs (by omega)
    have h2 := fs.fits cfg hB hn hh _ hf (by omega)
    cases read with
    | true =>
      rw [Bool.true_or] at h2
      exact Small.pair h1 h2 (Nat.le_refl _) (by simp only [Fields.over]; omega) (by simp only [Fields.over]; omega)
        (by simp only [Fields.over]; omega)
    | false =>
      rw [Bool.false_or] at h2
      cases hne : (s.fill ρ).nonempty with
      | false =>
        rw [hne] at h2
        exact Small.pair h1 h2 (Nat.le_refl _) (by simp only [Fields.free, Fields.over]; omega)
          (by simp only [Fields.free, Fields.over]; omega) (by simp only [Fields.free, Fields.over]; omega)
      | true =>
        rw [hne] at h2
        exact Small.pair_reads h1 ((s.fill ρ').progress cfg (s.nonempty_fill hn hne)) h2
          (by simp only [Fields.free, Fields.over]; omega) (by simp only [Fields.free, Fields.over]; omega)
end

end

/-- Types that are not recursive (in place of mentioned types there is code that does not return). -/
theorem Schema.small (cfg : Cfg) (s : Schema) {a : Nat} (ha : a = s.over .hole 0) :
    Small s.size (2 * a + 7) a a a (s.dec cfg) := by
  have h1 : Small _ _ _ _ _ _ := s.fits (B := 2 * a + 7) (E := a) (ρ := .hole) (ρ' := .hole) (H := 0) cfg (by omega) (fun _ h => h)
    (fun _ _ _ _ h => nomatch h) true (.inl rfl) (by omega)
  rw [s.fill_hole, ← ha] at h1
  exact h1

/-- Recursive types: the same bound for all unfoldings. -/
theorem Decls.small (d : Decls) (cfg : Cfg) (hs : d.Stable) (hg : d.Paced) {B E H : Nat}
    (h1 : ∀ i, (d.body i).free d.body ≤ H) (h2 : ∀ i, (d.body i).over d.body H ≤ E) (hB : 2 * E + 7 ≤ B) : ∀ n i,
    Small (d.unfold n i).size B H H E ((d.unfold n i).dec cfg)
  | 0, _ => fun _ _ _ h => nomatch h
  | n + 1, i => by
    have h := (d.body i).fits (ρ' := d.unfold n) cfg hB (fun _ hj => d.nonempty hs hj n) (d.small cfg hs hg h1 h2 hB n)
      false (.inr (hg i)) (h2 i)
    have h3 := h1 i
    have h4 := h2 i
    have h5 : (d.body i).free d.body + (d.body i).over d.body H + E ≤ H + 2 * E := by omega
    exact Small.mono h h3 h5

end Verif
