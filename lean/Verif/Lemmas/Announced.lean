import Verif.Lemmas.Shortfall
/-
Trusting wrong estimates: a value that comes back from what it is then encoded as has no `N` with value 0 under a
length prefix.
-/
namespace Verif

variable {α β : Type}

/-! ### announcing other lengths changes no lengths -/

/-- Two encoders agree on lengths. -/
def SameLen (e e' : Enc α) : Prop := ∀ x b b', e x = some b → e' x = some b' → b.length = b'.length

namespace SameLen

theorem refl (e : Enc α) : SameLen e e := fun x b b' h h' => by
  rw [h] at h'
  cases h'
  rfl

theorem option {e e' : Enc α} (h : SameLen e e') : SameLen (Enc.option e) (Enc.option e') := by
  intro x b b' hb hb'
  cases x with
  | none => cases hb; cases hb'; rfl
  | some x =>
    obtain ⟨_, c, h1, h2, rfl⟩ := cat_eq_some.mp hb
    obtain ⟨_, c', h1', h2', rfl⟩ := cat_eq_some.mp hb'
    cases h1; cases h1'
    simp [h x c c' h2 h2']

theorem nullable {e e' : Enc α} (h : SameLen e e') : SameLen (Enc.nullable e) (Enc.nullable e') := by
  intro x b b' hb hb'
  cases x with
  | none => cases hb; cases hb'; rfl
  | some x => exact h x b b' hb hb'

theorem dynamic (S : LenPref) {l l' : α → Option Nat} {e e' : Enc α} (h : SameLen e e') :
    SameLen (Enc.dynamic S l e) (Enc.dynamic S l' e') := by
  intro x b b' hb hb'
  obtain ⟨n, c, -, -, h3, rfl⟩ := Enc.dynamic_eq_some.mp hb
  obtain ⟨n', c', -, -, h3', rfl⟩ := Enc.dynamic_eq_some.mp hb'
  simp [h x c c' h3 h3']

theorem padded (n : Nat) {e e' : Enc α} (h : SameLen e e') : SameLen (Enc.padded n e) (Enc.padded n e') := by
  intro x b b' hb hb'
  obtain ⟨c, _, h1, h2, rfl⟩ := cat_eq_some.mp hb
  obtain ⟨c', _, h1', h2', rfl⟩ := cat_eq_some.mp hb'
  cases h2; cases h2'
  simp [h x c c' h1 h1']

theorem list {e e' : Enc α} (h : SameLen e e') : SameLen (Enc.list e) (Enc.list e') := by
  intro xs
  induction xs with
  | nil => intro b b' hb hb'; cases hb; cases hb'; rfl
  | cons x xs ih =>
    intro b b' hb hb'
    obtain ⟨c, d, h1, h2, rfl⟩ := cat_eq_some.mp hb
    obtain ⟨c', d', h1', h2', rfl⟩ := cat_eq_some.mp hb'
    simp [h x c c' h1 h1', ih d d' h2 h2']

theorem vcons (tag : Nat) {e e' : Enc α} {v v' : TagWidth → Enc β} (h : SameLen e e') (w : TagWidth) (hv : SameLen (v w) (v' w)) :
    SameLen (Enc.vcons tag e v w) (Enc.vcons tag e' v' w) := by
  intro x b b' hb hb'
  cases x with
  | inl x =>
    obtain ⟨_, c, h1, h2, rfl⟩ := cat_eq_some.mp hb
    obtain ⟨_, c', h1', h2', rfl⟩ := cat_eq_some.mp hb'
    cases h1; cases h1'
    simp [h x c c' h2 h2']
  | inr y => exact hv y b b' hb hb'

theorem fcons {e e' : Enc α} {f f' : Enc β} (h : SameLen e e') (hf : SameLen f f') :
    SameLen (Enc.fcons e f) (Enc.fcons e' f') := by
  intro x b b' hb hb'
  obtain ⟨c, d, h1, h2, rfl⟩ := cat_eq_some.mp hb
  obtain ⟨c', d', h1', h2', rfl⟩ := cat_eq_some.mp hb'
  simp [h x.1 c c' h1 h1', hf x.2 d d' h2 h2']

end SameLen

mutual
theorem Schema.sameLen (cfg : Cfg) : ∀ s : Schema, SameLen (s.out cfg) s.wire
  | .unit => .refl _
  | .bool => .refl _
  | .int _ => .refl _
  | .f64 => .refl _
  | .rangedInt _ _ _ => .refl _
  | .rangedFloat _ _ => .refl _
  | .zarithN => .refl _
  | .zarithZ => .refl _
  | .bytes => .refl _
  | .vecU8 => .refl _
  | .string => .refl _
  | .fixedBytes _ => .refl _
  | .fixedString _ => .refl _
  | .option s => .option (s.sameLen cfg)
  | .nullable s => .nullable (s.sameLen cfg)
  | .dynamic S s => .dynamic S (s.sameLen cfg)
  | .vpadded _ s => s.sameLen cfg
  | .padded n s => .padded n (s.sameLen cfg)
  | .seq s => .list (s.sameLen cfg)
  | .fixSeq _ s => .list (s.sameLen cfg)
  | .limSeq _ s => .list (s.sameLen cfg)
  | .autobox s => s.sameLen cfg
  | .hole _ => fun x => nomatch x
  | .cstyle _ _ => .refl _
  | .data w vs => vs.sameLen cfg w
  | .record fs => fs.sameLen cfg
theorem Variants.sameLen (cfg : Cfg) : ∀ (vs : Variants) (w : TagWidth), SameLen (vs.out cfg w) (vs.wire w)
  | .nil, _ => fun x => nomatch x
  | .cons tag s vs, w => .vcons tag (s.sameLen cfg) w (vs.sameLen cfg w)
theorem Fields.sameLen (cfg : Cfg) : ∀ fs : Fields, SameLen (fs.out cfg) fs.wire
  | .nil => .refl _
  | .cons s fs => .fcons (s.sameLen cfg) (fs.sameLen cfg)
end

/-! ### coming back -/

/-- The values that come back from what they are encoded as are such that `Q`. -/
def Back (e : Enc α) (d : D α) (V Q : α → Prop) : Prop :=
  ∀ x b t, V x → e x = some b → d (b ++ t) = .ok x t → Q x

/-- What is read takes at least as much as it is written as; so if enough is left, it is what follows. -/
theorem rest_eq {e ew : Enc α} {d : D α} {W : α → Prop} (hr : Reencodes ew d W) (hp : ReadsPrefix d) (hl : SameLen e ew)
    {x : α} {b u r : Bytes} (hb : e x = some b) (hd : d (b ++ u) = .ok x r) (hu : u.length ≤ r.length) : r = u := by
  obtain ⟨-, w, hw, h1⟩ := hr _ _ _ hd
  obtain ⟨p, h2⟩ := hp _ _ _ hd
  have h3 := hl x b w hb hw
  have h4 := congrArg List.length h2
  simp only [List.length_append] at h1 h4
  have h5 : b.length = p.length := by omega
  exact (List.append_inj_right h2 h5).symm

namespace Back

variable {V Q : α → Prop} {V' Q' : β → Prop}

theorem triv (e : Enc α) (d : D α) (V : α → Prop) : Back e d V (fun _ => True) := fun _ _ _ _ _ _ => trivial

theorem option {e : Enc α} {d : D α} (h : Back e d V Q) :
    Back (Enc.option e) (Dec.option d) (fun o => ∀ x, o = some x → V x) (fun o => ∀ x, o = some x → Q x) := by
  rintro o b t hv hb hd x rfl
  obtain ⟨_, c, h1, h2, rfl⟩ := cat_eq_some.mp hb
  cases h1
  obtain ⟨tg, r', h3, h4⟩ := D.bind_eq_ok.mp hd
  obtain ⟨-, -, h5⟩ := Dec.tag_mem h3
  split at h4
  · rename_i ht
    subst ht
    obtain ⟨y, h6, h7⟩ := D.map_eq_ok.mp h4
    cases h7
    have h8 : r' = c ++ t := by
      have : toBe TagWidth.u8.len 255 = [0xff] := rfl
      rw [this] at h5
      simpa using h5.symm
    subst h8
    exact h x c t (hv x rfl) h2 h6
  · cases h4

theorem nullable {e : Enc α} {d : D α} (h : Back e d V Q) :
    Back (Enc.nullable e) (Dec.nullable d) (fun o => ∀ x, o = some x → V x) (fun o => ∀ x, o = some x → Q x) := by
  rintro o b t hv hb hd x rfl
  simp only [Dec.nullable, D.ifEmpty] at hd
  split at hd
  · cases hd
  · obtain ⟨y, h6, h7⟩ := D.map_eq_ok.mp hd
    cases h7
    exact h x b t (hv x rfl) hb h6

theorem dynamic (S : LenPref) {l : α → Option Nat} {e : Enc α} {d : D α}
    (h : ∀ x b, V x → e x = some b → l x = some b.length → Q x) :
    Back (Enc.dynamic S l e) (Dec.dynamic S d) V Q := by
  intro x b t hv hb hd
  obtain ⟨n, c, h1, h2, h3, rfl⟩ := Enc.dynamic_eq_some.mp hb
  obtain ⟨m, r', h4, h5⟩ := D.bind_eq_ok.mp hd
  obtain ⟨hm, h6⟩ := Dec.lenPref_ok h4
  rw [List.append_assoc] at h6
  obtain ⟨h7, rfl⟩ := List.append_inj h6 (by simp)
  have hnm : n = m := by
    have := congrArg ofBe h7
    rwa [ofBe_toBe_of_lt (Nat.lt_of_le_of_lt h2 S.maxLen_lt), ofBe_toBe_of_lt (Nat.lt_of_le_of_lt hm S.maxLen_lt)] at this
  subst hnm
  obtain ⟨h8, -, h9⟩ := D.window_eq_ok.mp h5
  have h10 := congrArg List.length h9
  simp only [List.length_drop, List.length_append] at h10 h8
  exact h x c hv h3 (by rw [h1]; congr 1; omega)

theorem vpadded (cfg : Cfg) (n : Nat) {e : Enc α} {d : D α} (h : Back e d V Q) : Back e (Dec.vpadded cfg n d) V Q := by
  intro x b t hv hb hd
  simp only [Dec.vpadded] at hd
  split at hd
  · obtain ⟨h1, h2, h3⟩ := D.window_eq_ok.mp hd
    have h4 := congrArg List.length h3
    simp only [List.length_drop, List.length_append] at h4 h1 h2
    have h5 : b.length + t.length - n = b.length := by omega
    rw [h5, List.take_left] at h2
    exact h x b [] hv hb (by rwa [List.append_nil])
  · split at hd <;> cases hd

theorem padded (cfg : Cfg) (n : Nat) {e ew : Enc α} {d : D α} {W : α → Prop} (hr : Reencodes ew d W) (hp : ReadsPrefix d)
    (hl : SameLen e ew) (h : Back e d V Q) : Back (Enc.padded n e) (Dec.padded cfg n d) V Q := by
  intro x b t hv hb hd
  obtain ⟨c, _, h1, h2, rfl⟩ := cat_eq_some.mp hb
  cases h2
  obtain ⟨y, r', h3, h4⟩ := D.bind_eq_ok.mp hd
  obtain ⟨p, r'', h5, h6⟩ := D.bind_eq_ok.mp h4
  obtain ⟨h7, rfl⟩ := D.take_eq_ok.mp h5
  split at h6
  · cases h6
  · cases h6
    rw [List.append_assoc] at h3
    have := rest_eq hr hp hl h1 h3 (by simp [h7])
    rw [this] at h3
    exact h x c _ hv h1 h3

/-- One element and the others, however they are read. -/
theorem step {e ew : Enc α} {d : D α} {W : α → Prop} (hr : Reencodes ew d W) (hp : ReadsPrefix d) (hl : SameLen e ew)
    (h : Back e d V Q) {W' : β → Prop} {f fw : Enc β} {df : D β} (hr' : Reencodes fw df W') (hl' : SameLen f fw)
    {x : α} {y : β} {b c t r : Bytes} (hv : V x) (hb : e x = some b) (hc : f y = some c) (hd : d (b ++ (c ++ t)) = .ok x r)
    (hd' : df r = .ok y t) : Q x ∧ df (c ++ t) = .ok y t := by
  obtain ⟨-, w, hw, h1⟩ := hr' _ _ _ hd'
  have h2 := hl' y c w hc hw
  have h3 := rest_eq hr hp hl hb hd (by simp; omega)
  subst h3
  exact ⟨h x b _ hv hb hd, hd'⟩

theorem upTo {e ew : Enc α} {d : D α} {W : α → Prop} (hr : Reencodes ew d W) (hp : ReadsPrefix d) (hl : SameLen e ew)
    (h : Back e d V Q) : ∀ k, Back (Enc.list e) (D.upTo d k) (fun xs => ∀ x ∈ xs, V x) (fun xs => ∀ x ∈ xs, Q x)
  | 0 => by
    intro xs b t hv hb hd
    injection hd with hd
    subst hd
    simp
  | k + 1 => by
    intro xs b t hv hb hd
    simp only [D.upTo, D.ifEmpty] at hd
    split at hd
    · injection hd with hd
      subst hd
      simp
    · obtain ⟨a, r1, h1, h2⟩ := D.bind_eq_ok.mp hd
      obtain ⟨as', r2, h3, h4⟩ := D.bind_eq_ok.mp h2
      cases h4
      obtain ⟨c, c', h5, h6, rfl⟩ := cat_eq_some.mp hb
      rw [List.append_assoc] at h1
      obtain ⟨h7, h8⟩ := step hr hp hl h (hr.upTo k) hl.list (hv a (by simp)) h5 h6 h1 h3
      have := upTo hr hp hl h k as' c' t (fun x hx => hv x (by simp [hx])) h6 h8
      simpa using ⟨h7, this⟩

theorem fixSeq (n : Nat) {e ew : Enc α} {d : D α} {W : α → Prop} (hr : Reencodes ew d W) (hp : ReadsPrefix d)
    (hl : SameLen e ew) (h : Back e d V Q) :
    Back (Enc.list e) (Dec.fixSeq n d) (fun xs => xs.length = n ∧ ∀ x ∈ xs, V x) (fun xs => ∀ x ∈ xs, Q x) := by
  intro xs b t hv hb hd
  obtain ⟨l, r1, h1, h2⟩ := D.bind_eq_ok.mp hd
  split at h2
  · cases h2
    exact upTo hr hp hl h n xs b t hv.2 hb h1
  · cases h2

theorem manyMax (er : ParseError) {e ew : Enc α} {d : D α} {W : α → Prop} (hr : Reencodes ew d W) (hp : ReadsPrefix d)
    (hl : SameLen e ew) (h : Back e d V Q) :
    ∀ k, Back (Enc.list e) (D.manyMax er d k) (fun xs => ∀ x ∈ xs, V x) (fun xs => ∀ x ∈ xs, Q x)
  | 0 => by
    intro xs b t hv hb hd
    simp only [D.manyMax, D.ifEmpty] at hd
    split at hd
    · injection hd with hd
      subst hd
      simp
    · obtain ⟨a, r1, h1, h2⟩ := D.bind_eq_ok.mp hd
      cases h2
  | k + 1 => by
    intro xs b t hv hb hd
    simp only [D.manyMax, D.ifEmpty] at hd
    split at hd
    · injection hd with hd
      subst hd
      simp
    · obtain ⟨a, r1, h1, h2⟩ := D.bind_eq_ok.mp hd
      obtain ⟨as', r2, h3, h4⟩ := D.bind_eq_ok.mp h2
      cases h4
      obtain ⟨c, c', h5, h6, rfl⟩ := cat_eq_some.mp hb
      rw [List.append_assoc] at h1
      obtain ⟨h7, h8⟩ := step hr hp hl h (hr.manyMax er k) hl.list (hv a (by simp)) h5 h6 h1 h3
      have := manyMax er hr hp hl h k as' c' t (fun x hx => hv x (by simp [hx])) h6 h8
      simpa using ⟨h7, this⟩

theorem seq {e ew : Enc α} {d : D α} {W : α → Prop} (hr : Reencodes ew d W) (hp : ReadsPrefix d)
    (hl : SameLen e ew) (h : Back e d V Q) :
    Back (Enc.list e) (Dec.seq d) (fun xs => ∀ x ∈ xs, V x) (fun xs => ∀ x ∈ xs, Q x) := by
  intro xs
  induction xs with
  | nil => intros; simp
  | cons x xs ih =>
    intro b t hv hb hd
    obtain ⟨c, c', h5, h6, rfl⟩ := cat_eq_some.mp hb
    obtain ⟨rfl, ⟨-, h0⟩ | ⟨a, r1, as', -, h1, -, h3, h4⟩⟩ := Canonical.many_ok hp _ hd
    · cases h0
    · cases h4
      rw [List.append_assoc] at h1
      obtain ⟨h7, h8⟩ := step hr hp hl h (hr.seq hp) hl.list (hv x (by simp)) h5 h6 h1 h3
      have := ih c' [] (fun y hy => hv y (by simp [hy])) h6 h8
      simpa using ⟨h7, this⟩

theorem fcons {e ew : Enc α} {d : D α} {W : α → Prop} (hr : Reencodes ew d W) (hp : ReadsPrefix d) (hl : SameLen e ew)
    (h : Back e d V Q) {f fw : Enc β} {df : D β} {W' : β → Prop} (hr' : Reencodes fw df W') (hl' : SameLen f fw)
    (h' : Back f df V' Q') :
    Back (Enc.fcons e f) (Dec.fcons d df) (fun x => V x.1 ∧ V' x.2) (fun x => Q x.1 ∧ Q' x.2) := by
  intro x b t hv hb hd
  obtain ⟨a, r1, h1, h2⟩ := D.bind_eq_ok.mp hd
  obtain ⟨y, r2, h3, h4⟩ := D.bind_eq_ok.mp h2
  cases h4
  obtain ⟨c, c', h5, h6, rfl⟩ := cat_eq_some.mp hb
  rw [List.append_assoc] at h1
  obtain ⟨h7, h8⟩ := step hr hp hl h hr' hl' hv.1 h5 h6 h1 h3
  exact ⟨h7, h' y c' t hv.2 h6 h8⟩

end Back

/-- The same for the arms of an enum, which are read after the tag. -/
def VBack (w : TagWidth) (e : Enc β) (d : Nat → D β) (V Q : β → Prop) : Prop :=
  ∀ x b u t, V x → e x = some b → w.len ≤ b.length ∧ (d t (b.drop w.len ++ u) = .ok x u → Q x)

theorem VBack.cons {w : TagWidth} (tag : Nat) {e : Enc α} {d : D α} {v : TagWidth → Enc β} {dv : Nat → D β} {V Q : α → Prop}
    {V' Q' : β → Prop} (h : Back e d V Q) (hv : VBack w (v w) dv V' Q') :
    VBack w (Enc.vcons tag e v w) (Dec.vcons tag d dv) (Sum.elim V V') (Sum.elim Q Q') := by
  intro x b u t hx hb
  cases x with
  | inl x =>
    obtain ⟨_, c, h1, h2, rfl⟩ := cat_eq_some.mp hb
    cases h1
    refine ⟨by simp, fun hd => ?_⟩
    rw [List.drop_left' (by simp)] at hd
    simp only [Dec.vcons] at hd
    split at hd
    · obtain ⟨y, h6, h7⟩ := D.map_eq_ok.mp hd
      cases h7
      exact h x c u hx h2 h6
    · obtain ⟨y, h6, h7⟩ := D.map_eq_ok.mp hd
      cases h7
  | inr x =>
    obtain ⟨h1, h2⟩ := hv x b u t hx hb
    refine ⟨h1, fun hd => ?_⟩
    simp only [Dec.vcons] at hd
    split at hd
    · obtain ⟨y, h6, h7⟩ := D.map_eq_ok.mp hd
      cases h7
    · obtain ⟨y, h6, h7⟩ := D.map_eq_ok.mp hd
      cases h7
      exact h2 h6

theorem Back.data (w : TagWidth) (tags : List Nat) {e : Enc β} {d : Nat → D β} {V Q : β → Prop} (h : VBack w e d V Q) :
    Back e (Dec.data w tags d) V Q := by
  intro x b t hv hb hd
  obtain ⟨tg, r', h3, h4⟩ := D.bind_eq_ok.mp hd
  obtain ⟨-, -, h5⟩ := Dec.tag_mem h3
  obtain ⟨h1, h2⟩ := h x b t tg hv hb
  refine h2 ?_
  have h6 : r' = b.drop w.len ++ t := by
    have := congrArg (List.drop w.len) h5
    rw [List.drop_append_of_le_length h1, List.drop_left' (by simp)] at this
    exact this.symm
  rwa [h6] at h4

/-! ### zeros and estimates -/

theorem sum_eq_zero {f : α → Nat} : ∀ {xs : List α}, (xs.map f).sum = 0 → ∀ x ∈ xs, f x = 0
  | x :: xs, h, y, hy => by
    simp only [List.map_cons, List.sum_cons] at h
    rcases List.mem_cons.mp hy with rfl | hy
    · omega
    · exact sum_eq_zero (f := f) (xs := xs) (by omega) y hy

mutual
theorem Schema.estOk_of_zeros : ∀ (s : Schema) (x : s.Val), s.zeros x = 0 → s.EstOk x
  | .unit, _, _ => trivial
  | .bool, _, _ => trivial
  | .int _, _, _ => trivial
  | .f64, _, _ => trivial
  | .rangedInt _ _ _, _, _ => trivial
  | .rangedFloat _ _, _, _ => trivial
  | .zarithN, x, h => fun h0 => by
    have h : (if (show Nat from x) = 0 then 1 else 0) = 0 := h
    rw [if_pos h0] at h
    cases h
  | .zarithZ, _, _ => trivial
  | .bytes, _, _ => trivial
  | .vecU8, _, _ => trivial
  | .string, _, _ => trivial
  | .fixedBytes _, _, _ => trivial
  | .fixedString _, _, _ => trivial
  | .option s, x, h => by
    rintro y rfl
    exact s.estOk_of_zeros y h
  | .nullable s, x, h => by
    rintro y rfl
    exact s.estOk_of_zeros y h
  | .dynamic _ s, x, h => s.estOk_of_zeros x h
  | .vpadded _ s, x, h => s.estOk_of_zeros x h
  | .padded _ s, x, h => s.estOk_of_zeros x h
  | .seq s, _, h => fun y hy => s.estOk_of_zeros y (sum_eq_zero h y hy)
  | .fixSeq _ s, _, h => fun y hy => s.estOk_of_zeros y (sum_eq_zero h y hy)
  | .limSeq _ s, _, h => fun y hy => s.estOk_of_zeros y (sum_eq_zero h y hy)
  | .autobox s, x, h => s.estOk_of_zeros x h
  | .hole _, _, _ => trivial
  | .cstyle _ _, _, _ => trivial
  | .data _ vs, x, h => vs.estOk_of_zeros x h
  | .record fs, x, h => fs.estOk_of_zeros x h
theorem Variants.estOk_of_zeros : ∀ (vs : Variants) (x : vs.Val), vs.zeros x = 0 → vs.EstOk x
  | .nil, x, _ => nomatch x
  | .cons _ s _, .inl x, h => s.estOk_of_zeros x h
  | .cons _ _ vs, .inr x, h => vs.estOk_of_zeros x h
theorem Fields.estOk_of_zeros : ∀ (fs : Fields) (x : fs.Val), fs.zeros x = 0 → fs.EstOk x
  | .nil, _, _ => trivial
  | .cons s fs, x, h => by
    have h : s.zeros x.1 + fs.zeros x.2 = 0 := h
    exact ⟨s.estOk_of_zeros x.1 (by omega), fs.estOk_of_zeros x.2 (by omega)⟩
end

mutual
theorem Schema.back (cfg : Cfg) (ho : cfg.encLenOverride = true) : ∀ s : Schema, s.textFree = true →
    Back (s.out cfg) (s.dec cfg) s.Valid s.PrefixOk
  | .unit, _ => .triv _ _ _
  | .bool, _ => .triv _ _ _
  | .int _, _ => .triv _ _ _
  | .f64, _ => .triv _ _ _
  | .rangedInt _ _ _, _ => .triv _ _ _
  | .rangedFloat _ _, _ => .triv _ _ _
  | .zarithN, _ => .triv _ _ _
  | .zarithZ, _ => .triv _ _ _
  | .bytes, _ => .triv _ _ _
  | .vecU8, _ => .triv _ _ _
  | .string, h => by cases h
  | .fixedBytes _, _ => .triv _ _ _
  | .fixedString _, _ => .triv _ _ _
  | .option s, h => .option (s.back cfg ho h)
  | .nullable s, h => .nullable (s.back cfg ho h)
  | .dynamic S s, _ => .dynamic S fun x b hv hb hl => by
    have h1 := s.estimate_gap cfg x b hv hb
    have h2 : (s.codec cfg).estimate x = b.length := by simpa [Enc.lenOf, ho] using hl
    exact s.estOk_of_zeros x (by omega)
  | .vpadded n s, h => .vpadded cfg n (s.back cfg ho h)
  | .padded n s, h => .padded cfg n (s.reencodes cfg h) (s.readsPrefix cfg) (s.sameLen cfg) (s.back cfg ho h)
  | .seq s, h => .seq (s.reencodes cfg h) (s.readsPrefix cfg) (s.sameLen cfg) (s.back cfg ho h)
  | .fixSeq n s, h => .fixSeq n (s.reencodes cfg h) (s.readsPrefix cfg) (s.sameLen cfg) (s.back cfg ho h)
  | .limSeq n s, h => fun xs b t hv =>
    Back.manyMax _ (s.reencodes cfg h) (s.readsPrefix cfg) (s.sameLen cfg) (s.back cfg ho h) n xs b t hv.2
  | .autobox s, h => s.back cfg ho h
  | .hole _, _ => fun x => nomatch x
  | .cstyle _ _, _ => .triv _ _ _
  | .data w vs, h => .data w _ (vs.back cfg ho w h)
  | .record fs, h => fs.back cfg ho h
theorem Variants.back (cfg : Cfg) (ho : cfg.encLenOverride = true) (w : TagWidth) : ∀ vs : Variants, vs.textFree = true →
    VBack w (vs.out cfg w) (vs.dec cfg) vs.Valid vs.PrefixOk
  | .nil, _ => fun x => nomatch x
  | .cons tag s vs, h => by
    simp only [Variants.textFree, Bool.and_eq_true] at h
    exact .cons tag (s.back cfg ho h.1) (vs.back cfg ho w h.2)
theorem Fields.back (cfg : Cfg) (ho : cfg.encLenOverride = true) : ∀ fs : Fields, fs.textFree = true →
    Back (fs.out cfg) (fs.dec cfg) fs.Valid fs.PrefixOk
  | .nil, _ => .triv _ _ _
  | .cons s fs, h => by
    simp only [Fields.textFree, Bool.and_eq_true] at h
    exact .fcons (s.reencodes cfg h.1) (s.readsPrefix cfg) (s.sameLen cfg) (s.back cfg ho h.1) (fs.reencodes cfg h.2)
      (fs.sameLen cfg) (fs.back cfg ho h.2)
end

end Verif
