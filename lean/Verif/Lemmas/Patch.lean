import Verif.Spec.Patch
/-
Changing parts of a value: only their bytes change.
-/
namespace Verif

namespace Patched

theorem refl : ∀ b : Bytes, Patched [] b b
  | [] => .nil
  | a :: b => .keep a (refl b)

theorem append {l l' : List (Bytes × Bytes)} {b c b' c' : Bytes} (h : Patched l b c) (h' : Patched l' b' c') :
    Patched (l ++ l') (b ++ b') (c ++ c') := by
  induction h with
  | nil => exact h'
  | keep a _ ih => exact .keep a ih
  | swap u v _ ih => rw [List.append_assoc, List.append_assoc]; exact .swap u v ih

theorem length {l : List (Bytes × Bytes)} {b c : Bytes} (h : Patched l b c) (hl : ∀ p ∈ l, p.2.length = p.1.length) :
    c.length = b.length := by
  induction h with
  | nil => rfl
  | keep a _ ih => exact congrArg (· + 1) (ih hl)
  | swap u v _ ih =>
    have h1 : v.length = u.length := hl _ List.mem_cons_self
    rw [List.length_append, List.length_append, ih fun p m => hl p (List.mem_cons_of_mem _ m), h1]

theorem nil_eq {b c : Bytes} (h : Patched [] b c) : c = b := by
  generalize hl : [] = l at h
  induction h with
  | nil => rfl
  | keep a _ ih => rw [ih hl]
  | swap => cases hl

theorem one {u v b c : Bytes} (h : Patched [(u, v)] b c) : ∃ pre post, b = pre ++ u ++ post ∧ c = pre ++ v ++ post := by
  generalize hl : [(u, v)] = l at h
  induction h with
  | nil => cases hl
  | keep a _ ih =>
    obtain ⟨pre, post, rfl, rfl⟩ := ih hl
    exact ⟨a :: pre, post, rfl, rfl⟩
  | swap u' v' h _ =>
    cases hl
    exact ⟨[], _, rfl, by rw [h.nil_eq]; rfl⟩

end Patched

/-- The lengths of the parts do not change. -/
def SameLens (l : List (Bytes × Bytes)) : Prop := ∀ p ∈ l, p.2.length = p.1.length

theorem SameLens.append {l l' : List (Bytes × Bytes)} (h : SameLens (l ++ l')) : SameLens l ∧ SameLens l' :=
  ⟨fun p m => h p (List.mem_append_left _ m), fun p m => h p (List.mem_append_right _ m)⟩

namespace Patch

variable {α β α' β' : Type}

/-- Encodings change with the parts, provided the lengths of the parts satisfy `K`. -/
def Ok (K : List (Bytes × Bytes) → Prop) (r : Rel α β) (e : Enc α) (e' : Enc β) : Prop :=
  ∀ x y l b, r x y l → K l → e x = some b → ∃ c, e' y = some c ∧ Patched l b c

variable {K : List (Bytes × Bytes) → Prop}

theorem ok_same (e : Enc α) : Ok K same e e := fun x _ _ b ⟨hxy, hl⟩ _ hb => by
  subst hxy hl
  exact ⟨b, hb, .refl b⟩

theorem ok_part (e : Enc α) (e' : Enc β) : Ok K (part e e') e e' := fun x y l b ⟨u, v, hu, hv, hl⟩ _ hb => by
  subst hl
  cases hu.symm.trans hb
  exact ⟨v, hv, by have := Patched.swap b v .nil; rwa [List.append_nil, List.append_nil] at this⟩

theorem cat_inv {a b : Option Bytes} {c : Bytes} (h : Enc.cat a b = some c) :
    ∃ x y, a = some x ∧ b = some y ∧ c = x ++ y := by
  cases a with
  | none => cases h
  | some x =>
    cases b with
    | none => cases h
    | some y => exact ⟨x, y, rfl, rfl, (Option.some.inj h).symm⟩

theorem ok_option {r : Rel α β} {e : Enc α} {e' : Enc β} (h : Ok K r e e') : Ok K (option r) (Enc.option e) (Enc.option e')
  | none, none, _, b, hl, _, hb => by
    have hl : _ = [] := hl
    subst hl
    exact ⟨b, hb, .refl b⟩
  | none, some _, _, _, hl, _, _ => hl.elim
  | some _, none, _, _, hl, _, _ => hl.elim
  | some x, some y, l, b, hl, hk, hb => by
    obtain ⟨p, q, hp, hq, rfl⟩ := cat_inv hb
    cases hp
    obtain ⟨c, hc, hP⟩ := h x y l q hl hk hq
    exact ⟨0xff :: c, by show Enc.cat (some [0xff]) (e' y) = _; rw [hc]; rfl, .keep _ hP⟩

theorem ok_nullable {r : Rel α β} {e : Enc α} {e' : Enc β} (h : Ok K r e e') :
    Ok K (option r) (Enc.nullable e) (Enc.nullable e')
  | none, none, _, b, hl, _, hb => by
    have hl : _ = [] := hl
    subst hl
    exact ⟨b, hb, .refl b⟩
  | none, some _, _, _, hl, _, _ => hl.elim
  | some _, none, _, _, hl, _, _ => hl.elim
  | some x, some y, l, b, hl, hk, hb => h x y l b hl hk hb

theorem ok_dynamic {r : Rel α β} {e : Enc α} {e' : Enc β} (S : LenPref) (hK : ∀ x y l, r x y l → K l → SameLens l)
    (h : Ok K r e e') :
    Ok K r (Enc.dynamic S (fun x => (e x).map List.length) e) (Enc.dynamic S (fun x => (e' x).map List.length) e') :=
  fun x y l b hr hk hb => by
    have key : ∀ (o : Option Bytes) , (match o.map List.length with
        | none => none
        | some l => if l ≤ S.maxLen then Enc.cat (some (toBe S.len l)) o else none) = some b →
        ∃ q, o = some q ∧ q.length ≤ S.maxLen ∧ b = toBe S.len q.length ++ q := by
      intro o ho
      cases o with
      | none => cases ho
      | some q =>
        simp only [Option.map_some] at ho
        by_cases hm : q.length ≤ S.maxLen
        · rw [if_pos hm] at ho
          exact ⟨q, rfl, hm, (Option.some.inj ho).symm⟩
        · rw [if_neg hm] at ho
          cases ho
    obtain ⟨q, he, hm, rfl⟩ := key (e x) hb
    obtain ⟨c, hc, hP⟩ := h x y l q hr hk he
    have hlen := hP.length (hK x y l hr hk)
    refine ⟨toBe S.len q.length ++ c, ?_, (Patched.refl _).append hP⟩
    have key' : ∀ (o : Option Bytes), o = some c → (match o.map List.length with
        | none => none
        | some l => if l ≤ S.maxLen then Enc.cat (some (toBe S.len l)) o else none) =
          some (toBe S.len q.length ++ c) := by
      rintro o rfl
      simp only [Option.map_some]
      rw [hlen, if_pos hm]
      rfl
    exact key' (e' y) hc

theorem ok_padded {r : Rel α β} {e : Enc α} {e' : Enc β} (n : Nat) (h : Ok K r e e') : Ok K r (Enc.padded n e) (Enc.padded n e') :=
  fun x y l b hr hk hb => by
    obtain ⟨p, q, hp, hq, rfl⟩ := cat_inv hb
    cases hq
    obtain ⟨c, hc, hP⟩ := h x y l p hr hk hp
    refine ⟨c ++ List.replicate n 0, by show Enc.cat (e' y) _ = _; rw [hc]; rfl, ?_⟩
    have := hP.append (Patched.refl (List.replicate n 0))
    rwa [List.append_nil] at this

theorem ok_list (hK : ∀ l l', K (l ++ l') → K l ∧ K l') {r : Rel α β} {e : Enc α} {e' : Enc β} (h : Ok K r e e') :
    Ok K (list r) (Enc.list e) (Enc.list e')
  | [], [], _, b, hl, _, hb => by
    have hl : _ = [] := hl
    subst hl
    exact ⟨b, hb, .refl b⟩
  | [], _ :: _, _, _, hl, _, _ => hl.elim
  | _ :: _, [], _, _, hl, _, _ => hl.elim
  | x :: xs, y :: ys, _, b, ⟨l₁, l₂, hl, h1, h2⟩, hk, hb => by
    subst hl
    obtain ⟨p, q, hp, hq, rfl⟩ := cat_inv hb
    obtain ⟨c, hc, hP⟩ := h x y l₁ p h1 (hK _ _ hk).1 hp
    obtain ⟨c', hc', hP'⟩ := ok_list hK h xs ys l₂ q h2 (hK _ _ hk).2 hq
    exact ⟨c ++ c', by show Enc.cat (e' y) (Enc.list e' ys) = _; rw [hc, hc']; rfl, hP.append hP'⟩

theorem ok_fcons (hK : ∀ l l', K (l ++ l') → K l ∧ K l') {r : Rel α β} {r' : Rel α' β'} {e : Enc α} {e' : Enc β} {f : Enc α'}
    {f' : Enc β'} (h : Ok K r e e') (h' : Ok K r' f f') : Ok K (prod r r') (Enc.fcons e f) (Enc.fcons e' f')
  | x, y, _, b, ⟨l₁, l₂, hl, h1, h2⟩, hk, hb => by
    subst hl
    obtain ⟨p, q, hp, hq, rfl⟩ := cat_inv hb
    obtain ⟨c, hc, hP⟩ := h x.1 y.1 l₁ p h1 (hK _ _ hk).1 hp
    obtain ⟨c', hc', hP'⟩ := h' x.2 y.2 l₂ q h2 (hK _ _ hk).2 hq
    exact ⟨c ++ c', by show Enc.cat (e' y.1) (f' y.2) = _; rw [hc, hc']; rfl, hP.append hP'⟩

theorem ok_vcons {r : Rel α β} {r' : Rel α' β'} {e : Enc α} {e' : Enc β} {f : TagWidth → Enc α'}
    {f' : TagWidth → Enc β'} (tag : Nat) (w : TagWidth) (h : Ok K r e e') (h' : Ok K r' (f w) (f' w)) :
    Ok K (sum r r') (Enc.vcons tag e f w) (Enc.vcons tag e' f' w)
  | .inl x, .inl y, l, b, hr, hk, hb => by
    obtain ⟨p, q, hp, hq, rfl⟩ := cat_inv hb
    cases hp
    obtain ⟨c, hc, hP⟩ := h x y l q hr hk hq
    exact ⟨toBe w.len tag ++ c, by show Enc.cat _ (e' y) = _; rw [hc]; rfl, (Patched.refl _).append hP⟩
  | .inl _, .inr _, _, _, hr, _, _ => hr.elim
  | .inr _, .inl _, _, _, hr, _, _ => hr.elim
  | .inr x, .inr y, l, b, hr, hk, hb => h' x y l b hr hk hb

/-- Nothing but the empty list of changes. -/
def None (r : Rel α β) : Prop := ∀ x y l, r x y l → l = []

theorem none_same : None (same : Rel α α) := fun _ _ _ h => h.2
theorem none_option {r : Rel α β} (h : None r) : None (option r)
  | none, none, _, hl => hl
  | none, some _, _, hl => hl.elim
  | some _, none, _, hl => hl.elim
  | some x, some y, l, hl => h x y l hl
theorem none_list {r : Rel α β} (h : None r) : None (list r)
  | [], [], _, hl => hl
  | [], _ :: _, _, hl => hl.elim
  | _ :: _, [], _, hl => hl.elim
  | x :: xs, y :: ys, _, ⟨l₁, l₂, hl, h1, h2⟩ => by
    rw [hl, h x y l₁ h1, none_list h xs ys l₂ h2]; rfl
theorem none_sum {r : Rel α β} {r' : Rel α' β'} (h : None r) (h' : None r') : None (sum r r')
  | .inl x, .inl y, l, hr => h x y l hr
  | .inl _, .inr _, _, hr => hr.elim
  | .inr _, .inl _, _, hr => hr.elim
  | .inr x, .inr y, l, hr => h' x y l hr
theorem none_prod {r : Rel α β} {r' : Rel α' β'} (h : None r) (h' : None r') : None (prod r r')
  | x, y, _, ⟨l₁, l₂, hl, h1, h2⟩ => by rw [hl, h x.1 y.1 l₁ h1, h' x.2 y.2 l₂ h2]; rfl

end Patch

open Patch

section
variable {ρ ρ' : Nat → Schema}

mutual
theorem Schema.patch_ok : (s : Schema) → Ok SameLens (s.Patch ρ ρ') (s.fill ρ).wire (s.fill ρ').wire
  | .unit => ok_same _
  | .bool => ok_same _
  | .int _ => ok_same _
  | .f64 => ok_same _
  | .rangedInt _ _ _ => ok_same _
  | .rangedFloat _ _ => ok_same _
  | .zarithN => ok_same _
  | .zarithZ => ok_same _
  | .bytes => ok_same _
  | .vecU8 => ok_same _
  | .string => ok_same _
  | .fixedBytes _ => ok_same _
  | .fixedString _ => ok_same _
  | .option s => ok_option (Schema.patch_ok s)
  | .nullable s => ok_nullable (Schema.patch_ok s)
  | .dynamic S s => ok_dynamic S (fun _ _ _ _ h => h) (Schema.patch_ok s)
  | .vpadded _ s => Schema.patch_ok s
  | .padded n s => ok_padded n (Schema.patch_ok s)
  | .seq s => ok_list (fun _ _ => SameLens.append) (Schema.patch_ok s)
  | .fixSeq _ s => ok_list (fun _ _ => SameLens.append) (Schema.patch_ok s)
  | .limSeq _ s => ok_list (fun _ _ => SameLens.append) (Schema.patch_ok s)
  | .autobox s => Schema.patch_ok s
  | .hole _ => ok_part _ _
  | .cstyle _ _ => ok_same _
  | .data w vs => Variants.patch_ok w vs
  | .record fs => Fields.patch_ok fs
theorem Variants.patch_ok (w : TagWidth) : (vs : Variants) → Ok SameLens (vs.Patch ρ ρ') ((vs.fill ρ).wire w) ((vs.fill ρ').wire w)
  | .nil => ok_same _
  | .cons tag s vs => ok_vcons tag w (Schema.patch_ok s) (Variants.patch_ok w vs)
theorem Fields.patch_ok : (fs : Fields) → Ok SameLens (fs.Patch ρ ρ') (fs.fill ρ).wire (fs.fill ρ').wire
  | .nil => ok_same _
  | .cons s fs => ok_fcons (fun _ _ => SameLens.append) (Schema.patch_ok s) (Fields.patch_ok fs)
end

mutual
theorem Schema.patch_none : (s : Schema) → s.closed = true → None (s.Patch ρ ρ')
  | .unit, _ => none_same
  | .bool, _ => none_same
  | .int _, _ => none_same
  | .f64, _ => none_same
  | .rangedInt _ _ _, _ => none_same
  | .rangedFloat _ _, _ => none_same
  | .zarithN, _ => none_same
  | .zarithZ, _ => none_same
  | .bytes, _ => none_same
  | .vecU8, _ => none_same
  | .string, _ => none_same
  | .fixedBytes _, _ => none_same
  | .fixedString _, _ => none_same
  | .option s, h => none_option (Schema.patch_none s h)
  | .nullable s, h => none_option (Schema.patch_none s h)
  | .dynamic _ s, h => Schema.patch_none s h
  | .vpadded _ s, h => Schema.patch_none s h
  | .padded _ s, h => Schema.patch_none s h
  | .seq s, h => none_list (Schema.patch_none s h)
  | .fixSeq _ s, h => none_list (Schema.patch_none s h)
  | .limSeq _ s, h => none_list (Schema.patch_none s h)
  | .autobox s, h => Schema.patch_none s h
  | .hole _, h => nomatch h
  | .cstyle _ _, _ => none_same
  | .data _ vs, h => Variants.patch_none vs h
  | .record fs, h => Fields.patch_none fs h
theorem Variants.patch_none : (vs : Variants) → vs.closed = true → None (vs.Patch ρ ρ')
  | .nil, _ => none_same
  | .cons _ s vs, h =>
    have k := (Bool.and_eq_true _ _).mp h
    none_sum (Schema.patch_none s k.1) (Variants.patch_none vs k.2)
theorem Fields.patch_none : (fs : Fields) → fs.closed = true → None (fs.Patch ρ ρ')
  | .nil, _ => none_same
  | .cons s fs, h =>
    have k := (Bool.and_eq_true _ _).mp h
    none_prod (Schema.patch_none s k.1) (Fields.patch_none fs k.2)
end

theorem Patch.Ok.closed {α β : Type} {K : List (Bytes × Bytes) → Prop} {r : Rel α β} {e : Enc α} {e' : Enc β}
    (h : Ok SameLens r e e') (hn : None r) : Ok K r e e' := fun x y l b hr _ hb => by
  refine h x y l b hr ?_ hb
  rw [hn x y l hr]
  exact fun _ m => nomatch m

mutual
theorem Schema.patch_any : (s : Schema) → s.unprefixed = true → Ok (fun _ => True) (s.Patch ρ ρ') (s.fill ρ).wire (s.fill ρ').wire
  | .unit, _ => ok_same _
  | .bool, _ => ok_same _
  | .int _, _ => ok_same _
  | .f64, _ => ok_same _
  | .rangedInt _ _ _, _ => ok_same _
  | .rangedFloat _ _, _ => ok_same _
  | .zarithN, _ => ok_same _
  | .zarithZ, _ => ok_same _
  | .bytes, _ => ok_same _
  | .vecU8, _ => ok_same _
  | .string, _ => ok_same _
  | .fixedBytes _, _ => ok_same _
  | .fixedString _, _ => ok_same _
  | .option s, h => ok_option (Schema.patch_any s h)
  | .nullable s, h => ok_nullable (Schema.patch_any s h)
  | .dynamic S s, h => (Schema.patch_ok (.dynamic S s)).closed (Schema.patch_none s h)
  | .vpadded _ s, h => Schema.patch_any s h
  | .padded n s, h => ok_padded n (Schema.patch_any s h)
  | .seq s, h => ok_list (fun _ _ _ => ⟨trivial, trivial⟩) (Schema.patch_any s h)
  | .fixSeq _ s, h => ok_list (fun _ _ _ => ⟨trivial, trivial⟩) (Schema.patch_any s h)
  | .limSeq _ s, h => ok_list (fun _ _ _ => ⟨trivial, trivial⟩) (Schema.patch_any s h)
  | .autobox s, h => Schema.patch_any s h
  | .hole _, _ => ok_part _ _
  | .cstyle _ _, _ => ok_same _
  | .data w vs, h => Variants.patch_any w vs h
  | .record fs, h => Fields.patch_any fs h
theorem Variants.patch_any (w : TagWidth) : (vs : Variants) → vs.unprefixed = true →
    Ok (fun _ => True) (vs.Patch ρ ρ') ((vs.fill ρ).wire w) ((vs.fill ρ').wire w)
  | .nil, _ => ok_same _
  | .cons tag s vs, h =>
    have k := (Bool.and_eq_true _ _).mp h
    ok_vcons tag w (Schema.patch_any s k.1) (Variants.patch_any w vs k.2)
theorem Fields.patch_any : (fs : Fields) → fs.unprefixed = true →
    Ok (fun _ => True) (fs.Patch ρ ρ') (fs.fill ρ).wire (fs.fill ρ').wire
  | .nil, _ => ok_same _
  | .cons s fs, h =>
    have k := (Bool.and_eq_true _ _).mp h
    ok_fcons (fun _ _ _ => ⟨trivial, trivial⟩) (Schema.patch_any s k.1) (Fields.patch_any fs k.2)
end

end

/-! ### changing every part by a function -/

namespace Patch

variable {α β α' β' : Type}

/-- The encodable values are related to what `g` makes of them, by changes that keep lengths. -/
def Maps (r : Rel α β) (e : Enc α) (g : α → β) : Prop := ∀ x b, e x = some b → ∃ l, r x (g x) l ∧ SameLens l

theorem SameLens.nil : SameLens [] := fun _ m => nomatch m

theorem SameLens.join {l l' : List (Bytes × Bytes)} (h : SameLens l) (h' : SameLens l') : SameLens (l ++ l') := fun p m =>
  (List.mem_append.mp m).elim (h p) (h' p)

theorem maps_same (e : Enc α) : Maps same e (fun x => x) := fun _ _ _ => ⟨[], ⟨rfl, rfl⟩, SameLens.nil⟩

theorem maps_option {r : Rel α β} {e : Enc α} {g : α → β} (h : Maps r e g) : Maps (option r) (Enc.option e) (Option.map g)
  | none, _, _ => ⟨[], rfl, SameLens.nil⟩
  | some x, _, hb => by
    obtain ⟨_, q, _, hq, _⟩ := cat_inv hb
    exact h x q hq

theorem maps_nullable {r : Rel α β} {e : Enc α} {g : α → β} (h : Maps r e g) : Maps (option r) (Enc.nullable e) (Option.map g)
  | none, _, _ => ⟨[], rfl, SameLens.nil⟩
  | some x, b, hb => h x b hb

theorem maps_dynamic {r : Rel α β} {e : Enc α} {g : α → β} (S : LenPref) (len : α → Option Nat) (h : Maps r e g) :
    Maps r (Enc.dynamic S len e) g := fun x b hb => by
  have : ∃ q, e x = some q := by
    unfold Enc.dynamic at hb
    split at hb
    · cases hb
    · split at hb
      · obtain ⟨_, q, _, hq, _⟩ := cat_inv hb
        exact ⟨q, hq⟩
      · cases hb
  obtain ⟨q, hq⟩ := this
  exact h x q hq

theorem maps_padded {r : Rel α β} {e : Enc α} {g : α → β} (n : Nat) (h : Maps r e g) : Maps r (Enc.padded n e) g :=
  fun x _ hb => by
    obtain ⟨p, _, hp, _, _⟩ := cat_inv hb
    exact h x p hp

theorem maps_list {r : Rel α β} {e : Enc α} {g : α → β} (h : Maps r e g) : Maps (list r) (Enc.list e) (List.map g)
  | [], _, _ => ⟨[], rfl, SameLens.nil⟩
  | x :: xs, _, hb => by
    obtain ⟨p, q, hp, hq, _⟩ := cat_inv hb
    obtain ⟨l₁, h1, k1⟩ := h x p hp
    obtain ⟨l₂, h2, k2⟩ := maps_list h xs q hq
    exact ⟨l₁ ++ l₂, ⟨l₁, l₂, rfl, h1, h2⟩, SameLens.join k1 k2⟩

theorem maps_fcons {r : Rel α β} {r' : Rel α' β'} {e : Enc α} {f : Enc α'} {g : α → β} {g' : α' → β'} (h : Maps r e g)
    (h' : Maps r' f g') : Maps (prod r r') (Enc.fcons e f) (Prod.map g g') := fun x _ hb => by
  obtain ⟨p, q, hp, hq, _⟩ := cat_inv hb
  obtain ⟨l₁, h1, k1⟩ := h x.1 p hp
  obtain ⟨l₂, h2, k2⟩ := h' x.2 q hq
  exact ⟨l₁ ++ l₂, ⟨l₁, l₂, rfl, h1, h2⟩, SameLens.join k1 k2⟩

theorem maps_vcons {r : Rel α β} {r' : Rel α' β'} {e : Enc α} {f : TagWidth → Enc α'} {g : α → β} {g' : α' → β'} (tag : Nat)
    (w : TagWidth) (h : Maps r e g) (h' : Maps r' (f w) g') : Maps (sum r r') (Enc.vcons tag e f w) (Sum.map g g')
  | .inl x, _, hb => by
    obtain ⟨_, q, _, hq, _⟩ := cat_inv hb
    exact h x q hq
  | .inr x, b, hb => h' x b hb

theorem maps_part {e : Enc α} {e' : Enc β} {g : α → β}
    (h : ∀ x u, e x = some u → ∃ v, e' (g x) = some v ∧ v.length = u.length) : Maps (part e e') e g := fun x u hu => by
  obtain ⟨v, hv, hl⟩ := h x u hu
  refine ⟨[(u, v)], ⟨u, v, hu, hv, rfl⟩, fun p m => ?_⟩
  rw [List.mem_singleton.mp m]
  exact hl

end Patch

section
variable {ρ ρ' : Nat → Schema} {f : ∀ i, (ρ i).Val → (ρ' i).Val}

mutual
theorem Schema.patch_map (hf : ∀ i x u, (ρ i).wire x = some u → ∃ v, (ρ' i).wire (f i x) = some v ∧ v.length = u.length) :
    (s : Schema) → Maps (s.Patch ρ ρ') (s.fill ρ).wire (s.mapFill f)
  | .unit => maps_same _
  | .bool => maps_same _
  | .int _ => maps_same _
  | .f64 => maps_same _
  | .rangedInt _ _ _ => maps_same _
  | .rangedFloat _ _ => maps_same _
  | .zarithN => maps_same _
  | .zarithZ => maps_same _
  | .bytes => maps_same _
  | .vecU8 => maps_same _
  | .string => maps_same _
  | .fixedBytes _ => maps_same _
  | .fixedString _ => maps_same _
  | .option s => maps_option (Schema.patch_map hf s)
  | .nullable s => maps_nullable (Schema.patch_map hf s)
  | .dynamic S s => maps_dynamic S _ (Schema.patch_map hf s)
  | .vpadded _ s => Schema.patch_map hf s
  | .padded n s => maps_padded n (Schema.patch_map hf s)
  | .seq s => maps_list (Schema.patch_map hf s)
  | .fixSeq _ s => maps_list (Schema.patch_map hf s)
  | .limSeq _ s => maps_list (Schema.patch_map hf s)
  | .autobox s => Schema.patch_map hf s
  | .hole i => maps_part (hf i)
  | .cstyle _ _ => maps_same _
  | .data w vs => Variants.patch_map hf w vs
  | .record fs => Fields.patch_map hf fs
theorem Variants.patch_map (hf : ∀ i x u, (ρ i).wire x = some u → ∃ v, (ρ' i).wire (f i x) = some v ∧ v.length = u.length)
    (w : TagWidth) : (vs : Variants) → Maps (vs.Patch ρ ρ') ((vs.fill ρ).wire w) (vs.mapFill f)
  | .nil => maps_same _
  | .cons tag s vs => maps_vcons tag w (Schema.patch_map hf s) (Variants.patch_map hf w vs)
theorem Fields.patch_map (hf : ∀ i x u, (ρ i).wire x = some u → ∃ v, (ρ' i).wire (f i x) = some v ∧ v.length = u.length) :
    (fs : Fields) → Maps (fs.Patch ρ ρ') (fs.fill ρ).wire (fs.mapFill f)
  | .nil => maps_same _
  | .cons s fs => maps_fcons (Schema.patch_map hf s) (Fields.patch_map hf fs)
end

end

end Verif
