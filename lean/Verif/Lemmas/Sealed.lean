import Verif.Spec.Sealed
import Verif.Lemmas.Sound
import Verif.Lemmas.Reencode
import Verif.Lemmas.Recursive
/-
Decoding in two steps gives what decoding in one step gives.
-/
namespace Verif

variable {α β α' β' : Type}

/-- `d` accepts what `d'` accepts with a value that is related to one of `d`'s. -/
def TwoStep (L : Nat) (R : α' → α → Prop) (d' : D α') (d : D α) : Prop :=
  ∀ v : Bytes, v.length ≤ L → ∀ a rest, d v = .ok a rest ↔ ∃ a', d' v = .ok a' rest ∧ R a' a

theorem ReadsPrefix.short {d : D α} (h : ReadsPrefix d) {v r : Bytes} {a : α} {L : Nat} (hv : v.length ≤ L) (hd : d v = .ok a r) :
    r.length ≤ L := by
  obtain ⟨w, rfl⟩ := h _ _ _ hd
  rw [List.length_append] at hv
  omega

namespace TwoStep

variable {L : Nat} {R : α' → α → Prop} {d' : D α'} {d : D α}

theorem refl (d : D α) : TwoStep L (fun x y => x = y) d d := fun _ _ _ _ =>
  ⟨fun h => ⟨_, h, rfl⟩, fun ⟨_, h, e⟩ => e ▸ h⟩

theorem map {S : β' → β → Prop} {f' : α' → β'} {f : α → β} (h : TwoStep L R d' d)
    (hi : ∀ x' y, S (f' x') y ↔ ∃ x, y = f x ∧ R x' x) : TwoStep L S (f' <$> d') (f <$> d) := by
  intro v hv b rest
  rw [D.map_eq_ok]
  constructor
  · rintro ⟨a, h1, rfl⟩
    obtain ⟨a', h2, hR⟩ := (h v hv a rest).1 h1
    exact ⟨f' a', D.map_eq_ok.2 ⟨a', h2, rfl⟩, (hi _ _).2 ⟨a, rfl, hR⟩⟩
  · rintro ⟨b', h1, hS⟩
    obtain ⟨a', h2, rfl⟩ := D.map_eq_ok.1 h1
    obtain ⟨a, rfl, hR⟩ := (hi _ _).1 hS
    exact ⟨a, (h v hv a rest).2 ⟨a', h2, hR⟩, rfl⟩

/-- The same first step. -/
theorem first {γ : Type} {e : D γ} (he : ReadsPrefix e) {f' : γ → D α'} {f : γ → D α} (h : ∀ c, TwoStep L R (f' c) (f c)) :
    TwoStep L R (e >>= f') (e >>= f) := by
  intro v hv a rest
  rw [D.bind_eq_ok]
  constructor
  · rintro ⟨c, r, h1, h2⟩
    obtain ⟨a', h3, hR⟩ := (h c r (he.short hv h1) a rest).1 h2
    exact ⟨a', D.bind_eq_ok.2 ⟨c, r, h1, h3⟩, hR⟩
  · rintro ⟨a', h1, hR⟩
    obtain ⟨c, r, h2, h3⟩ := D.bind_eq_ok.1 h1
    exact ⟨c, r, h2, (h c r (he.short hv h2) a rest).2 ⟨a', h3, hR⟩⟩

theorem throw (e : ParseError) : TwoStep L R (D.throw e) (D.throw e) := fun _ _ _ _ =>
  ⟨nofun, fun ⟨_, h, _⟩ => nomatch h⟩

theorem panic : TwoStep L R D.panic D.panic := fun _ _ _ _ => ⟨nofun, fun ⟨_, h, _⟩ => nomatch h⟩

theorem pure {a' : α'} {a : α} (h : ∀ b, R a' b ↔ b = a) : TwoStep L R (Pure.pure a') (Pure.pure a) := by
  intro v _ b rest
  constructor
  · intro e
    obtain ⟨e1, e2⟩ := DecRes.ok.inj e
    subst e1; subst e2
    exact ⟨a', rfl, (h _).2 rfl⟩
  · rintro ⟨b', e, hR⟩
    obtain ⟨e1, e2⟩ := DecRes.ok.inj e
    subst e1; subst e2
    rw [(h _).1 hR]
    rfl

theorem ite {c : Prop} [Decidable c] {e' : D α'} {e : D α} (h : TwoStep L R d' d) (h' : TwoStep L R e' e) :
    TwoStep L R (if c then d' else e') (if c then d else e) := by
  split
  · exact h
  · exact h'

theorem ifEmpty {e' : D α'} {e : D α} (h : TwoStep L R d' d) (h' : TwoStep L R e' e) :
    TwoStep L R (D.ifEmpty d' e') (D.ifEmpty d e) := by
  intro v hv a rest
  unfold D.ifEmpty
  split
  · exact h v hv a rest
  · exact h' v hv a rest

/-- One after the other. -/
theorem pair {γ γ' : Type} {S : β' → β → Prop} {Q : γ' → γ → Prop} {e' : D β'} {e : D β} {f' : α' → β' → γ'} {f : α → β → γ}
    (hr : ReadsPrefix d') (h : TwoStep L R d' d) (h' : TwoStep L S e' e)
    (hi : ∀ x' y' z, Q (f' x' y') z ↔ ∃ x y, z = f x y ∧ R x' x ∧ S y' y) :
    TwoStep L Q (d' >>= fun x => e' >>= fun y => Pure.pure (f' x y)) (d >>= fun x => e >>= fun y => Pure.pure (f x y)) := by
  intro v hv c rest
  rw [D.bind_eq_ok]
  constructor
  · rintro ⟨a, r, h1, h2⟩
    obtain ⟨b, r', h3, h4⟩ := D.bind_eq_ok.1 h2
    obtain ⟨e1, e2⟩ := DecRes.ok.inj h4
    subst e1; subst e2
    obtain ⟨a', h5, hR⟩ := (h v hv a r).1 h1
    obtain ⟨b', h6, hS⟩ := (h' r (hr.short hv h5) b _).1 h3
    exact ⟨f' a' b', D.bind_eq_ok.2 ⟨a', r, h5, D.bind_eq_ok.2 ⟨b', _, h6, rfl⟩⟩, (hi _ _ _).2 ⟨a, b, rfl, hR, hS⟩⟩
  · rintro ⟨c', h1, hQ⟩
    obtain ⟨a', r, h2, h3⟩ := D.bind_eq_ok.1 h1
    obtain ⟨b', r', h4, h5⟩ := D.bind_eq_ok.1 h3
    obtain ⟨e1, e2⟩ := DecRes.ok.inj h5
    subst e1; subst e2
    obtain ⟨a, b, rfl, hR, hS⟩ := (hi _ _ _).1 hQ
    exact ⟨a, r, (h v hv a r).2 ⟨a', h2, hR⟩, D.bind_eq_ok.2 ⟨b, _, (h' r (hr.short hv h2) b _).2 ⟨b', h4, hS⟩, rfl⟩⟩

theorem window (n : Nat) (h : TwoStep L R d' d) : TwoStep L R (D.window n d') (D.window n d) := by
  intro v hv a rest
  have ht : (v.take n).length ≤ L := by rw [List.length_take]; omega
  rw [D.window_eq_ok]
  constructor
  · rintro ⟨h1, h2, h3⟩
    obtain ⟨a', h4, hR⟩ := (h _ ht a []).1 h2
    exact ⟨a', D.window_eq_ok.2 ⟨h1, h4, h3⟩, hR⟩
  · rintro ⟨a', h1, hR⟩
    obtain ⟨h1, h2, h3⟩ := D.window_eq_ok.1 h1
    exact ⟨h1, (h _ ht a []).2 ⟨a', h2, hR⟩, h3⟩

/-- Take the bytes and decode them later. -/
theorem later (n : Nat) (d : D α) :
    TwoStep L (fun b a => b.length ≤ L ∧ d b = .ok a []) (D.window n Dec.bytes) (D.window n d) := by
  intro v hv a rest
  have ht : (v.take n).length ≤ L := by rw [List.length_take]; omega
  rw [D.window_eq_ok]
  constructor
  · rintro ⟨h1, h2, h3⟩
    exact ⟨v.take n, D.window_eq_ok.2 ⟨h1, rfl, h3⟩, ht, h2⟩
  · rintro ⟨a', h1, hl, hR⟩
    obtain ⟨h1, h2, h3⟩ := D.window_eq_ok.1 h1
    obtain ⟨e1, _⟩ := DecRes.ok.inj (h2 : DecRes.ok (v.take n) [] = _)
    rw [← e1] at hR
    exact ⟨h1, hR, h3⟩

theorem cons_iff {x' : α'} {y' : List α'} {z : List α} :
    Pairwise2 R (x' :: y') z ↔ ∃ x y, z = x :: y ∧ R x' x ∧ Pairwise2 R y' y := by
  cases z with
  | nil => exact ⟨fun h => h.elim, fun ⟨_, _, e, _⟩ => nomatch e⟩
  | cons x y =>
    exact ⟨fun h => ⟨x, y, rfl, h⟩, fun ⟨_, _, e, h⟩ => by obtain ⟨e1, e2⟩ := List.cons.inj e; subst e1; subst e2; exact h⟩

theorem nil_iff {z : List α} : Pairwise2 R [] z ↔ z = [] := by
  cases z with
  | nil => exact ⟨fun _ => rfl, fun _ => trivial⟩
  | cons _ _ => exact ⟨fun h => h.elim, fun h => nomatch h⟩

theorem length_eq : ∀ {xs : List α'} {ys : List α}, Pairwise2 R xs ys → xs.length = ys.length
  | [], [], _ => rfl
  | _ :: _, _ :: _, h => congrArg (· + 1) (length_eq h.2)
  | [], _ :: _, h => h.elim
  | _ :: _, [], h => h.elim

theorem upTo (hr : ReadsPrefix d') (h : TwoStep L R d' d) : ∀ k, TwoStep L (Pairwise2 R) (D.upTo d' k) (D.upTo d k)
  | 0 => pure fun _ => nil_iff
  | k + 1 => ifEmpty (pure fun _ => nil_iff) (pair hr h (upTo hr h k) fun _ _ _ => cons_iff)

theorem manyMax (e : ParseError) (hr : ReadsPrefix d') (h : TwoStep L R d' d) : ∀ k,
    TwoStep L (Pairwise2 R) (D.manyMax e d' k) (D.manyMax e d k)
  | 0 => ifEmpty (pure fun _ => nil_iff) fun _ _ _ _ =>
    ⟨fun h => (by obtain ⟨_, _, _, h⟩ := D.bind_eq_ok.1 h; cases h), fun ⟨_, h, _⟩ => (by obtain ⟨_, _, _, h⟩ := D.bind_eq_ok.1 h; cases h)⟩
  | k + 1 => ifEmpty (pure fun _ => nil_iff) (pair hr h (manyMax e hr h k) fun _ _ _ => cons_iff)

theorem many_cons {d : D α} {v : Bytes} (hv : v ≠ []) {l : List α} {rest : Bytes} : D.many d v = .ok l rest ↔
    ∃ a r as, d v = .ok a r ∧ r.length < v.length ∧ D.many d r = .ok as rest ∧ l = a :: as := by
  rw [D.many, if_neg hv]
  constructor
  · intro h
    cases hd : d v with
    | ok a r =>
      simp only [hd] at h
      split at h
      · rename_i hl
        obtain ⟨as, r', h1, h2⟩ := DecRes.bind_eq_ok.1 h
        obtain ⟨e1, e2⟩ := DecRes.ok.inj h2
        subst e1; subst e2
        exact ⟨a, r, as, rfl, hl, h1, rfl⟩
      · split at h <;> cases h
    | _ => simp only [hd] at h; cases h
  · rintro ⟨a, r, as, h1, h2, h3, rfl⟩
    simp only [h1, if_pos h2, h3]
    rfl

theorem many (h : TwoStep L R d' d) : ∀ n, n ≤ L → TwoStep n (Pairwise2 R) (fun v => D.many d' v) (fun v => D.many d v) := by
  intro n
  induction n using Nat.strongRecOn with
  | _ n ih =>
    intro hn v hv l rest
    by_cases hv0 : v = []
    · subst hv0
      show D.many d [] = _ ↔ ∃ a', D.many d' [] = _ ∧ _
      rw [D.many, D.many, if_pos rfl, if_pos rfl]
      constructor
      · intro e
        obtain ⟨e1, e2⟩ := DecRes.ok.inj e
        subst e1; subst e2
        exact ⟨[], rfl, trivial⟩
      · rintro ⟨a', e, hR⟩
        obtain ⟨e1, e2⟩ := DecRes.ok.inj e
        subst e1; subst e2
        rw [nil_iff.1 hR]
    · show D.many d v = _ ↔ ∃ a', D.many d' v = _ ∧ _
      rw [many_cons hv0]
      constructor
      · rintro ⟨a, r, as, h1, h2, h3, rfl⟩
        obtain ⟨a', h4, hR⟩ := (h v (by omega) a r).1 h1
        obtain ⟨as', h5, hRs⟩ := (ih r.length (by omega) (by omega) r (Nat.le_refl _) as rest).1 h3
        exact ⟨a' :: as', (many_cons hv0).2 ⟨a', r, as', h4, h2, h5, rfl⟩, hR, hRs⟩
      · rintro ⟨l', h1, hRl⟩
        obtain ⟨a', r, as', h2, h3, h4, rfl⟩ := (many_cons hv0).1 h1
        obtain ⟨a, as, rfl, hR, hRs⟩ := cons_iff.1 hRl
        exact ⟨a, r, as, (h v (by omega) a r).2 ⟨a', h2, hR⟩, h3,
          (ih r.length (by omega) (by omega) r (Nat.le_refl _) as rest).2 ⟨as', h4, hRs⟩, rfl⟩

/-- One more step that does not look at the value, unless in the same way. -/
theorem thenLast {f' : α' → D α'} {f : α → D α} (hr : ReadsPrefix d') (h : TwoStep L R d' d)
    (hf' : ∀ x v y r, f' x v = .ok y r → y = x) (hf : ∀ x v y r, f x v = .ok y r → y = x)
    (hff : ∀ x' x, R x' x → ∀ v r, f' x' v = .ok x' r ↔ f x v = .ok x r) : TwoStep L R (d' >>= f') (d >>= f) := by
  intro v hv a rest
  rw [D.bind_eq_ok]
  constructor
  · rintro ⟨x, r, h1, h2⟩
    have := hf _ _ _ _ h2
    subst this
    obtain ⟨a', h3, hR⟩ := (h v hv _ r).1 h1
    exact ⟨a', D.bind_eq_ok.2 ⟨a', r, h3, (hff _ _ hR _ _).2 h2⟩, hR⟩
  · rintro ⟨a', h1, hR⟩
    obtain ⟨x, r, h2, h3⟩ := D.bind_eq_ok.1 h1
    have := hf' _ _ _ _ h3
    subst this
    exact ⟨a, r, (h v hv _ r).2 ⟨_, h2, hR⟩, (hff _ _ hR _ _).1 h3⟩

theorem some_iff {x' : α'} {z : Option α} : Both R (some x') z ↔ ∃ x, z = some x ∧ R x' x := by
  cases z with
  | none => exact ⟨fun h => h.elim, fun ⟨_, e, _⟩ => nomatch e⟩
  | some x => exact ⟨fun h => ⟨x, rfl, h⟩, fun ⟨_, e, h⟩ => by cases e; exact h⟩

theorem none_iff {z : Option α} : Both R none z ↔ z = none := by
  cases z with
  | none => exact ⟨fun _ => rfl, fun _ => trivial⟩
  | some _ => exact ⟨fun h => h.elim, fun h => nomatch h⟩

theorem inl_iff {S : β' → β → Prop} {x' : α'} {z : α ⊕ β} : Either2 R S (.inl x') z ↔ ∃ x, z = .inl x ∧ R x' x := by
  cases z with
  | inl x => exact ⟨fun h => ⟨x, rfl, h⟩, fun ⟨_, e, h⟩ => by cases e; exact h⟩
  | inr _ => exact ⟨fun h => h.elim, fun ⟨_, e, _⟩ => nomatch e⟩

theorem inr_iff {S : β' → β → Prop} {x' : β'} {z : α ⊕ β} : Either2 R S (.inr x') z ↔ ∃ x, z = .inr x ∧ S x' x := by
  cases z with
  | inr x => exact ⟨fun h => ⟨x, rfl, h⟩, fun ⟨_, e, h⟩ => by cases e; exact h⟩
  | inl _ => exact ⟨fun h => h.elim, fun ⟨_, e, _⟩ => nomatch e⟩

end TwoStep

theorem Dec.tag_readsPrefix (w : TagWidth) (tags : List Nat) : ReadsPrefix (Dec.tag w tags) :=
  .bind (.map _ (.take _)) fun _ => .ite (.pure _) (.ite (.throw _) (.throw _))

theorem Dec.lenPref_readsPrefix (S : LenPref) : ReadsPrefix (Dec.lenPref S) :=
  .bind (.map _ (.take _)) fun _ => .ite (.pure _) (.throw _)

theorem VSealed.tags : {vs vs' : Variants} → VSealed vs vs' → vs'.tags = vs.tags
  | _, _, .nil => rfl
  | _, _, .cons tag _ hs => congrArg (tag :: ·) hs.tags

/-- The bytes are an encoding of the value, as a whole. -/
def DecAll (cfg : Cfg) (L : Nat) (t : Schema) (b : Bytes) (x : t.Val) : Prop := b.length ≤ L ∧ t.dec cfg b = .ok x []

mutual
theorem Sealed.twoStep (cfg : Cfg) (L : Nat) : {s s' : Schema} → (h : Sealed s s') →
    TwoStep L (h.Opens (DecAll cfg L)) (s'.dec cfg) (s.dec cfg)
  | _, _, .same s => .refl (s.dec cfg)
  | _, _, .prefixed S s => .first (Dec.lenPref_readsPrefix S) fun n => .later n (s.dec cfg)
  | _, _, .reserved n s => by
    intro v hv a rest
    show Dec.vpadded cfg n (s.dec cfg) v = _ ↔ ∃ a', Dec.vpadded cfg n Dec.bytes v = _ ∧ _
    unfold Dec.vpadded
    split
    · exact TwoStep.later (v.length - n) (s.dec cfg) v hv a rest
    · split <;> exact ⟨nofun, fun ⟨_, h, _⟩ => nomatch h⟩
  | _, _, .option h => .first (Dec.tag_readsPrefix _ _) fun _ =>
    .ite (.map (h.twoStep cfg L) fun _ _ => TwoStep.some_iff) (.pure fun _ => TwoStep.none_iff)
  | _, _, .nullable h => .ifEmpty (.pure fun _ => TwoStep.none_iff) (.map (h.twoStep cfg L) fun _ _ => TwoStep.some_iff)
  | _, _, .dynamic S h => .first (Dec.lenPref_readsPrefix S) fun n => .window n (h.twoStep cfg L)
  | _, _, .vpadded n (s := s) (s' := s') h => by
    intro v hv a rest
    show Dec.vpadded cfg n (s.dec cfg) v = _ ↔ ∃ a', Dec.vpadded cfg n (s'.dec cfg) v = _ ∧ _
    unfold Dec.vpadded
    split
    · exact TwoStep.window (v.length - n) (h.twoStep cfg L) v hv a rest
    · split <;> exact ⟨nofun, fun ⟨_, h, _⟩ => nomatch h⟩
  | _, _, .padded n (s' := s') h => by
    have key : ∀ {γ : Type} (x : γ) (v : Bytes) (y : γ) (r : Bytes),
        ((do let p ← D.take n; if cfg.checkPadding ∧ p ≠ List.replicate n 0 then D.throw (.token (.nonNullPaddingByte p)) else pure x : D γ) v = .ok y r ↔
          y = x ∧ ∃ p, D.take n v = .ok p r ∧ ¬(cfg.checkPadding ∧ p ≠ List.replicate n 0)) := by
      intro γ x v y r
      rw [D.bind_eq_ok]
      constructor
      · rintro ⟨p, r', h1, h2⟩
        split at h2
        · cases h2
        · rename_i hc
          obtain ⟨e1, e2⟩ := DecRes.ok.inj h2
          subst e1; subst e2
          exact ⟨rfl, p, h1, hc⟩
      · rintro ⟨rfl, p, h1, h2⟩
        exact ⟨p, r, h1, by rw [if_neg h2]; rfl⟩
    exact TwoStep.thenLast (s'.readsPrefix cfg) (h.twoStep cfg L) (fun x v y r h => ((key x v y r).1 h).1) (fun x v y r h => ((key x v y r).1 h).1)
      fun x' x _ v r => by rw [key, key]; exact ⟨fun h => ⟨rfl, h.2⟩, fun h => ⟨rfl, h.2⟩⟩
  | _, _, .seq h => TwoStep.many (h.twoStep cfg L) L (Nat.le_refl _)
  | _, _, .fixSeq n (s' := s') h => by
    have key : ∀ {γ : Type} (x : List γ) (v : Bytes) (y : List γ) (r : Bytes),
        ((if x.length = n then pure x else D.throw (.external (.lengthViolation (.wrongLength n x.length))) : D (List γ)) v = .ok y r ↔
          y = x ∧ x.length = n ∧ v = r) := by
      intro γ x v y r
      split
      · rename_i hl
        exact ⟨fun h => by obtain ⟨e1, e2⟩ := DecRes.ok.inj h; exact ⟨e1.symm, hl, e2⟩, fun ⟨e1, _, e2⟩ => by rw [e1, e2]; rfl⟩
      · rename_i hl
        exact ⟨nofun, fun h => absurd h.2.1 hl⟩
    exact TwoStep.thenLast (ReadsPrefix.upTo (s'.readsPrefix cfg) n) (TwoStep.upTo (s'.readsPrefix cfg) (h.twoStep cfg L) n)
      (fun x v y r h => ((key x v y r).1 h).1) (fun x v y r h => ((key x v y r).1 h).1)
      fun x' x hR v r => (key x' v x' r).trans (.trans
        ⟨fun h => ⟨rfl, (TwoStep.length_eq hR).symm.trans h.2.1, h.2.2⟩, fun h => ⟨rfl, (TwoStep.length_eq hR).trans h.2.1, h.2.2⟩⟩ (key x v x r).symm)
  | _, _, .limSeq n (s' := s') h => TwoStep.manyMax _ (s'.readsPrefix cfg) (h.twoStep cfg L) n
  | _, _, .autobox h => h.twoStep cfg L
  | _, _, .data w (vs := vs) (vs' := vs') h => by
    show TwoStep L _ (Dec.data w vs'.tags (vs'.dec cfg)) (Dec.data w vs.tags (vs.dec cfg))
    rw [h.tags]
    exact .first (Dec.tag_readsPrefix _ _) (h.twoStep cfg L)
  | _, _, .record h => h.twoStep cfg L
theorem VSealed.twoStep (cfg : Cfg) (L : Nat) : {vs vs' : Variants} → (h : VSealed vs vs') → (t : Nat) →
    TwoStep L (h.Opens (DecAll cfg L)) (vs'.dec cfg t) (vs.dec cfg t)
  | _, _, .nil, _ => .panic
  | _, _, .cons _ h hs, t =>
    .ite (.map (h.twoStep cfg L) fun _ _ => TwoStep.inl_iff) (.map (hs.twoStep cfg L t) fun _ _ => TwoStep.inr_iff)
theorem FSealed.twoStep (cfg : Cfg) (L : Nat) : {fs fs' : Fields} → (h : FSealed fs fs') →
    TwoStep L (h.Opens (DecAll cfg L)) (fs'.dec cfg) (fs.dec cfg)
  | _, _, .nil => .pure fun _ => ⟨fun _ => rfl, fun _ => trivial⟩
  | _, _, .cons (s' := s') h hs => .pair (s'.readsPrefix cfg) (h.twoStep cfg L) (hs.twoStep cfg L) fun _ _ z =>
    ⟨fun hh => ⟨z.1, z.2, rfl, hh⟩, fun ⟨_, _, e, hh⟩ => by subst e; exact hh⟩
end

/-! ### encoding -/

/-- The bytes are the encoding of the value. -/
def EncAll (t : Schema) (b : Bytes) (x : t.Val) : Prop := t.wire x = some b

theorem Enc.list_opens {R : α' → α → Prop} {e' : Enc α'} {e : Enc α} (h : ∀ x' x, R x' x → e' x' = e x) :
    ∀ xs' xs, Pairwise2 R xs' xs → Enc.list e' xs' = Enc.list e xs
  | [], [], _ => rfl
  | x' :: xs', x :: xs, hR => by
    show Enc.cat (e' x') (Enc.list e' xs') = Enc.cat (e x) (Enc.list e xs)
    rw [h x' x hR.1, list_opens h xs' xs hR.2]
  | [], _ :: _, hR => hR.elim
  | _ :: _, [], hR => hR.elim

theorem Enc.option_opens {R : α' → α → Prop} {e' : Enc α'} {e : Enc α} (h : ∀ x' x, R x' x → e' x' = e x) :
    ∀ o' o, Both R o' o → Enc.option e' o' = Enc.option e o ∧ Enc.nullable e' o' = Enc.nullable e o
  | none, none, _ => ⟨rfl, rfl⟩
  | some x', some x, hR => by
    have := h x' x hR
    exact ⟨by show Enc.cat _ (e' x') = Enc.cat _ (e x); rw [this], this⟩
  | none, some _, hR => hR.elim
  | some _, none, hR => hR.elim

theorem Enc.dynamic_opens {S : LenPref} {e' : Enc α'} {e : Enc α} {x' : α'} {x : α} (h : e' x' = e x) :
    Enc.dynamic S (fun x => (e' x).map List.length) e' x' = Enc.dynamic S (fun x => (e x).map List.length) e x := by
  simp only [Enc.dynamic, h]

mutual
theorem Sealed.wire_eq : {s s' : Schema} → (h : Sealed s s') → ∀ x' x, h.Opens EncAll x' x → s'.wire x' = s.wire x
  | _, _, .same _, _, _, e => by cases e; rfl
  | _, _, .prefixed _ s, x', _, e => Enc.dynamic_opens (e' := Enc.bytes) (x' := x') (e := s.wire) (Eq.symm e)
  | _, _, .reserved _ _, _, _, e => Eq.symm e
  | _, _, .option h, x', x, e => (Enc.option_opens h.wire_eq x' x e).1
  | _, _, .nullable h, x', x, e => (Enc.option_opens h.wire_eq x' x e).2
  | _, _, .dynamic _ (s := s) (s' := s') h, x', x, e => Enc.dynamic_opens (e' := s'.wire) (e := s.wire) (h.wire_eq x' x e)
  | _, _, .vpadded _ h, x', x, e => h.wire_eq x' x e
  | _, _, .padded n (s := s) (s' := s') h, x', x, e => by
    show Enc.cat (s'.wire x') _ = Enc.cat (s.wire x) _
    rw [h.wire_eq x' x e]
  | _, _, .seq h, x', x, e => Enc.list_opens h.wire_eq x' x e
  | _, _, .fixSeq _ h, x', x, e => Enc.list_opens h.wire_eq x' x e
  | _, _, .limSeq _ h, x', x, e => Enc.list_opens h.wire_eq x' x e
  | _, _, .autobox h, x', x, e => h.wire_eq x' x e
  | _, _, .data w h, x', x, e => h.wire_eq w x' x e
  | _, _, .record h, x', x, e => h.wire_eq x' x e
theorem VSealed.wire_eq : {vs vs' : Variants} → (h : VSealed vs vs') → ∀ w x' x, h.Opens EncAll x' x → vs'.wire w x' = vs.wire w x
  | _, _, .nil, _, x, _, _ => nomatch x
  | _, _, .cons tag (s := s) (s' := s') h hs, w, .inl x', .inl x, e => by
    show Enc.cat _ (s'.wire x') = Enc.cat _ (s.wire x)
    rw [h.wire_eq x' x e]
  | _, _, .cons _ _ hs, w, .inr x', .inr x, e => hs.wire_eq w x' x e
  | _, _, .cons _ _ _, _, .inl _, .inr _, e => e.elim
  | _, _, .cons _ _ _, _, .inr _, .inl _, e => e.elim
theorem FSealed.wire_eq : {fs fs' : Fields} → (h : FSealed fs fs') → ∀ x' x, h.Opens EncAll x' x → fs'.wire x' = fs.wire x
  | _, _, .nil, _, _, _ => rfl
  | _, _, .cons (s := s) (s' := s') (fs := fs) (fs' := fs') h hs, x', x, e => by
    show Enc.cat (s'.wire x'.1) (fs'.wire x'.2) = Enc.cat (s.wire x.1) (fs.wire x.2)
    rw [h.wire_eq x'.1 x.1 e.1, hs.wire_eq x'.2 x.2 e.2]
end

theorem Enc.cat_parts {a b : Option Bytes} {c : Bytes} (h : Enc.cat a b = some c) : (∃ x, a = some x) ∧ ∃ y, b = some y := by
  cases a with
  | none => cases h
  | some x =>
    cases b with
    | none => cases h
    | some y => exact ⟨⟨x, rfl⟩, y, rfl⟩

theorem Enc.list_seal {R : α' → α → Prop} {e : Enc α} (h : ∀ x b, e x = some b → ∃ x', R x' x) :
    ∀ xs b, Enc.list e xs = some b → ∃ xs', Pairwise2 R xs' xs
  | [], _, _ => ⟨[], trivial⟩
  | x :: xs, _, hb => by
    obtain ⟨⟨b1, h1⟩, b2, h2⟩ := Enc.cat_parts (show Enc.cat (e x) (Enc.list e xs) = _ from hb)
    obtain ⟨x', hx⟩ := h x b1 h1
    obtain ⟨xs', hxs⟩ := list_seal h xs b2 h2
    exact ⟨x' :: xs', hx, hxs⟩

theorem Enc.dynamic_some {S : LenPref} {e : Enc α} {x : α} {b : Bytes}
    (h : Enc.dynamic S (fun x => (e x).map List.length) e x = some b) : ∃ c, e x = some c := by
  cases hx : e x with
  | none => simp only [Enc.dynamic, hx, Option.map_none] at h; cases h
  | some c => exact ⟨c, rfl⟩

mutual
theorem Sealed.seal : {s s' : Schema} → (h : Sealed s s') → ∀ x b, s.wire x = some b → ∃ x', h.Opens EncAll x' x
  | _, _, .same _, x, _, _ => ⟨x, rfl⟩
  | _, _, .prefixed _ s, x, _, e => Enc.dynamic_some (e := s.wire) e
  | _, _, .reserved _ _, _, b, e => ⟨b, e⟩
  | _, _, .option h, none, _, _ => ⟨none, trivial⟩
  | _, _, .option h, some x, _, e => by
    obtain ⟨_, b, hb⟩ := Enc.cat_parts e
    obtain ⟨x', hx⟩ := h.seal x b hb
    exact ⟨some x', hx⟩
  | _, _, .nullable h, none, _, _ => ⟨none, trivial⟩
  | _, _, .nullable h, some x, b, e => by
    obtain ⟨x', hx⟩ := h.seal x b e
    exact ⟨some x', hx⟩
  | _, _, .dynamic _ (s := s) h, x, _, e => by
    obtain ⟨c, hc⟩ := Enc.dynamic_some (e := s.wire) e
    exact h.seal x c hc
  | _, _, .vpadded _ h, x, b, e => h.seal x b e
  | _, _, .padded _ h, x, _, e => by
    obtain ⟨⟨c, hc⟩, _⟩ := Enc.cat_parts e
    exact h.seal x c hc
  | _, _, .seq h, x, b, e => Enc.list_seal h.seal x b e
  | _, _, .fixSeq _ h, x, b, e => Enc.list_seal h.seal x b e
  | _, _, .limSeq _ h, x, b, e => Enc.list_seal h.seal x b e
  | _, _, .autobox h, x, b, e => h.seal x b e
  | _, _, .data w h, x, b, e => h.seal w x b e
  | _, _, .record h, x, b, e => h.seal x b e
theorem VSealed.seal : {vs vs' : Variants} → (h : VSealed vs vs') → ∀ w x b, vs.wire w x = some b → ∃ x', h.Opens EncAll x' x
  | _, _, .nil, _, x, _, _ => nomatch x
  | _, _, .cons _ h _, _, .inl x, _, e => by
    obtain ⟨_, b, hb⟩ := Enc.cat_parts e
    obtain ⟨x', hx⟩ := h.seal x b hb
    exact ⟨.inl x', hx⟩
  | _, _, .cons _ _ hs, w, .inr x, b, e => by
    obtain ⟨x', hx⟩ := hs.seal w x b e
    exact ⟨.inr x', hx⟩
theorem FSealed.seal : {fs fs' : Fields} → (h : FSealed fs fs') → ∀ x b, fs.wire x = some b → ∃ x', h.Opens EncAll x' x
  | _, _, .nil, _, _, _ => ⟨(), trivial⟩
  | _, _, .cons h hs, x, _, e => by
    obtain ⟨⟨b1, h1⟩, b2, h2⟩ := Enc.cat_parts e
    obtain ⟨x', hx⟩ := h.seal x.1 b1 h1
    obtain ⟨y', hy⟩ := hs.seal x.2 b2 h2
    exact ⟨(x', y'), hx, hy⟩
end

/-! ### other relations between bytes and parts -/

theorem Pairwise2.imp {R Q : α' → α → Prop} (h : ∀ x' x, R x' x → Q x' x) : ∀ xs' xs, Pairwise2 R xs' xs → Pairwise2 Q xs' xs
  | [], [], _ => trivial
  | x' :: xs', x :: xs, hR => ⟨h x' x hR.1, imp h xs' xs hR.2⟩
  | [], _ :: _, hR => hR.elim
  | _ :: _, [], hR => hR.elim

theorem Both.imp {R Q : α' → α → Prop} (h : ∀ x' x, R x' x → Q x' x) : ∀ o' o, Both R o' o → Both Q o' o
  | none, none, _ => trivial
  | some x', some x, hR => h x' x hR
  | none, some _, hR => hR.elim
  | some _, none, hR => hR.elim

mutual
/-- Only what happens to parts that can be written in Rust matters. -/
theorem Sealed.opens_imp {O O' : (t : Schema) → Bytes → t.Val → Prop} (hO : ∀ t b x, t.sized = true → O t b x → O' t b x) :
    {s s' : Schema} → (h : Sealed s s') → s.sized = true → ∀ x' x, h.Opens O x' x → h.Opens O' x' x
  | _, _, .same _, _, _, _, e => e
  | _, _, .prefixed _ s, hz, x', x, e => hO s x' x hz e
  | _, _, .reserved _ s, hz, x', x, e => hO s x' x (Bool.and_eq_true_iff.1 hz).2 e
  | _, _, .option h, hz, x', x, e => Both.imp (h.opens_imp hO hz) x' x e
  | _, _, .nullable h, hz, x', x, e => Both.imp (h.opens_imp hO hz) x' x e
  | _, _, .dynamic _ h, hz, x', x, e => h.opens_imp hO hz x' x e
  | _, _, .vpadded _ h, hz, x', x, e => h.opens_imp hO (Bool.and_eq_true_iff.1 hz).2 x' x e
  | _, _, .padded _ h, hz, x', x, e => h.opens_imp hO (Bool.and_eq_true_iff.1 hz).2 x' x e
  | _, _, .seq h, hz, x', x, e => Pairwise2.imp (h.opens_imp hO hz) x' x e
  | _, _, .fixSeq _ h, hz, x', x, e => Pairwise2.imp (h.opens_imp hO hz) x' x e
  | _, _, .limSeq _ h, hz, x', x, e => Pairwise2.imp (h.opens_imp hO hz) x' x e
  | _, _, .autobox h, hz, x', x, e => h.opens_imp hO hz x' x e
  | _, _, .data _ h, hz, x', x, e => h.opens_imp hO hz x' x e
  | _, _, .record h, hz, x', x, e => h.opens_imp hO hz x' x e
theorem VSealed.opens_imp {O O' : (t : Schema) → Bytes → t.Val → Prop} (hO : ∀ t b x, t.sized = true → O t b x → O' t b x) :
    {vs vs' : Variants} → (h : VSealed vs vs') → vs.sized = true → ∀ x' x, h.Opens O x' x → h.Opens O' x' x
  | _, _, .nil, _, _, _, e => e
  | _, _, .cons _ h _, hz, .inl x', .inl x, e => h.opens_imp hO (Bool.and_eq_true_iff.1 hz).1 x' x e
  | _, _, .cons _ _ hs, hz, .inr x', .inr x, e => hs.opens_imp hO (Bool.and_eq_true_iff.1 hz).2 x' x e
  | _, _, .cons _ _ _, _, .inl _, .inr _, e => e.elim
  | _, _, .cons _ _ _, _, .inr _, .inl _, e => e.elim
theorem FSealed.opens_imp {O O' : (t : Schema) → Bytes → t.Val → Prop} (hO : ∀ t b x, t.sized = true → O t b x → O' t b x) :
    {fs fs' : Fields} → (h : FSealed fs fs') → fs.sized = true → ∀ x' x, h.Opens O x' x → h.Opens O' x' x
  | _, _, .nil, _, _, _, e => e
  | _, _, .cons h hs, hz, x', x, e =>
    ⟨h.opens_imp hO (Bool.and_eq_true_iff.1 hz).1 x'.1 x.1 e.1, hs.opens_imp hO (Bool.and_eq_true_iff.1 hz).2 x'.2 x.2 e.2⟩
end

mutual
theorem Sealed.opens_any {O O' : (t : Schema) → Bytes → t.Val → Prop} (hO : ∀ t b x, O t b x → O' t b x) :
    {s s' : Schema} → (h : Sealed s s') → ∀ x' x, h.Opens O x' x → h.Opens O' x' x
  | _, _, .same _, _, _, e => e
  | _, _, .prefixed _ s, x', x, e => hO s x' x e
  | _, _, .reserved _ s, x', x, e => hO s x' x e
  | _, _, .option h, x', x, e => Both.imp (h.opens_any hO) x' x e
  | _, _, .nullable h, x', x, e => Both.imp (h.opens_any hO) x' x e
  | _, _, .dynamic _ h, x', x, e => h.opens_any hO x' x e
  | _, _, .vpadded _ h, x', x, e => h.opens_any hO x' x e
  | _, _, .padded _ h, x', x, e => h.opens_any hO x' x e
  | _, _, .seq h, x', x, e => Pairwise2.imp (h.opens_any hO) x' x e
  | _, _, .fixSeq _ h, x', x, e => Pairwise2.imp (h.opens_any hO) x' x e
  | _, _, .limSeq _ h, x', x, e => Pairwise2.imp (h.opens_any hO) x' x e
  | _, _, .autobox h, x', x, e => h.opens_any hO x' x e
  | _, _, .data _ h, x', x, e => h.opens_any hO x' x e
  | _, _, .record h, x', x, e => h.opens_any hO x' x e
theorem VSealed.opens_any {O O' : (t : Schema) → Bytes → t.Val → Prop} (hO : ∀ t b x, O t b x → O' t b x) :
    {vs vs' : Variants} → (h : VSealed vs vs') → ∀ x' x, h.Opens O x' x → h.Opens O' x' x
  | _, _, .nil, _, _, e => e
  | _, _, .cons _ h _, .inl x', .inl x, e => h.opens_any hO x' x e
  | _, _, .cons _ _ hs, .inr x', .inr x, e => hs.opens_any hO x' x e
  | _, _, .cons _ _ _, .inl _, .inr _, e => e.elim
  | _, _, .cons _ _ _, .inr _, .inl _, e => e.elim
theorem FSealed.opens_any {O O' : (t : Schema) → Bytes → t.Val → Prop} (hO : ∀ t b x, O t b x → O' t b x) :
    {fs fs' : Fields} → (h : FSealed fs fs') → ∀ x' x, h.Opens O x' x → h.Opens O' x' x
  | _, _, .nil, _, _, e => e
  | _, _, .cons h hs, x', x, e =>
    ⟨h.opens_any hO x'.1 x.1 e.1, hs.opens_any hO x'.2 x.2 e.2⟩
end

/-! ### unfolding further -/

theorem Pairwise2.map {f' : α' → β'} {f : α → β} {R : α' → α → Prop} {Q : β' → β → Prop} (h : ∀ x' x, R x' x → Q (f' x') (f x)) :
    ∀ xs' xs, Pairwise2 R xs' xs → Pairwise2 Q (xs'.map f') (xs.map f)
  | [], [], _ => trivial
  | x' :: xs', x :: xs, hR => ⟨h x' x hR.1, map h xs' xs hR.2⟩
  | [], _ :: _, hR => hR.elim
  | _ :: _, [], hR => hR.elim

theorem Both.map {f' : α' → β'} {f : α → β} {R : α' → α → Prop} {Q : β' → β → Prop} (h : ∀ x' x, R x' x → Q (f' x') (f x)) :
    ∀ o' o, Both R o' o → Both Q (o'.map f') (o.map f)
  | none, none, _ => trivial
  | some x', some x, hR => h x' x hR
  | none, some _, hR => hR.elim
  | some _, none, hR => hR.elim

section

variable {O : (t : Schema) → Bytes → t.Val → Prop} {ρ ρ' ρ₂ ρ₂' : Nat → Schema} {e : ∀ i, Sealed (ρ i) (ρ' i)}
  {e₂ : ∀ i, Sealed (ρ₂ i) (ρ₂' i)} {f : ∀ i, (ρ i).Val → (ρ₂ i).Val} {f' : ∀ i, (ρ' i).Val → (ρ₂' i).Val}

mutual
theorem Schema.opens_fill (hf : ∀ i x' x, (e i).Opens O x' x → (e₂ i).Opens O (f' i x') (f i x)) : ∀ (s : Schema) x' x,
    (s.sealFill e).Opens O x' x → (s.sealFill e₂).Opens O (s.mapFill f' x') (s.mapFill f x)
  | .unit, _, _, h | .bool, _, _, h | .int _, _, _, h | .f64, _, _, h | .rangedInt _ _ _, _, _, h | .rangedFloat _ _, _, _, h
  | .zarithN, _, _, h | .zarithZ, _, _, h | .bytes, _, _, h | .vecU8, _, _, h | .string, _, _, h | .fixedBytes _, _, _, h
  | .fixedString _, _, _, h | .cstyle _ _, _, _, h => h
  | .option s, x', x, h | .nullable s, x', x, h => Both.map (s.opens_fill hf) x' x h
  | .dynamic _ s, x', x, h | .vpadded _ s, x', x, h | .padded _ s, x', x, h | .autobox s, x', x, h => s.opens_fill hf x' x h
  | .seq s, x', x, h | .fixSeq _ s, x', x, h | .limSeq _ s, x', x, h => Pairwise2.map (s.opens_fill hf) x' x h
  | .hole i, x', x, h => hf i x' x h
  | .data _ vs, x', x, h => vs.opens_fill hf x' x h
  | .record fs, x', x, h => fs.opens_fill hf x' x h
theorem Variants.opens_fill (hf : ∀ i x' x, (e i).Opens O x' x → (e₂ i).Opens O (f' i x') (f i x)) : ∀ (vs : Variants) x' x,
    (vs.sealFill e).Opens O x' x → (vs.sealFill e₂).Opens O (vs.mapFill f' x') (vs.mapFill f x)
  | .nil, x, _, _ => nomatch x
  | .cons _ s _, .inl x', .inl x, h => s.opens_fill hf x' x h
  | .cons _ _ vs, .inr x', .inr x, h => vs.opens_fill hf x' x h
  | .cons _ _ _, .inl _, .inr _, h => h.elim
  | .cons _ _ _, .inr _, .inl _, h => h.elim
theorem Fields.opens_fill (hf : ∀ i x' x, (e i).Opens O x' x → (e₂ i).Opens O (f' i x') (f i x)) : ∀ (fs : Fields) x' x,
    (fs.sealFill e).Opens O x' x → (fs.sealFill e₂).Opens O (fs.mapFill f' x') (fs.mapFill f x)
  | .nil, _, _, h => h
  | .cons s fs, x', x, h => ⟨s.opens_fill hf x'.1 x.1 h.1, fs.opens_fill hf x'.2 x.2 h.2⟩
end

mutual
theorem Sealed.opens_fill (hf : ∀ i x' x, (e i).Opens O x' x → (e₂ i).Opens O (f' i x') (f i x))
    (hO : ∀ (t : Schema) b x, O (t.fill ρ) b x → O (t.fill ρ₂) b (t.mapFill f x)) : {s s' : Schema} → (w : Sealed s s') → ∀ x' x,
    (w.fill e).Opens O x' x → (w.fill e₂).Opens O (s'.mapFill f' x') (s.mapFill f x)
  | _, _, .same s, x', x, h => s.opens_fill hf x' x h
  | _, _, .prefixed _ s, x', x, h => hO s x' x h
  | _, _, .reserved _ s, x', x, h => hO s x' x h
  | _, _, .option w, x', x, h => Both.map (w.opens_fill hf hO) x' x h
  | _, _, .nullable w, x', x, h => Both.map (w.opens_fill hf hO) x' x h
  | _, _, .dynamic _ w, x', x, h => w.opens_fill hf hO x' x h
  | _, _, .vpadded _ w, x', x, h => w.opens_fill hf hO x' x h
  | _, _, .padded _ w, x', x, h => w.opens_fill hf hO x' x h
  | _, _, .seq w, x', x, h => Pairwise2.map (w.opens_fill hf hO) x' x h
  | _, _, .fixSeq _ w, x', x, h => Pairwise2.map (w.opens_fill hf hO) x' x h
  | _, _, .limSeq _ w, x', x, h => Pairwise2.map (w.opens_fill hf hO) x' x h
  | _, _, .autobox w, x', x, h => w.opens_fill hf hO x' x h
  | _, _, .data _ w, x', x, h => w.opens_fill hf hO x' x h
  | _, _, .record w, x', x, h => w.opens_fill hf hO x' x h
theorem VSealed.opens_fill (hf : ∀ i x' x, (e i).Opens O x' x → (e₂ i).Opens O (f' i x') (f i x))
    (hO : ∀ (t : Schema) b x, O (t.fill ρ) b x → O (t.fill ρ₂) b (t.mapFill f x)) : {vs vs' : Variants} → (w : VSealed vs vs') → ∀ x' x,
    (w.fill e).Opens O x' x → (w.fill e₂).Opens O (vs'.mapFill f' x') (vs.mapFill f x)
  | _, _, .nil, x, _, _ => nomatch x
  | _, _, .cons _ w _, .inl x', .inl x, h => w.opens_fill hf hO x' x h
  | _, _, .cons _ _ ws, .inr x', .inr x, h => ws.opens_fill hf hO x' x h
  | _, _, .cons _ _ _, .inl _, .inr _, h => h.elim
  | _, _, .cons _ _ _, .inr _, .inl _, h => h.elim
theorem FSealed.opens_fill (hf : ∀ i x' x, (e i).Opens O x' x → (e₂ i).Opens O (f' i x') (f i x))
    (hO : ∀ (t : Schema) b x, O (t.fill ρ) b x → O (t.fill ρ₂) b (t.mapFill f x)) : {fs fs' : Fields} → (w : FSealed fs fs') → ∀ x' x,
    (w.fill e).Opens O x' x → (w.fill e₂).Opens O (fs'.mapFill f' x') (fs.mapFill f x)
  | _, _, .nil, _, _, h => h
  | _, _, .cons w ws, x', x, h => ⟨w.opens_fill hf hO x'.1 x.1 h.1, ws.opens_fill hf hO x'.2 x.2 h.2⟩
end

end

namespace Decls

variable {d d' : Decls} (w : ∀ i, Sealed (d.body i) (d'.body i))

/-- Values of families one of which leaves parts of the other undecoded that are related. -/
def Opens (O : (t : Schema) → Bytes → t.Val → Prop) {i : Nat} (a' : d'.Val i) (a : d.Val i) : Prop :=
  ∃ n x' x, a' = d'.val n x' ∧ a = d.val n x ∧ (sealed w n i).Opens O x' x

theorem opens_lift {O : (t : Schema) → Bytes → t.Val → Prop}
    (hO : ∀ n (t : Schema) b x, O (t.fill (d.unfold n)) b x → O (t.fill (d.unfold (n + 1))) b (t.mapFill (d.lift n) x)) : ∀ n i x' x,
    (sealed w n i).Opens O x' x → (sealed w (n + 1) i).Opens O (d'.lift n i x') (d.lift n i x)
  | 0, _, x, _, _ => nomatch x
  | n + 1, i, x', x, h => (w i).opens_fill (opens_lift hO n) (hO n) x' x h

theorem opens_deeper {O : (t : Schema) → Bytes → t.Val → Prop}
    (hO : ∀ n (t : Schema) b x, O (t.fill (d.unfold n)) b x → O (t.fill (d.unfold (n + 1))) b (t.mapFill (d.lift n) x)) {n m i : Nat}
    (hm : n ≤ m) {x' : (d'.unfold n i).Val} {x : (d.unfold n i).Val} (h : (sealed w n i).Opens O x' x) :
    ∃ y' y, d'.val m y' = d'.val n x' ∧ d.val m y = d.val n x ∧ (sealed w m i).Opens O y' y := by
  induction hm with
  | refl => exact ⟨x', x, rfl, rfl, h⟩
  | step _ ih =>
    obtain ⟨y', y, h1, h2, h3⟩ := ih
    exact ⟨d'.lift _ i y', d.lift _ i y, (d'.val_lift _ y').trans h1, (d.val_lift _ y).trans h2, opens_lift w hO _ i y' y h3⟩

end Decls

/-! ### where estimates are right -/

theorem Pairwise2.all {R : α' → α → Prop} {P' : α' → Prop} {P : α → Prop} (h : ∀ x' x, R x' x → P x → P' x') :
    ∀ xs' xs, Pairwise2 R xs' xs → (∀ x ∈ xs, P x) → ∀ x' ∈ xs', P' x'
  | x' :: xs', x :: xs, hR, hp, y, hy => by
    cases hy with
    | head => exact h x' x hR.1 (hp x (.head _))
    | tail _ hy => exact all h xs' xs hR.2 (fun z hz => hp z (.tail _ hz)) y hy
  | [], _, _, _, _, hy => nomatch hy
  | _ :: _, [], hR, _, _, _ => hR.elim

theorem Both.all {R : α' → α → Prop} {P' : α' → Prop} {P : α → Prop} (h : ∀ x' x, R x' x → P x → P' x') :
    ∀ o' o, Both R o' o → (∀ x, o = some x → P x) → ∀ x', o' = some x' → P' x'
  | some x', some x, hR, hp, _, rfl => h x' x hR (hp x rfl)
  | none, _, _, _, _, hy => nomatch hy
  | some _, none, hR, _, _, _ => hR.elim

/-- What is valid and has right estimates still is with encoded parts. -/
def StaysOk (P' Q' E' : α' → Prop) (P Q E : α → Prop) (x' : α') (x : α) : Prop := (P x → P' x') ∧ (Q x → Q' x') ∧ (E x → E' x')

theorem StaysOk.both {R : α' → α → Prop} {P' Q' E' : α' → Prop} {P Q E : α → Prop}
    (h : ∀ x' x, R x' x → StaysOk P' Q' E' P Q E x' x) (o' : Option α') (o : Option α) (hR : Both R o' o) :
    StaysOk (fun o' => ∀ x', o' = some x' → P' x') (fun o' => ∀ x', o' = some x' → Q' x') (fun o' => ∀ x', o' = some x' → E' x')
      (fun o => ∀ x, o = some x → P x) (fun o => ∀ x, o = some x → Q x) (fun o => ∀ x, o = some x → E x) o' o :=
  ⟨Both.all (fun x' x hx => (h x' x hx).1) o' o hR, Both.all (fun x' x hx => (h x' x hx).2.1) o' o hR,
    Both.all (fun x' x hx => (h x' x hx).2.2) o' o hR⟩

theorem StaysOk.list {R : α' → α → Prop} {P' Q' E' : α' → Prop} {P Q E : α → Prop}
    (h : ∀ x' x, R x' x → StaysOk P' Q' E' P Q E x' x) (o' : List α') (o : List α) (hR : Pairwise2 R o' o) :
    StaysOk (fun o' => ∀ x' ∈ o', P' x') (fun o' => ∀ x' ∈ o', Q' x') (fun o' => ∀ x' ∈ o', E' x')
      (fun o => ∀ x ∈ o, P x) (fun o => ∀ x ∈ o, Q x) (fun o => ∀ x ∈ o, E x) o' o :=
  ⟨Pairwise2.all (fun x' x hx => (h x' x hx).1) o' o hR, Pairwise2.all (fun x' x hx => (h x' x hx).2.1) o' o hR,
    Pairwise2.all (fun x' x hx => (h x' x hx).2.2) o' o hR⟩

mutual
theorem Sealed.keeps {O : (t : Schema) → Bytes → t.Val → Prop} : {s s' : Schema} → (w : Sealed s s') → ∀ x' x, w.Opens O x' x →
    StaysOk s'.Valid s'.PrefixOk s'.EstOk s.Valid s.PrefixOk s.EstOk x' x
  | _, _, .same _, _, _, e => by cases e; exact ⟨id, id, id⟩
  | _, _, .prefixed _ _, _, _, _ => ⟨fun _ => trivial, fun _ => trivial, fun _ => trivial⟩
  | _, _, .reserved _ _, _, _, _ => ⟨fun _ => trivial, fun _ => trivial, fun _ => trivial⟩
  | _, _, .option w, x', x, h => StaysOk.both w.keeps x' x h
  | _, _, .nullable w, x', x, h => StaysOk.both w.keeps x' x h
  | _, _, .dynamic _ w, x', x, h => ⟨(w.keeps x' x h).1, (w.keeps x' x h).2.2, (w.keeps x' x h).2.2⟩
  | _, _, .vpadded _ w, x', x, h => w.keeps x' x h
  | _, _, .padded _ w, x', x, h => w.keeps x' x h
  | _, _, .seq w, x', x, h => StaysOk.list w.keeps x' x h
  | _, _, .fixSeq _ w, x', x, h =>
    have k := StaysOk.list w.keeps x' x h
    ⟨fun hv => ⟨(TwoStep.length_eq h).trans hv.1, k.1 hv.2⟩, k.2.1, k.2.2⟩
  | _, _, .limSeq n w, x', x, h =>
    have k := StaysOk.list w.keeps x' x h
    ⟨fun hv => ⟨(TwoStep.length_eq h).symm ▸ hv.1, k.1 hv.2⟩, k.2.1, k.2.2⟩
  | _, _, .autobox w, x', x, h => w.keeps x' x h
  | _, _, .data _ w, x', x, h => w.keeps x' x h
  | _, _, .record w, x', x, h => w.keeps x' x h
theorem VSealed.keeps {O : (t : Schema) → Bytes → t.Val → Prop} : {vs vs' : Variants} → (w : VSealed vs vs') → ∀ x' x, w.Opens O x' x →
    StaysOk vs'.Valid vs'.PrefixOk vs'.EstOk vs.Valid vs.PrefixOk vs.EstOk x' x
  | _, _, .nil, x, _, _ => nomatch x
  | _, _, .cons _ w _, .inl x', .inl x, h => w.keeps x' x h
  | _, _, .cons _ _ ws, .inr x', .inr x, h => ws.keeps x' x h
  | _, _, .cons _ _ _, .inl _, .inr _, h => h.elim
  | _, _, .cons _ _ _, .inr _, .inl _, h => h.elim
theorem FSealed.keeps {O : (t : Schema) → Bytes → t.Val → Prop} : {fs fs' : Fields} → (w : FSealed fs fs') → ∀ x' x, w.Opens O x' x →
    StaysOk fs'.Valid fs'.PrefixOk fs'.EstOk fs.Valid fs.PrefixOk fs.EstOk x' x
  | _, _, .nil, _, _, _ => ⟨id, id, id⟩
  | _, _, .cons w ws, x', x, h =>
    ⟨fun hv => ⟨(w.keeps x'.1 x.1 h.1).1 hv.1, (ws.keeps x'.2 x.2 h.2).1 hv.2⟩,
      fun hv => ⟨(w.keeps x'.1 x.1 h.1).2.1 hv.1, (ws.keeps x'.2 x.2 h.2).2.1 hv.2⟩,
      fun hv => ⟨(w.keeps x'.1 x.1 h.1).2.2 hv.1, (ws.keeps x'.2 x.2 h.2).2.2 hv.2⟩⟩
end

theorem Pairwise2.imp_of {R Q : α' → α → Prop} {P : α → Prop} (h : ∀ x' x, P x → R x' x → Q x' x) :
    ∀ xs' xs, (∀ x ∈ xs, P x) → Pairwise2 R xs' xs → Pairwise2 Q xs' xs
  | [], [], _, _ => trivial
  | x' :: xs', x :: xs, hp, hR => ⟨h x' x (hp x (.head _)) hR.1, imp_of h xs' xs (fun y hy => hp y (.tail _ hy)) hR.2⟩
  | [], _ :: _, _, hR => hR.elim
  | _ :: _, [], _, hR => hR.elim

theorem Both.imp_of {R Q : α' → α → Prop} {P : α → Prop} (h : ∀ x' x, P x → R x' x → Q x' x) :
    ∀ o' o, (∀ x, o = some x → P x) → Both R o' o → Both Q o' o
  | none, none, _, _ => trivial
  | some x', some x, hp, hR => h x' x (hp x rfl) hR
  | none, some _, _, hR => hR.elim
  | some _, none, _, hR => hR.elim

mutual
/-- Only what happens to valid parts with right estimates matters. -/
theorem Sealed.opens_of_ok {O O' : (t : Schema) → Bytes → t.Val → Prop}
    (hO : ∀ t b x, t.Valid x → t.PrefixOk x → O t b x → O' t b x) :
    {s s' : Schema} → (w : Sealed s s') → ∀ x' x, s.Valid x ∧ s.PrefixOk x → w.Opens O x' x → w.Opens O' x' x
  | _, _, .same _, _, _, _, e => e
  | _, _, .prefixed _ s, x', x, hp, e => hO s x' x hp.1 (Schema.EstOk.prefixOk hp.2) e
  | _, _, .reserved _ s, x', x, hp, e => hO s x' x hp.1 hp.2 e
  | _, _, .option w, x', x, hp, e => Both.imp_of (w.opens_of_ok hO) x' x (fun y hy => ⟨hp.1 y hy, hp.2 y hy⟩) e
  | _, _, .nullable w, x', x, hp, e => Both.imp_of (w.opens_of_ok hO) x' x (fun y hy => ⟨hp.1 y hy, hp.2 y hy⟩) e
  | _, _, .dynamic _ w, x', x, hp, e => w.opens_of_ok hO x' x ⟨hp.1, Schema.EstOk.prefixOk hp.2⟩ e
  | _, _, .vpadded _ w, x', x, hp, e => w.opens_of_ok hO x' x hp e
  | _, _, .padded _ w, x', x, hp, e => w.opens_of_ok hO x' x hp e
  | _, _, .seq w, x', x, hp, e => Pairwise2.imp_of (w.opens_of_ok hO) x' x (fun y hy => ⟨hp.1 y hy, hp.2 y hy⟩) e
  | _, _, .fixSeq _ w, x', x, hp, e => Pairwise2.imp_of (w.opens_of_ok hO) x' x (fun y hy => ⟨hp.1.2 y hy, hp.2 y hy⟩) e
  | _, _, .limSeq _ w, x', x, hp, e => Pairwise2.imp_of (w.opens_of_ok hO) x' x (fun y hy => ⟨hp.1.2 y hy, hp.2 y hy⟩) e
  | _, _, .autobox w, x', x, hp, e => w.opens_of_ok hO x' x hp e
  | _, _, .data _ w, x', x, hp, e => w.opens_of_ok hO x' x hp e
  | _, _, .record w, x', x, hp, e => w.opens_of_ok hO x' x hp e
theorem VSealed.opens_of_ok {O O' : (t : Schema) → Bytes → t.Val → Prop}
    (hO : ∀ t b x, t.Valid x → t.PrefixOk x → O t b x → O' t b x) :
    {vs vs' : Variants} → (w : VSealed vs vs') → ∀ x' x, vs.Valid x ∧ vs.PrefixOk x → w.Opens O x' x → w.Opens O' x' x
  | _, _, .nil, _, _, _, e => e
  | _, _, .cons _ w _, .inl x', .inl x, hp, e => w.opens_of_ok hO x' x hp e
  | _, _, .cons _ _ ws, .inr x', .inr x, hp, e => ws.opens_of_ok hO x' x hp e
  | _, _, .cons _ _ _, .inl _, .inr _, _, e => e.elim
  | _, _, .cons _ _ _, .inr _, .inl _, _, e => e.elim
theorem FSealed.opens_of_ok {O O' : (t : Schema) → Bytes → t.Val → Prop}
    (hO : ∀ t b x, t.Valid x → t.PrefixOk x → O t b x → O' t b x) :
    {fs fs' : Fields} → (w : FSealed fs fs') → ∀ x' x, fs.Valid x ∧ fs.PrefixOk x → w.Opens O x' x → w.Opens O' x' x
  | _, _, .nil, _, _, _, e => e
  | _, _, .cons w ws, x', x, hp, e =>
    ⟨w.opens_of_ok hO x'.1 x.1 ⟨hp.1.1, hp.2.1⟩ e.1, ws.opens_of_ok hO x'.2 x.2 ⟨hp.1.2, hp.2.2⟩ e.2⟩
end

end Verif
