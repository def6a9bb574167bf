import Verif.Lemmas.Recursive
import Verif.Spec.Unfold
/-
The code of a recursive type is the code of its definition calling itself.
-/
namespace Verif

/-! ### values -/

section
variable {ρ : Nat → Schema} {V : Nat → Type} {f : ∀ i, (ρ i).Val → V i}
mutual
theorem Schema.mapIn_inj (h : ∀ i x y, f i x = f i y → x = y) : ∀ (s : Schema) (x y : (s.fill ρ).Val),
    s.mapIn f x = s.mapIn f y → x = y
  | .unit, _, _, e | .bool, _, _, e | .int _, _, _, e | .f64, _, _, e | .rangedInt _ _ _, _, _, e | .rangedFloat _ _, _, _, e
  | .zarithN, _, _, e | .zarithZ, _, _, e | .bytes, _, _, e | .vecU8, _, _, e | .string, _, _, e | .fixedBytes _, _, _, e
  | .fixedString _, _, _, e | .cstyle _ _, _, _, e => e
  | .hole i, x, y, e => h i x y e
  | .option s, x, y, e | .nullable s, x, y, e => by
    cases x <;> cases y
    · rfl
    · cases e
    · cases e
    · exact congrArg some (s.mapIn_inj h _ _ (Option.some.inj e))
  | .dynamic _ s, x, y, e | .vpadded _ s, x, y, e | .padded _ s, x, y, e | .autobox s, x, y, e => s.mapIn_inj h x y e
  | .seq s, x, y, e | .fixSeq _ s, x, y, e | .limSeq _ s, x, y, e =>
    List.map_inj_right (f := s.mapIn f) (fun a b => s.mapIn_inj h a b) |>.mp e
  | .data _ vs, x, y, e => vs.mapIn_inj h x y e
  | .record fs, x, y, e => fs.mapIn_inj h x y e
theorem Variants.mapIn_inj (h : ∀ i x y, f i x = f i y → x = y) : ∀ (vs : Variants) (x y : (vs.fill ρ).Val),
    vs.mapIn f x = vs.mapIn f y → x = y
  | .nil, x, _, _ => nomatch x
  | .cons _ s vs, x, y, e => by
    cases x <;> cases y
    · exact congrArg Sum.inl (s.mapIn_inj h _ _ (Sum.inl.inj e))
    · cases e
    · cases e
    · exact congrArg Sum.inr (vs.mapIn_inj h _ _ (Sum.inr.inj e))
theorem Fields.mapIn_inj (h : ∀ i x y, f i x = f i y → x = y) : ∀ (fs : Fields) (x y : (fs.fill ρ).Val),
    fs.mapIn f x = fs.mapIn f y → x = y
  | .nil, _, _, e => e
  | .cons s fs, x, y, e => by
    have e := Prod.mk.inj e
    exact Prod.ext (s.mapIn_inj h _ _ e.1) (fs.mapIn_inj h _ _ e.2)
end
end

namespace Decls

variable (d : Decls)

theorem val_deeper {i m : Nat} (x : (d.unfold m i).Val) : ∀ k, ∃ y : (d.unfold (m + k) i).Val, d.val (m + k) y = d.val m x
  | 0 => ⟨x, rfl⟩
  | k + 1 => by
    obtain ⟨y, hy⟩ := val_deeper x k
    exact ⟨d.lift (m + k) i y, (d.val_lift (m + k) y).trans hy⟩

end Decls

/-- Whatever has values of the recursive types as parts is made of a deep enough unfolding. -/
def Reaches (d : Decls) {α : Nat → Type} {β : Type} (f : ∀ n, α n → β) (y : β) : Prop := ∃ N, ∀ n, N ≤ n → ∃ x, f n x = y

theorem Reaches.list {d : Decls} {α : Nat → Type} {β : Type} {f : ∀ n, α n → β} (h : ∀ y, Reaches d f y) :
    ∀ ys : List β, Reaches d (fun n => List.map (f n)) ys
  | [] => ⟨0, fun _ _ => ⟨[], rfl⟩⟩
  | y :: ys => by
    obtain ⟨N, h1⟩ := h y
    obtain ⟨K, h2⟩ := list h ys
    refine ⟨max N K, fun n hn => ?_⟩
    obtain ⟨x, rfl⟩ := h1 n (by omega)
    obtain ⟨xs, rfl⟩ := h2 n (by omega)
    exact ⟨x :: xs, rfl⟩

theorem Reaches.opt {d : Decls} {α : Nat → Type} {β : Type} {f : ∀ n, α n → β} (h : ∀ y, Reaches d f y) :
    ∀ y : Option β, Reaches d (fun n => Option.map (f n)) y
  | none => ⟨0, fun _ _ => ⟨none, rfl⟩⟩
  | some y => by
    obtain ⟨N, h1⟩ := h y
    refine ⟨N, fun n hn => ?_⟩
    obtain ⟨x, rfl⟩ := h1 n hn
    exact ⟨some x, rfl⟩

section
variable (d : Decls)

mutual
theorem Schema.reaches : ∀ (s : Schema) (y : s.ValIn d.Val),
    Reaches d (α := fun n => (s.fill (d.unfold n)).Val) (fun n => s.mapIn fun _ x => d.val n x) y
  | .unit, y | .bool, y | .int _, y | .f64, y | .rangedInt _ _ _, y | .rangedFloat _ _, y
  | .zarithN, y | .zarithZ, y | .bytes, y | .vecU8, y | .string, y | .fixedBytes _, y
  | .fixedString _, y | .cstyle _ _, y => ⟨0, fun _ _ => ⟨y, rfl⟩⟩
  | .hole i, y => by
    obtain ⟨m, x, rfl⟩ := d.exists_val (i := i) y
    refine ⟨m, fun n hn => ?_⟩
    obtain ⟨k, rfl⟩ := Nat.exists_eq_add_of_le hn
    exact d.val_deeper x k
  | .option s, y | .nullable s, y => Reaches.opt s.reaches y
  | .dynamic _ s, y | .vpadded _ s, y | .padded _ s, y | .autobox s, y => s.reaches y
  | .seq s, y | .fixSeq _ s, y | .limSeq _ s, y => Reaches.list s.reaches y
  | .data _ vs, y => vs.reaches y
  | .record fs, y => fs.reaches y
theorem Variants.reaches : ∀ (vs : Variants) (y : vs.ValIn d.Val),
    Reaches d (α := fun n => (vs.fill (d.unfold n)).Val) (fun n => vs.mapIn fun _ x => d.val n x) y
  | .nil, y => nomatch y
  | .cons _ s _, .inl y => by
    obtain ⟨N, h⟩ := s.reaches y
    refine ⟨N, fun n hn => ?_⟩
    obtain ⟨x, rfl⟩ := h n hn
    exact ⟨.inl x, rfl⟩
  | .cons _ _ vs, .inr y => by
    obtain ⟨N, h⟩ := vs.reaches y
    refine ⟨N, fun n hn => ?_⟩
    obtain ⟨x, rfl⟩ := h n hn
    exact ⟨.inr x, rfl⟩
theorem Fields.reaches : ∀ (fs : Fields) (y : fs.ValIn d.Val),
    Reaches d (α := fun n => (fs.fill (d.unfold n)).Val) (fun n => fs.mapIn fun _ x => d.val n x) y
  | .nil, y => ⟨0, fun _ _ => ⟨y, rfl⟩⟩
  | .cons s fs, (y, z) => by
    obtain ⟨N, h1⟩ := s.reaches y
    obtain ⟨K, h2⟩ := fs.reaches z
    refine ⟨max N K, fun n hn => ?_⟩
    obtain ⟨x, rfl⟩ := h1 n (by omega)
    obtain ⟨w, rfl⟩ := h2 n (by omega)
    exact ⟨(x, w), rfl⟩
end
end

namespace Decls

variable (d : Decls)

theorem unroll_surj {i : Nat} (y : (d.body i).ValIn d.Val) : ∃ a : d.Val i, d.unroll a = y := by
  obtain ⟨N, h⟩ := (d.body i).reaches d y
  obtain ⟨x, hx⟩ := h N (Nat.le_refl _)
  exact ⟨d.val (N + 1) x, hx⟩

theorem unroll_inj {i : Nat} (a b : d.Val i) (h : d.unroll a = d.unroll b) : a = b := by
  obtain ⟨n, x, rfl⟩ := d.exists_val a
  obtain ⟨m, y, rfl⟩ := d.exists_val b
  obtain ⟨x', hx⟩ := d.val_deeper x (m + 1)
  obtain ⟨y', hy⟩ := d.val_deeper y (n + 1)
  have e : m + (n + 1) = n + (m + 1) := by omega
  rw [← hx, ← hy] at h ⊢
  clear hx hy
  revert y'
  rw [e]
  intro y' h
  have : x' = y' := (d.body i).mapIn_inj (f := fun _ z => d.val (n + m) z) (fun _ _ _ e => d.val_inj e) x' y' h
  rw [this]

end Decls

/-! ### code -/

section
variable {ρ : Nat → Schema} {V : Nat → Type} {f : ∀ i, (ρ i).Val → V i} {c : ∀ i, Codec (V i)}
mutual
theorem Schema.simIn (cfg : Cfg) (h : ∀ i, Codec.Sim (f i) ((ρ i).codec cfg) (c i)) :
    ∀ s : Schema, Codec.Sim (s.mapIn f) ((s.fill ρ).codec cfg) (s.codecIn cfg c)
  | .unit => .refl _
  | .bool => .refl _
  | .int _ => .refl _
  | .f64 => .refl _
  | .rangedInt _ _ _ => .refl _
  | .rangedFloat _ _ => .refl _
  | .zarithN => .refl _
  | .zarithZ => .refl _
  | .bytes => .refl _
  | .vecU8 => .refl _
  | .string => .refl _
  | .fixedBytes _ => .refl _
  | .fixedString _ => .refl _
  | .option s => .option (s.simIn cfg h)
  | .nullable s => .nullable (s.simIn cfg h)
  | .dynamic S s => .dynamic cfg S (s.simIn cfg h)
  | .vpadded n s => .vpadded cfg n (s.simIn cfg h)
  | .padded n s => .padded cfg n (s.simIn cfg h)
  | .seq s => .seq (s.simIn cfg h)
  | .fixSeq n s => .fixSeq n (s.simIn cfg h)
  | .limSeq n s => .limSeq n (s.simIn cfg h)
  | .autobox s => .autobox (s.simIn cfg h)
  | .hole i => h i
  | .cstyle _ _ => .refl _
  | .data w vs => .data w (vs.simIn cfg h)
  | .record fs => .record (fs.simIn cfg h)
theorem Variants.simIn (cfg : Cfg) (h : ∀ i, Codec.Sim (f i) ((ρ i).codec cfg) (c i)) :
    ∀ vs : Variants, VCodec.Sim (vs.mapIn f) ((vs.fill ρ).codec cfg) (vs.codecIn cfg c)
  | .nil => .nil
  | .cons tag s vs => .cons tag (s.simIn cfg h) (vs.simIn cfg h)
theorem Fields.simIn (cfg : Cfg) (h : ∀ i, Codec.Sim (f i) ((ρ i).codec cfg) (c i)) :
    ∀ fs : Fields, FCodec.Sim (fs.mapIn f) ((fs.fill ρ).codec cfg) (fs.codecIn cfg c)
  | .nil => .nil
  | .cons s fs => .cons (s.simIn cfg h) (fs.simIn cfg h)
end
end

/-! ### continuity of parsing -/

section
variable {σ ε : Type} {α β γ : Nat → Type} {α' β' γ' : Type}

/-- From any start, all but finitely many of the runs have the outcome of the limit. -/
def Ev (f : ∀ n, α n → α') (m : ∀ n, M σ ε (α n)) (m' : M σ ε α') : Prop :=
  ∀ s, ∃ N, ∀ n, N ≤ n → (f n <$> m n) s = m' s

/-- The same for code that depends on a value. -/
def EvK (f : ∀ n, α n → α') (g : ∀ n, β n → β') (k : ∀ n, α n → M σ ε (β n)) (k' : α' → M σ ε β') : Prop :=
  ∀ a' s, ∃ N, ∀ n, N ≤ n → ∀ a, f n a = a' → (g n <$> k n a) s = k' a' s

namespace Ev

variable {f : ∀ n, α n → α'} {g : ∀ n, β n → β'} {h : ∀ n, γ n → γ'}

theorem toK (h : Ev g m m') : EvK f g (fun n _ => m n) (fun _ => m') := fun _ s =>
  let ⟨N, hN⟩ := h s
  ⟨N, fun n hn _ _ => hN n hn⟩

theorem const (m : M σ ε α') : Ev (fun _ x => x) (fun _ => m) m := fun s => ⟨0, fun _ _ => by
  dsimp only
  rw [M.map_run]
  cases m s <;> rfl⟩

theorem bind {m : ∀ n, M σ ε (α n)} {m' : M σ ε α'} {k : ∀ n, α n → M σ ε (β n)} {k' : α' → M σ ε β'}
    (h : Ev f m m') (hk : EvK f g k k') : Ev g (fun n => m n >>= k n) (m' >>= k') := by
  intro s
  obtain ⟨N, hN⟩ := h s
  cases hm : m' s with
  | ok a' s' =>
    obtain ⟨K, hK⟩ := hk a' s'
    refine ⟨max N K, fun n hn => ?_⟩
    have h1 := hN n (by omega)
    dsimp only
    rw [M.bind_run, hm, M.map_run, M.bind_run]
    rw [hm, M.map_run] at h1
    revert h1
    cases m n s with
    | ok a s'' =>
      intro h1
      obtain ⟨e1, e2⟩ := Out.ok.inj h1
      subst e2
      exact hK n (by omega) a e1
    | _ => exact fun h1 => nomatch h1
  | _ =>
    refine ⟨N, fun n hn => ?_⟩
    have h1 := hN n hn
    dsimp only
    rw [M.bind_run, hm, M.map_run, M.bind_run]
    rw [hm, M.map_run] at h1
    revert h1
    cases m n s with
    | ok _ _ => exact fun h1 => nomatch h1
    | _ => intro h1; cases h1 <;> rfl

theorem bind_same (m : M σ ε α') {k : ∀ n, α' → M σ ε (β n)} {k' : α' → M σ ε β'}
    (hk : ∀ a, Ev g (fun n => k n a) (k' a)) : Ev g (fun n => m >>= k n) (m >>= k') :=
  bind (const m) fun a' s =>
    let ⟨N, hN⟩ := hk a' s
    ⟨N, fun n hn a e => by cases e; exact hN n hn⟩

theorem ite {c : Prop} [Decidable c] {m k : ∀ n, M σ ε (β n)} {m' k' : M σ ε β'} (h : Ev g m m') (h' : Ev g k k') :
    Ev g (fun n => if c then m n else k n) (if c then m' else k') := by
  split
  · exact h
  · exact h'

theorem panic : Ev g (fun _ => M.panic) (M.panic : M σ ε β') := fun _ => ⟨0, fun _ _ => rfl⟩
theorem throw (e : ε) : Ev g (fun _ => M.throw e) (M.throw e : M σ ε β') := fun _ => ⟨0, fun _ _ => rfl⟩
theorem pure {b : ∀ n, β n} {b' : β'} (h : ∀ n, g n (b n) = b') : Ev g (fun n => Pure.pure (b n)) (Pure.pure b' : M σ ε β') :=
  fun s => ⟨0, fun n _ => congrArg (fun b => Out.ok b s) (h n)⟩

end Ev

namespace EvK

variable {f : ∀ n, α n → α'} {g : ∀ n, β n → β'} {h : ∀ n, γ n → γ'}

theorem pure {b : ∀ n, α n → β n} {b' : α' → β'} (h : ∀ n a, g n (b n a) = b' (f n a)) :
    EvK f g (fun n a => Pure.pure (b n a)) (fun a' => (Pure.pure (b' a') : M σ ε β')) :=
  fun a' s => ⟨0, fun n _ a e => by
    subst e
    exact congrArg (fun b => Out.ok b s) (h n a)⟩

/-- It is enough to look at each value of the limit and the values that give it. -/
theorem bind {m : ∀ n, α n → M σ ε (β n)} {m' : α' → M σ ε β'} {k : ∀ n, α n → β n → M σ ε (γ n)} {k' : α' → β' → M σ ε γ'}
    (hm : EvK f g m m') (hk : ∀ a', ∀ b' s, ∃ N, ∀ n, N ≤ n → ∀ a, f n a = a' → ∀ b, g n b = b' → (h n <$> k n a b) s = k' a' b' s) :
    EvK f h (fun n a => m n a >>= k n a) (fun a' => m' a' >>= k' a') := by
  intro a' s
  obtain ⟨N, hN⟩ := hm a' s
  cases hm : m' a' s with
  | ok b' s' =>
    obtain ⟨K, hK⟩ := hk a' b' s'
    refine ⟨max N K, fun n hn a e => ?_⟩
    have h1 := hN n (by omega) a e
    dsimp only
    rw [M.bind_run, hm, M.map_run, M.bind_run]
    rw [hm, M.map_run] at h1
    revert h1
    cases m n a s with
    | ok b s'' =>
      intro h1
      obtain ⟨e1, e2⟩ := Out.ok.inj h1
      subst e2
      exact hK n (by omega) a e b e1
    | _ => exact fun h1 => nomatch h1
  | _ =>
    refine ⟨N, fun n hn a e => ?_⟩
    have h1 := hN n hn a e
    dsimp only
    rw [M.bind_run, hm, M.map_run, M.bind_run]
    rw [hm, M.map_run] at h1
    revert h1
    cases m n a s with
    | ok _ _ => exact fun h1 => nomatch h1
    | _ => intro h1; cases h1 <;> rfl

theorem iterN {body : ∀ n, α n → M σ ε (α n ⊕ β n)} {body' : α' → M σ ε (α' ⊕ β')}
    (hb : EvK f (fun n => Sum.map (f n) (g n)) body body') : ∀ (r : Nat) (a' : α') (s : σ) (o : Out σ ε β'),
    Verif.iterN body' r a' s = some o → ∃ N, ∀ n, N ≤ n → ∀ a, f n a = a' →
      ∃ o', Verif.iterN (body n) r a s = some o' ∧ (o'.bind fun b s' => .ok (g n b) s') = o
  | 0, _, _, _, h => nomatch h
  | r + 1, a', s, o, ho => by
    obtain ⟨N, hN⟩ := hb a' s
    simp only [Verif.iterN] at ho
    cases hr : body' a' s with
    | ok v s' =>
      rw [hr] at ho
      cases v with
      | inl b' =>
        obtain ⟨K, hK⟩ := iterN hb r b' s' o ho
        refine ⟨max N K, fun n hn a e => ?_⟩
        have h1 := hN n (by omega) a e
        rw [hr, M.map_run] at h1
        simp only [Verif.iterN]
        revert h1
        cases body n a s with
        | ok v s'' =>
          intro h1
          obtain ⟨e1, e2⟩ := Out.ok.inj h1
          subst e2
          cases v with
          | inl b => exact hK n (by omega) b (Sum.inl.inj e1)
          | inr _ => cases e1
        | _ => exact fun h1 => nomatch h1
      | inr b' =>
        cases ho
        refine ⟨N, fun n hn a e => ?_⟩
        have h1 := hN n hn a e
        rw [hr, M.map_run] at h1
        simp only [Verif.iterN]
        revert h1
        cases body n a s with
        | ok v s'' =>
          intro h1
          obtain ⟨e1, e2⟩ := Out.ok.inj h1
          subst e2
          cases v with
          | inl _ => cases e1
          | inr b => exact ⟨_, rfl, congrArg (fun b => Out.ok b s'') (Sum.inr.inj e1)⟩
        | _ => exact fun h1 => nomatch h1
    | _ =>
      rw [hr] at ho
      cases ho
      refine ⟨N, fun n hn a e => ?_⟩
      have h1 := hN n hn a e
      rw [hr, M.map_run] at h1
      simp only [Verif.iterN]
      revert h1
      cases body n a s with
      | ok _ _ => exact fun h1 => nomatch h1
      | _ => intro h1; cases h1 <;> exact ⟨_, rfl, rfl⟩

theorem iterM {body : ∀ n, α n → M σ ε (α n ⊕ β n)} {body' : α' → M σ ε (α' ⊕ β')}
    (hle : ∀ n a, MLe (Sum.map (f n) (g n)) (body n a) (body' (f n a)))
    (hb : EvK f (fun n => Sum.map (f n) (g n)) body body') :
    EvK f g (fun n => iterM (body n)) (Verif.iterM body') := by
  intro a' s
  by_cases hex : ∃ r o, Verif.iterN body' r a' s = some o
  · obtain ⟨r, o, ho⟩ := hex
    obtain ⟨N, hN⟩ := iterN hb r a' s o ho
    refine ⟨N, fun n hn a e => ?_⟩
    obtain ⟨o', h1, h2⟩ := hN n hn a e
    dsimp only
    rw [iterM_of_iterN ho, M.map_run, iterM_of_iterN h1, h2]
  · refine ⟨0, fun n _ a e => ?_⟩
    have hd : Verif.iterM body' a' s = .diverge := dif_neg hex
    subst e
    rw [hd]
    rcases MLe.iterM (hle n) a s with h1 | h1
    · dsimp only
      rw [M.map_run, h1]
      rfl
    · dsimp only
      rw [← h1, hd]

end EvK
end

/-- `c n` tends to `c'`. -/
structure Codec.Tends {α : Nat → Type} {β : Type} (f : ∀ n, α n → β) (c : ∀ n, Codec (α n)) (c' : Codec β) : Prop where
  sim : ∀ n, Codec.Sim (f n) (c n) c'
  ev : ∀ {σ : Type} (P : ParserOps σ), Ev f (fun n => (c n).parse P) (c'.parse P)

structure VCodec.Tends {α : Nat → Type} {β : Type} (f : ∀ n, α n → β) (c : ∀ n, VCodec (α n)) (c' : VCodec β) : Prop where
  sim : ∀ n, VCodec.Sim (f n) (c n) c'
  ev : ∀ {σ : Type} (P : ParserOps σ) t, Ev f (fun n => (c n).parse P t) (c'.parse P t)

structure FCodec.Tends {α : Nat → Type} {β : Type} (f : ∀ n, α n → β) (c : ∀ n, FCodec (α n)) (c' : FCodec β) : Prop where
  sim : ∀ n, FCodec.Sim (f n) (c n) c'
  ev : ∀ {σ : Type} (P : ParserOps σ), Ev f (fun n => (c n).parse P) (c'.parse P)

namespace Codec.Tends

variable {α : Nat → Type} {β : Type} {f : ∀ n, α n → β} {c : ∀ n, Codec (α n)} {c' : Codec β}

theorem refl (c : Codec β) : Tends (fun _ x => x) (fun _ => c) c := ⟨fun _ => .refl c, fun _ => .const _⟩

theorem option (h : Tends f c c') : Tends (fun n => Option.map (f n)) (fun n => Codec.option (c n)) (Codec.option c') where
  sim n := .option (h.sim n)
  ev P := .bind_same _ fun _ => .ite (.bind (h.ev P) (.pure fun _ _ => rfl)) (.ite (.pure fun _ => rfl) .panic)

theorem nullable (h : Tends f c c') : Tends (fun n => Option.map (f n)) (fun n => Codec.nullable (c n)) (Codec.nullable c') where
  sim n := .nullable (h.sim n)
  ev P := .bind_same _ fun _ => .ite (.bind (h.ev P) (.pure fun _ _ => rfl)) (.pure fun _ => rfl)

theorem closing {σ : Type} {ε : Type} (m : M σ ε Unit) :
    EvK f f (fun _ a => do m; pure a) (fun a => do m; pure a) := fun a' s => ⟨0, fun n _ a e => by
  dsimp only
  rw [M.map_run, M.bind_run, M.bind_run]
  cases m s with
  | ok _ s' => exact congrArg (fun b => Out.ok b s') e
  | _ => rfl⟩

theorem dynamic (cfg : Cfg) (S : LenPref) (h : Tends f c c') : Tends f (fun n => Codec.dynamic cfg S (c n)) (Codec.dynamic cfg S c') where
  sim n := .dynamic cfg S (h.sim n)
  ev P := .bind_same _ fun _ => .bind_same _ fun _ => .bind (h.ev P) (closing _)

theorem vpadded (cfg : Cfg) (n : Nat) (h : Tends f c c') : Tends f (fun k => Codec.vpadded cfg n (c k)) (Codec.vpadded cfg n c') where
  sim k := .vpadded cfg n (h.sim k)
  ev P := .bind_same _ fun rem => .ite .panic <| by
    cases usub cfg.prof rem n with
    | none => exact .panic
    | some k => exact .bind_same _ fun _ => .bind (h.ev P) (closing _)

theorem padded (cfg : Cfg) (n : Nat) (h : Tends f c c') : Tends f (fun k => Codec.padded cfg n (c k)) (Codec.padded cfg n c') where
  sim k := .padded cfg n (h.sim k)
  ev P := .bind (h.ev P) fun a' s => ⟨0, fun k _ a e => by
    rw [M.map_run, M.bind_run, M.bind_run]
    cases P.consume n s with
    | ok b s' =>
      simp only [Out.bind_ok]
      split
      · rfl
      · exact congrArg (fun b => Out.ok b s') e
    | _ => rfl⟩

/-- A loop round: look, perhaps parse an element, go on. -/
theorem seq_ev (h : Tends f c c') {σ : Type} (P : ParserOps σ) :
    EvK (fun n => List.map (f n)) (fun n => Sum.map (List.map (f n)) (List.map (f n)))
      (fun n => seqBody P ((c n).parse P)) (seqBody P (c'.parse P)) := by
  intro a' s
  unfold seqBody
  cases hr : P.remainder s with
  | ok rem s' =>
    by_cases h0 : rem ≠ 0
    · obtain ⟨N, hN⟩ := h.ev P s'
      refine ⟨N, fun n hn a e => ?_⟩
      have h1 : (f n <$> (c n).parse P) s' = c'.parse P s' := hN n hn
      dsimp only
      rw [M.map_run, M.bind_run, M.bind_run, hr]
      simp only [Out.bind_ok, if_pos h0, M.bind_run]
      rw [← h1, M.map_run]
      cases (c n).parse P s' with
      | ok b s'' => subst e; simp
      | _ => rfl
    · refine ⟨0, fun n _ a e => ?_⟩
      dsimp only
      rw [M.map_run, M.bind_run, M.bind_run, hr]
      simp only [Out.bind_ok, if_neg h0]
      subst e
      rfl
  | _ =>
    refine ⟨0, fun n _ a e => ?_⟩
    dsimp only
    rw [M.map_run, M.bind_run, M.bind_run, hr]
    rfl

theorem seq_le (h : Tends f c c') {σ : Type} (P : ParserOps σ) (n : Nat) (a : List (α n)) :
    MLe (Sum.map (List.map (f n)) (List.map (f n))) (seqBody P ((c n).parse P) a) (seqBody P (c'.parse P) (a.map (f n))) := by
  refine .bind_same _ fun _ => .ite (.bind ((h.sim n).parse P) fun a => .pure' ?_) (.pure' rfl)
  simp

theorem seq (h : Tends f c c') : Tends (fun n => List.map (f n)) (fun n => Codec.seq (c n)) (Codec.seq c') where
  sim n := .seq (h.sim n)
  ev P := fun s =>
    let ⟨N, hN⟩ := EvK.iterM (h.seq_le P) (h.seq_ev P) [] s
    ⟨N, fun n hn => hN n hn [] rfl⟩

/-- A round that pushes onto a bounded sequence. -/
theorem push_ev (h : Tends f c c') (l : Nat) {σ : Type} (P : ParserOps σ) (go : Nat → Nat → Bool) :
    EvK (fun n => List.map (f n)) (fun n => Sum.map (List.map (f n)) (List.map (f n)))
      (fun n acc => do
        let rem ← P.remainder
        if go rem acc.length then do
          let a ← (c n).parse P
          let acc ← tryPush l acc a
          pure (.inl acc)
        else pure (.inr acc))
      (fun acc => do
        let rem ← P.remainder
        if go rem acc.length then do
          let a ← c'.parse P
          let acc ← tryPush l acc a
          pure (.inl acc)
        else pure (.inr acc)) := by
  intro a' s
  cases hr : P.remainder s with
  | ok rem s' =>
    by_cases h0 : go rem a'.length = true
    · obtain ⟨N, hN⟩ := h.ev P s'
      refine ⟨N, fun n hn a e => ?_⟩
      have h1 : (f n <$> (c n).parse P) s' = c'.parse P s' := hN n hn
      subst e
      rw [List.length_map] at h0
      dsimp only
      rw [M.map_run, M.bind_run, M.bind_run, hr]
      simp only [Out.bind_ok, List.length_map, if_pos h0, M.bind_run]
      rw [← h1, M.map_run]
      cases (c n).parse P s' with
      | ok b s'' =>
        simp only [Out.bind_ok, tryPush, List.length_map]
        split
        · simp
        · rfl
      | _ => rfl
    · refine ⟨0, fun n _ a e => ?_⟩
      subst e
      rw [List.length_map] at h0
      dsimp only
      rw [M.map_run, M.bind_run, M.bind_run, hr]
      simp only [Out.bind_ok, List.length_map, if_neg h0]
      rfl
  | _ =>
    refine ⟨0, fun n _ a e => ?_⟩
    dsimp only
    rw [M.map_run, M.bind_run, M.bind_run, hr]
    rfl

theorem fixBody_eq {γ : Type} (l : Nat) {σ : Type} (P : ParserOps σ) (p : PM σ γ) : fixBody l P p = fun acc => (do
        let rem ← P.remainder
        if (decide (rem ≠ 0) && decide (acc.length < l)) = true then do
          let a ← p
          let acc ← tryPush l acc a
          pure (.inl acc)
        else pure (.inr acc)) := by
  funext acc
  unfold fixBody
  congr 1
  funext rem
  simp only [Bool.and_eq_true, decide_eq_true_eq]

theorem limBody_eq {γ : Type} (l : Nat) {σ : Type} (P : ParserOps σ) (p : PM σ γ) : limBody l P p = fun acc => (do
        let rem ← P.remainder
        if decide (rem ≠ 0) = true then do
          let a ← p
          let acc ← tryPush l acc a
          pure (.inl acc)
        else pure (.inr acc)) := by
  funext acc
  unfold limBody
  congr 1
  funext rem
  simp only [decide_eq_true_eq]

theorem fix_le (h : Tends f c c') (l : Nat) {σ : Type} (P : ParserOps σ) (n : Nat) (a : List (α n)) :
    MLe (Sum.map (List.map (f n)) (List.map (f n))) (fixBody l P ((c n).parse P) a) (fixBody l P (c'.parse P) (a.map (f n))) := by
  unfold fixBody
  refine .bind_same _ fun _ => ?_
  rw [List.length_map]
  refine .ite (.bind ((h.sim n).parse P) fun b => .bind (Sim.tryPush l a b (f n)) fun _ => ?_) (.pure' rfl)
  exact .pure' rfl

theorem lim_le (h : Tends f c c') (l : Nat) {σ : Type} (P : ParserOps σ) (n : Nat) (a : List (α n)) :
    MLe (Sum.map (List.map (f n)) (List.map (f n))) (limBody l P ((c n).parse P) a) (limBody l P (c'.parse P) (a.map (f n))) := by
  unfold limBody
  refine .bind_same _ fun _ => ?_
  refine .ite (.bind ((h.sim n).parse P) fun b => .bind (Sim.tryPush l a b (f n)) fun _ => ?_) (.pure' rfl)
  exact .pure' rfl

theorem fixSeq (l : Nat) (h : Tends f c c') : Tends (fun n => List.map (f n)) (fun n => Codec.fixSeq l (c n)) (Codec.fixSeq l c') where
  sim n := .fixSeq l (h.sim n)
  ev P := by
    refine .bind (f := fun n => List.map (f n)) (fun s => ?_) fun a' s => ⟨0, fun n _ a e => ?_⟩
    · have he : EvK (fun n => List.map (f n)) (fun n => Sum.map (List.map (f n)) (List.map (f n)))
          (fun n => fixBody l P ((c n).parse P)) (fixBody l P (c'.parse P)) := by
        simp only [fixBody_eq]
        exact h.push_ev l P fun rem k => decide (rem ≠ 0) && decide (k < l)
      obtain ⟨N, hN⟩ := EvK.iterM (h.fix_le l P) he [] s
      exact ⟨N, fun n hn => hN n hn [] rfl⟩
    · subst e
      rw [List.length_map]
      split <;> rfl

theorem limSeq (l : Nat) (h : Tends f c c') : Tends (fun n => List.map (f n)) (fun n => Codec.limSeq l (c n)) (Codec.limSeq l c') where
  sim n := .limSeq l (h.sim n)
  ev P := by
    intro s
    have he : EvK (fun n => List.map (f n)) (fun n => Sum.map (List.map (f n)) (List.map (f n)))
        (fun n => limBody l P ((c n).parse P)) (limBody l P (c'.parse P)) := by
      simp only [limBody_eq]
      exact h.push_ev l P fun rem _ => decide (rem ≠ 0)
    obtain ⟨N, hN⟩ := EvK.iterM (h.lim_le l P) he [] s
    exact ⟨N, fun n hn => hN n hn [] rfl⟩

theorem autobox (h : Tends f c c') : Tends f (fun n => Codec.autobox (c n)) (Codec.autobox c') := ⟨fun n => .autobox (h.sim n), fun P => h.ev P⟩

theorem data (w : TagWidth) {v : ∀ n, VCodec (α n)} {v' : VCodec β} (h : VCodec.Tends f v v') :
    Tends f (fun n => Codec.data w (v n)) (Codec.data w v') where
  sim n := .data w (h.sim n)
  ev P := by
    unfold Codec.data
    simp only [← fun n => (h.sim n).tags]
    exact .bind_same _ fun t => h.ev P t

theorem record {v : ∀ n, FCodec (α n)} {v' : FCodec β} (h : FCodec.Tends f v v') :
    Tends f (fun n => Codec.record (v n)) (Codec.record v') := ⟨fun n => .record (h.sim n), fun P => h.ev P⟩

end Codec.Tends

section
variable {α γ : Nat → Type} {β δ : Type} {f : ∀ n, α n → β} {g : ∀ n, γ n → δ}

theorem VCodec.Tends.cons (tag : Nat) {c : ∀ n, Codec (α n)} {c' : Codec β} {v : ∀ n, VCodec (γ n)} {v' : VCodec δ}
    (h : Codec.Tends f c c') (hv : VCodec.Tends g v v') :
    VCodec.Tends (fun n => Sum.map (f n) (g n)) (fun n => VCodec.cons tag (c n) (v n)) (VCodec.cons tag c' v') where
  sim n := .cons tag (h.sim n) (hv.sim n)
  ev P t := .ite (.bind (h.ev P) (.pure fun _ _ => rfl)) (.bind (hv.ev P t) (.pure fun _ _ => rfl))

theorem FCodec.Tends.cons {c : ∀ n, Codec (α n)} {c' : Codec β} {v : ∀ n, FCodec (γ n)} {v' : FCodec δ}
    (h : Codec.Tends f c c') (hv : FCodec.Tends g v v') :
    FCodec.Tends (fun n => Prod.map (f n) (g n)) (fun n => FCodec.cons (c n) (v n)) (FCodec.cons c' v') where
  sim n := .cons (h.sim n) (hv.sim n)
  ev P := .bind (h.ev P) (EvK.bind (hv.ev P).toK fun a' b' s => ⟨0, fun n _ a e b e' => by subst e e'; rfl⟩)
end

section
variable {ρ : Nat → Nat → Schema} {V : Nat → Type} {f : ∀ n i, (ρ n i).Val → V i} {c : ∀ i, Codec (V i)}
mutual
theorem Schema.tends (cfg : Cfg) (h : ∀ i, Codec.Tends (fun n => f n i) (fun n => (ρ n i).codec cfg) (c i)) :
    ∀ s : Schema, Codec.Tends (fun n => s.mapIn (f n)) (fun n => (s.fill (ρ n)).codec cfg) (s.codecIn cfg c)
  | .unit => .refl _
  | .bool => .refl _
  | .int _ => .refl _
  | .f64 => .refl _
  | .rangedInt _ _ _ => .refl _
  | .rangedFloat _ _ => .refl _
  | .zarithN => .refl _
  | .zarithZ => .refl _
  | .bytes => .refl _
  | .vecU8 => .refl _
  | .string => .refl _
  | .fixedBytes _ => .refl _
  | .fixedString _ => .refl _
  | .option s => .option (s.tends cfg h)
  | .nullable s => .nullable (s.tends cfg h)
  | .dynamic S s => .dynamic cfg S (s.tends cfg h)
  | .vpadded n s => .vpadded cfg n (s.tends cfg h)
  | .padded n s => .padded cfg n (s.tends cfg h)
  | .seq s => .seq (s.tends cfg h)
  | .fixSeq n s => .fixSeq n (s.tends cfg h)
  | .limSeq n s => .limSeq n (s.tends cfg h)
  | .autobox s => .autobox (s.tends cfg h)
  | .hole i => h i
  | .cstyle _ _ => .refl _
  | .data w vs => .data w (vs.tends cfg h)
  | .record fs => .record (fs.tends cfg h)
theorem Variants.tends (cfg : Cfg) (h : ∀ i, Codec.Tends (fun n => f n i) (fun n => (ρ n i).codec cfg) (c i)) :
    ∀ vs : Variants, VCodec.Tends (fun n => vs.mapIn (f n)) (fun n => (vs.fill (ρ n)).codec cfg) (vs.codecIn cfg c)
  | .nil => ⟨fun _ => .nil, fun _ _ => .const _⟩
  | .cons tag s vs => .cons tag (s.tends cfg h) (vs.tends cfg h)
theorem Fields.tends (cfg : Cfg) (h : ∀ i, Codec.Tends (fun n => f n i) (fun n => (ρ n i).codec cfg) (c i)) :
    ∀ fs : Fields, FCodec.Tends (fun n => fs.mapIn (f n)) (fun n => (fs.fill (ρ n)).codec cfg) (fs.codecIn cfg c)
  | .nil => ⟨fun _ => .nil, fun _ => .const _⟩
  | .cons s fs => .cons (s.tends cfg h) (fs.tends cfg h)
end
end

namespace Decls

variable (d : Decls) (cfg : Cfg)

theorem known_unfold : ∀ n i, ((d.unfold n i).codec cfg).known = none := fun n i =>
  ((d.unfold n i).known_eq cfg).trans (d.width n i)

theorem sim_limit (n i : Nat) : Codec.Sim (fun x => d.val n x) ((d.unfold n i).codec cfg) (d.codec cfg i) where
  write _ _ := rfl
  parse P := fun s => by
    by_cases h : ((d.unfold n i).codec cfg).parse P s = .diverge
    · exact .inl h
    · exact .inr (d.parse_eq h)
  known := (d.known_unfold cfg n i).symm
  unknown _ := rfl

theorem stays {σ : Type} {P : ParserOps σ} {s : σ} {i n : Nat} (h : ((d.unfold n i).codec cfg).parse P s ≠ .diverge) (k : Nat) :
    ((d.unfold (n + k) i).codec cfg).parse P s ≠ .diverge := by
  rcases d.sim_val cfg i k n P s with h1 | h1
  · exact absurd h1 h
  · intro h2
    rw [M.map_run, M.map_run, h2] at h1
    apply h
    revert h1
    cases ((d.unfold n i).codec cfg).parse P s with
    | diverge => exact fun _ => rfl
    | _ => exact fun h1 => nomatch h1

theorem tends (i : Nat) : Codec.Tends (fun n x => d.val n x) (fun n => (d.unfold n i).codec cfg) (d.codec cfg i) where
  sim n := d.sim_limit cfg n i
  ev P := fun s => by
    by_cases hex : ∃ n, ((d.unfold n i).codec cfg).parse P s ≠ .diverge
    · obtain ⟨N, hN⟩ := hex
      refine ⟨N, fun n hn => ?_⟩
      obtain ⟨k, rfl⟩ := Nat.exists_eq_add_of_le hn
      exact (d.parse_eq (d.stays cfg hN k)).symm
    · refine ⟨0, fun n _ => ?_⟩
      have e : (d.codec cfg i).parse P s = .diverge := dif_neg hex
      have h1 : ((d.unfold n i).codec cfg).parse P s = .diverge := Classical.byContradiction fun h => hex ⟨n, h⟩
      dsimp only
      rw [e, M.map_run, h1]
      rfl

/-- The code of the definition with recursive calls is the limit of the unfoldings one step deeper. -/
theorem body_tends (i : Nat) : Codec.Tends (fun n x => (d.body i).mapIn (fun _ y => d.val n y) x)
    (fun n => (d.unfold (n + 1) i).codec cfg) ((d.body i).codecIn cfg (d.codec cfg)) :=
  (d.body i).tends (ρ := d.unfold) (f := fun n _ y => d.val n y) cfg (d.tends cfg)

theorem unroll_parse (i : Nat) {σ : Type} (P : ParserOps σ) (s : σ) :
    (d.unroll <$> (d.codec cfg i).parse P) s = ((d.body i).codecIn cfg (d.codec cfg)).parse P s := by
  obtain ⟨N, hN⟩ := (d.body_tends cfg i).ev P s
  obtain ⟨K, hK⟩ := (d.tends cfg i).ev P s
  have h1 : ((d.body i).mapIn (fun _ y => d.val (max N K) y) <$> ((d.unfold (max N K + 1) i).codec cfg).parse P) s = _ :=
    hN (max N K) (by omega)
  have h2 : (d.val (max N K + 1) <$> ((d.unfold (max N K + 1) i).codec cfg).parse P) s = _ := hK (max N K + 1) (by omega)
  rw [← h1, M.map_run, ← h2, M.map_run]
  show _ = (((d.unfold (max N K + 1) i).codec cfg).parse P s).bind _
  cases ((d.unfold (max N K + 1) i).codec cfg).parse P s <;> rfl

end Decls

end Verif
