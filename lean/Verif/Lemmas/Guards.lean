import Verif.CheckedCodec
import Verif.Spec.Parts
import Verif.Refine.Related
/-
Codecs that panic on some values, and do what others do on the rest.
-/
namespace Verif

variable {σ α β : Type}

/-- `m` does what `m'` does, or panics; it does not panic if `m'` returns a value that meets `V`, and does if `m'` returns any
other value. -/
def Guards (V : α → Prop) (m m' : PM σ α) : Prop :=
  Stricter m m' ∧ ∀ s a s', m' s = .ok a s' → (V a ↔ m s = .ok a s')

namespace Guards

theorem same {V : α → Prop} {m : PM σ α} (h : ∀ s a s', m s = .ok a s' → V a) : Guards V m m :=
  ⟨Stricter.refl m, fun s a s' ha => ⟨fun _ => ha, fun _ => h s a s' ha⟩⟩

theorem triv {V : α → Prop} (m : PM σ α) (h : ∀ a, V a) : Guards V m m := same fun _ _ _ _ => h _

theorem bind {V : α → Prop} {W : α → β → Prop} {U : β → Prop} {f f' : PM σ α} {g g' : α → PM σ β} (hf : Guards V f f')
    (hg : ∀ a, Guards (W a) (g a) (g' a)) (hu : ∀ a s b s', g' a s = .ok b s' → (U b ↔ V a ∧ W a b)) :
    Guards U (f >>= g) (f' >>= g') := by
  refine ⟨Stricter.bind hf.1 fun a => (hg a).1, fun s b s' hb => ?_⟩
  rw [M.bind_run] at hb ⊢
  cases hf' : f' s with
  | ok a s1 =>
    rw [hf'] at hb
    have hb : g' a s1 = .ok b s' := hb
    rw [hu a s1 b s' hb]
    have h1 := hf.2 s a s1 hf'
    have h2 := (hg a).2 s1 b s' hb
    constructor
    · rintro ⟨ha, hw⟩
      rw [h1.mp ha]
      exact h2.mp hw
    · intro h
      rcases hf.1 s with hp | he
      · rw [hp] at h; cases h
      · rw [he, hf'] at h
        exact ⟨h1.mpr (he.trans hf'), h2.mpr h⟩
  | _ => rw [hf'] at hb; cases hb

/-- Behind something that is the same. -/
theorem behind {U : β → Prop} (f : PM σ α) {g g' : α → PM σ β} (hg : ∀ a, Guards U (g a) (g' a)) :
    Guards U (f >>= g) (f >>= g') :=
  bind (V := fun _ => True) (triv f fun _ => trivial) hg fun _ _ _ _ _ => ⟨fun h => ⟨trivial, h⟩, fun h => h.2⟩

/-- In front of something that is the same. -/
theorem before {V : α → Prop} {U : β → Prop} {f f' : PM σ α} {g : α → PM σ β} (hf : Guards V f f')
    (hu : ∀ a s b s', g a s = .ok b s' → (U b ↔ V a)) : Guards U (f >>= g) (f' >>= g) :=
  bind (W := fun _ _ => True) hf (fun a => triv (g a) fun _ => trivial) fun a s b s' h => by rw [hu a s b s' h, and_true]

theorem map {V : α → Prop} {U : β → Prop} {f f' : PM σ α} (h : α → β) (hf : Guards V f f') (hu : ∀ a, U (h a) ↔ V a) :
    Guards U (f >>= fun a => pure (h a)) (f' >>= fun a => pure (h a)) :=
  before hf fun a s b s' hb => by cases hb; exact hu a

theorem ite {V : α → Prop} {c : Prop} [Decidable c] {m n m' n' : PM σ α} (h : Guards V m m') (h' : Guards V n n') :
    Guards V (if c then m else n) (if c then m' else n') := by
  split
  · exact h
  · exact h'

theorem imp {V U : α → Prop} {m m' : PM σ α} (h : Guards V m m') (hi : ∀ s a s', m' s = .ok a s' → (U a ↔ V a)) :
    Guards U m m' := ⟨h.1, fun s a s' ha => (hi s a s' ha).trans (h.2 s a s' ha)⟩

/-- What is bad stays bad. -/
theorem bad {VB : β → Prop} {VA : α → Prop} {body' : β → PM σ (β ⊕ α)}
    (h3 : ∀ b s r s', body' b s = .ok r s' → Sum.elim VB VA r → VB b) : ∀ (n : Nat) (b : β) (s : σ) (a : α) (s' : σ),
    iterN body' n b s = some (.ok a s') → VA a → VB b
  | 0, _, _, _, _, h, _ => by cases h
  | n + 1, b, s, a, s', h, ha => by
    rw [iterN] at h
    cases hb : body' b s with
    | ok r s1 =>
      rw [hb] at h
      cases r with
      | inl b' => exact h3 b s _ _ hb (bad h3 n b' s1 a s' h ha)
      | inr a' => cases h; exact h3 b s _ _ hb ha
    | _ => rw [hb] at h; cases h

theorem loopN {VB : β → Prop} {VA : α → Prop} {body body' : β → PM σ (β ⊕ α)} (h1 : ∀ b, Stricter (body b) (body' b))
    (h2 : ∀ b, VB b → ∀ s r s', body' b s = .ok r s' → (Sum.elim VB VA r ↔ body b s = .ok r s'))
    (h3 : ∀ b s r s', body' b s = .ok r s' → Sum.elim VB VA r → VB b) : ∀ (n : Nat) (b : β), VB b → ∀ (s : σ) (a : α) (s' : σ),
    iterN body' n b s = some (.ok a s') → (VA a ↔ iterM body b s = .ok a s')
  | 0, _, _, _, _, _, h => by cases h
  | n + 1, b, vb, s, a, s', h => by
    have h0 := h
    rw [iterN] at h
    rw [iterM_unfold]
    cases hb : body' b s with
    | ok r s1 =>
      rw [hb] at h
      have h2' := h2 b vb s r s1 hb
      cases r with
      | inl b' =>
        have h : iterN body' n b' s1 = some (.ok a s') := h
        constructor
        · intro ha
          have vb' := bad h3 n b' s1 a s' h ha
          rw [h2'.mp vb']
          exact (loopN h1 h2 h3 n b' vb' s1 a s' h).mp ha
        · intro ho
          rcases h1 b s with hp | he
          · rw [hp] at ho; cases ho
          · rw [he, hb] at ho
            exact (loopN h1 h2 h3 n b' (h2'.mpr (he.trans hb)) s1 a s' h).mpr ho
      | inr a' =>
        cases h
        constructor
        · intro ha
          rw [h2'.mp ha]; rfl
        · intro ho
          rcases h1 b s with hp | he
          · rw [hp] at ho; cases ho
          · exact h2'.mpr (he.trans hb)
    | _ => rw [hb] at h; cases h

theorem loop {VB : β → Prop} {VA : α → Prop} {body body' : β → PM σ (β ⊕ α)} (h1 : ∀ b, Stricter (body b) (body' b))
    (h2 : ∀ b, VB b → ∀ s r s', body' b s = .ok r s' → (Sum.elim VB VA r ↔ body b s = .ok r s'))
    (h3 : ∀ b s r s', body' b s = .ok r s' → Sum.elim VB VA r → VB b) (b : β) (vb : VB b) :
    Guards VA (iterM body b) (iterM body' b) := by
  refine ⟨Stricter.loop b h1, fun s a s' h => ?_⟩
  by_cases hex : ∃ n o, iterN body' n b s = some o
  · obtain ⟨n, o, ho⟩ := hex
    rw [iterM_of_iterN ho] at h
    subst h
    exact loopN h1 h2 h3 n b vb s a s' ho
  · rw [iterM_eq_diverge fun n => by
      cases hn : iterN body' n b s with
      | none => rfl
      | some o => exact absurd ⟨n, o, hn⟩ hex] at h
    cases h

/-- A round of a loop that appends an element. -/
theorem round {V : α → Prop} {p p' : PM σ α} (hp : Guards V p p') (acc : List α) (k : α → PM σ (List α ⊕ List α))
    (hk : ∀ a s r s', k a s = .ok r s' → r = .inl (acc ++ [a])) :
    Guards (Sum.elim (fun xs => ∀ x ∈ xs.drop acc.length, V x) fun _ => True) (p >>= k) (p' >>= k) :=
  before hp fun a s r s' h => by
    rw [hk a s r s' h]
    simp

/-- A loop that appends elements to a list. -/
theorem list {V : α → Prop} {body body' : List α → PM σ (List α ⊕ List α)}
    (h : ∀ acc, Guards (Sum.elim (fun xs => ∀ x ∈ xs.drop acc.length, V x) fun _ => True) (body acc) (body' acc))
    (hr : ∀ acc s r s', body' acc s = .ok r s' → (∃ a, r = .inl (acc ++ [a])) ∨ r = .inr acc) :
    Guards (fun xs => ∀ x ∈ xs, V x) (iterM body []) (iterM body' []) := by
  refine loop (VB := fun xs => ∀ x ∈ xs, V x) (fun acc => (h acc).1) (fun acc hacc s r s' hb => ?_) (fun acc s r s' hb hv => ?_)
    [] (by simp)
  · rw [← (h acc).2 s r s' hb]
    rcases hr acc s r s' hb with ⟨a, rfl⟩ | rfl
    · simp only [Sum.elim_inl, List.drop_left, List.mem_append, List.mem_singleton]
      exact ⟨fun h x hx => h x (.inr hx), fun h x hx => hx.elim (hacc x) (h x)⟩
    · exact ⟨fun _ => trivial, fun _ => hacc⟩
  · rcases hr acc s r s' hb with ⟨a, rfl⟩ | rfl
    · exact fun x hx => hv x (List.mem_append_left _ hx)
    · exact hv

end Guards

/-! ### codecs -/

/-- `c` does what `c'` does on values that meet `V`, and panics on others. -/
structure Codec.Guarded (V : α → Prop) (c c' : Codec α) : Prop where
  parse : ∀ {σ : Type} (P : ParserOps σ), Guards V (c.parse P) (c'.parse P)
  good : ∀ x, V x → ∀ {τ : Type} (T : TargetOps τ), c.write T x = c'.write T x
  bad : ∀ x, ¬ V x → ∀ {τ : Type} (T : TargetOps τ) (t : τ), c.write T x t = none
  known : c.known = c'.known
  unknown : c.unknown = c'.unknown

structure VCodec.Guarded (V : α → Prop) (c c' : VCodec α) : Prop where
  tags : c.tags = c'.tags
  parse : ∀ {σ : Type} (P : ParserOps σ) (t : Nat), Guards V (c.parse P t) (c'.parse P t)
  good : ∀ x, V x → ∀ (w : TagWidth) {τ : Type} (T : TargetOps τ), c.write w T x = c'.write w T x
  bad : ∀ x, ¬ V x → ∀ (w : TagWidth) {τ : Type} (T : TargetOps τ) (t : τ), c.write w T x t = none
  unknown : c.unknown = c'.unknown

structure FCodec.Guarded (V : α → Prop) (c c' : FCodec α) : Prop where
  parse : ∀ {σ : Type} (P : ParserOps σ), Guards V (c.parse P) (c'.parse P)
  good : ∀ x, V x → ∀ {τ : Type} (T : TargetOps τ), c.write T x = c'.write T x
  bad : ∀ x, ¬ V x → ∀ {τ : Type} (T : TargetOps τ) (t : τ), c.write T x t = none
  known : c.known = c'.known
  unknown : c.unknown = c'.unknown

theorem W.add_none_left {τ : Type} {a b : W τ} {t : τ} (h : a t = none) : W.add a b t = none := by
  unfold W.add; rw [h]
theorem W.add_none_right {τ : Type} {a b : W τ} (h : ∀ t, b t = none) (t : τ) : W.add a b t = none := by
  unfold W.add
  cases a t with
  | none => rfl
  | some r => simp [h]

namespace Codec.Guarded

theorem close_ok {m : PM σ β} {a b : α} {s s' : σ} (h : (m >>= fun _ => pure a) s = .ok b s') : b = a := by
  rw [M.bind_run] at h
  cases he : m s with
  | ok u s1 => rw [he] at h; cases h; rfl
  | _ => rw [he] at h; cases h

theorem same {V : α → Prop} (c : Codec α) (h : ∀ x, V x) : Guarded V c c :=
  ⟨fun P => .triv _ h, fun _ _ _ _ => rfl, fun x hx => absurd (h x) hx, rfl, rfl⟩

variable {V : α → Prop} {c c' : Codec α} (h : Guarded V c c')
include h

theorem estimate (x : α) : c.estimate x = c'.estimate x := by
  unfold Codec.estimate; rw [h.known, h.unknown]

theorem writeList_good {τ : Type} (T : TargetOps τ) : ∀ xs : List α, (∀ x ∈ xs, V x) → c.writeList T xs = c'.writeList T xs
  | [], _ => rfl
  | x :: xs, hx => by
    rw [Codec.writeList, Codec.writeList, h.good x (hx x (by simp)), writeList_good T xs fun y hy => hx y (by simp [hy])]

theorem writeList_bad {τ : Type} (T : TargetOps τ) : ∀ xs : List α, (¬ ∀ x ∈ xs, V x) → ∀ t, c.writeList T xs t = none
  | [], hx, _ => absurd (by simp) hx
  | x :: xs, hx, t => by
    rw [Codec.writeList]
    by_cases hv : V x
    · exact W.add_none_right (writeList_bad T xs fun h => hx (by simpa using ⟨hv, h⟩)) t
    · exact W.add_none_left (h.bad x hv T t)

theorem encLen (cfg : Cfg) (x : α) (hx : V x) : c.encLen cfg x = c'.encLen cfg x := by
  unfold Codec.encLen; rw [h.estimate, h.good x hx]

theorem option : Guarded (fun o : Option α => ∀ x, o = some x → V x) (Codec.option c) (Codec.option c') where
  parse P := .behind _ fun tag => .ite (.map some (h.parse P) fun a => ⟨fun h => h a rfl, fun h x hx => by cases hx; exact h⟩)
    (.ite (.same fun s a s' ha => by cases ha; nofun) (.same fun s a s' ha => by cases ha))
  good x hx τ T := by
    rcases x with _ | x
    · rfl
    · simp only [Codec.option, h.good x (hx x rfl)]
  bad x hx τ T t := by
    rcases x with _ | x
    · exact absurd nofun hx
    · simp only [Codec.option]
      exact W.add_none_left (W.add_none_right (h.bad x (fun hv => hx fun y hy => by cases hy; exact hv) T) t)
  known := by simp only [Codec.option, h.known]
  unknown := by funext x; simp only [Codec.option, h.estimate]

theorem nullable : Guarded (fun o : Option α => ∀ x, o = some x → V x) (Codec.nullable c) (Codec.nullable c') where
  parse P := .behind _ fun r => .ite (.map some (h.parse P) fun a => ⟨fun h => h a rfl, fun h x hx => by cases hx; exact h⟩)
    (.same fun s a s' ha => by cases ha; nofun)
  good x hx τ T := by
    rcases x with _ | x
    · rfl
    · simp only [Codec.nullable, h.good x (hx x rfl)]
  bad x hx τ T t := by
    rcases x with _ | x
    · exact absurd nofun hx
    · simp only [Codec.nullable]
      exact W.add_none_left (h.bad x (fun hv => hx fun y hy => by cases hy; exact hv) T t)
  known := by simp only [Codec.nullable, h.known]
  unknown := by funext x; simp only [Codec.nullable, h.estimate]

theorem dynamic (cfg : Cfg) (S : LenPref) : Guarded V (Codec.dynamic cfg S c) (Codec.dynamic cfg S c') where
  parse P := .behind _ fun n => .behind _ fun _ => .before (h.parse P) fun a s b s' hb => by rw [close_ok hb]
  good x hx τ T := by simp only [Codec.dynamic, h.good x hx, h.encLen cfg x hx]
  bad x hx τ T t := by
    simp only [Codec.dynamic]
    cases c.encLen cfg x with
    | none => rfl
    | some l =>
      simp only []
      split
      · exact W.add_none_right (fun t => W.add_none_left (h.bad x hx T t)) _
      · rfl
  known := by simp only [Codec.dynamic, h.known]
  unknown := by funext x; simp only [Codec.dynamic, h.unknown]

theorem vpadded (cfg : Cfg) (n : Nat) : Guarded V (Codec.vpadded cfg n c) (Codec.vpadded cfg n c') where
  parse P := .behind _ fun r => .ite (.same fun s a s' ha => by cases ha) (by
    cases usub cfg.prof r n with
    | none => exact .same fun s a s' ha => by cases ha
    | some k => exact .behind _ fun _ => .before (h.parse P) fun a s b s' hb => by rw [close_ok hb])
  good x hx τ T := h.good x hx T
  bad x hx τ T t := h.bad x hx T t
  known := h.known
  unknown := h.unknown

theorem padded (cfg : Cfg) (n : Nat) : Guarded V (Codec.padded cfg n c) (Codec.padded cfg n c') where
  parse P := .before (h.parse P) fun a s b s' hb => by
    rw [M.bind_run] at hb
    cases he : P.consume n s with
    | ok u s1 =>
      rw [he] at hb
      have hb : (if cfg.checkPadding ∧ u ≠ List.replicate n 0 then M.throw (.token (.nonNullPaddingByte u)) else pure a : PM _ _)
        s1 = .ok b s' := hb
      split at hb
      · cases hb
      · cases hb; exact Iff.rfl
    | _ => rw [he] at hb; cases hb
  good x hx τ T := by simp only [Codec.padded, h.good x hx]
  bad x hx τ T t := by
    simp only [Codec.padded]
    exact W.add_none_left (W.add_none_left (h.bad x hx T t))
  known := by simp only [Codec.padded, h.known]
  unknown := by funext x; simp only [Codec.padded, h.unknown]

theorem autobox : Guarded V (Codec.autobox c) (Codec.autobox c') :=
  ⟨h.parse, h.good, h.bad, h.known, h.unknown⟩

omit h in
theorem tryPush_ok {n : Nat} {acc r : List α} {a : α} {s s' : σ} (h : (tryPush n acc a : PM σ (List α)) s = .ok r s') :
    r = acc ++ [a] := by
  unfold tryPush at h
  split at h
  · cases h; rfl
  · cases h

omit h in
theorem body_ok {rem : PM σ Nat} {p : PM σ α} {cond : Nat → Prop} [DecidablePred cond] {acc : List α}
    {k : α → PM σ (List α ⊕ List α)} (hk : ∀ a s r s', k a s = .ok r s' → r = .inl (acc ++ [a])) {s s' : σ}
    {r : List α ⊕ List α} (h : (do let m ← rem; if cond m then p >>= k else pure (.inr acc)) s = .ok r s') :
    (∃ a, r = .inl (acc ++ [a])) ∨ r = .inr acc := by
  rw [M.bind_run] at h
  cases hr : rem s with
  | ok m s1 =>
    rw [hr] at h
    have h : (if cond m then p >>= k else pure (.inr acc) : PM σ _) s1 = .ok r s' := h
    split at h
    · rw [M.bind_run] at h
      cases hp : p s1 with
      | ok a s2 => rw [hp] at h; exact .inl ⟨a, hk a s2 r s' h⟩
      | _ => rw [hp] at h; cases h
    · cases h; exact .inr rfl
  | _ => rw [hr] at h; cases h

omit h in
theorem push_ok {n : Nat} {acc : List α} {a : α} {s s' : σ} {r : List α ⊕ List α}
    (h : (tryPush n acc a >>= fun acc => pure (.inl acc) : PM σ (List α ⊕ List α)) s = .ok r s') : r = .inl (acc ++ [a]) := by
  rw [M.bind_run] at h
  cases ht : (tryPush n acc a : PM σ (List α)) s with
  | ok l s1 => rw [ht] at h; cases h; rw [tryPush_ok ht]
  | _ => rw [ht] at h; cases h

theorem seq : Guarded (fun xs => ∀ x ∈ xs, V x) (Codec.seq c) (Codec.seq c') where
  parse P := .list (fun acc => .behind _ fun r => .ite (.round (h.parse P) acc _ fun a s r s' hr => by cases hr; rfl)
      (.same fun s r s' hr => by cases hr; trivial))
    fun acc s r s' hb => body_ok (fun a s r s' hr => by cases hr; rfl) hb
  good xs hx τ T := by simp only [Codec.seq, h.writeList_good T xs hx]
  bad xs hx τ T t := by
    simp only [Codec.seq]
    exact W.add_none_left (h.writeList_bad T xs hx t)
  known := rfl
  unknown := by
    funext xs
    show (xs.map c.estimate).sum = (xs.map c'.estimate).sum
    rw [funext h.estimate]

theorem fixSeq (n : Nat) : Guarded (fun xs => ∀ x ∈ xs, V x) (Codec.fixSeq n c) (Codec.fixSeq n c') where
  parse P := .before (.list (fun acc => .behind _ fun r => .ite (.round (h.parse P) acc _ fun a s r s' hr => push_ok hr)
      (.same fun s r s' hr => by cases hr; trivial))
    fun acc s r s' hb => body_ok (cond := fun m => m ≠ 0 ∧ acc.length < n) (fun a s r s' hr => push_ok hr) hb)
    fun a s b s' hb => by
      split at hb
      · cases hb; exact Iff.rfl
      · cases hb
  good xs hx τ T := by simp only [Codec.fixSeq, h.writeList_good T xs hx]
  bad xs hx τ T t := by
    simp only [Codec.fixSeq]
    exact W.add_none_left (h.writeList_bad T xs hx t)
  known := by simp only [Codec.fixSeq, h.known]
  unknown := by funext xs; simp only [Codec.fixSeq, h.unknown]

theorem limSeq (n : Nat) : Guarded (fun xs => ∀ x ∈ xs, V x) (Codec.limSeq n c) (Codec.limSeq n c') where
  parse P := .list (fun acc => .behind _ fun r => .ite (.round (h.parse P) acc _ fun a s r s' hr => push_ok hr)
      (.same fun s r s' hr => by cases hr; trivial))
    fun acc s r s' hb => body_ok (fun a s r s' hr => push_ok hr) hb
  good xs hx τ T := by simp only [Codec.limSeq, h.writeList_good T xs hx]
  bad xs hx τ T t := by
    simp only [Codec.limSeq]
    exact W.add_none_left (h.writeList_bad T xs hx t)
  known := rfl
  unknown := by
    funext xs
    show (xs.map c.estimate).sum = (xs.map c'.estimate).sum
    rw [funext h.estimate]

end Codec.Guarded

theorem Codec.Guarded.data {V : α → Prop} (w : TagWidth) {v v' : VCodec α} (h : VCodec.Guarded V v v') :
    Codec.Guarded V (Codec.data w v) (Codec.data w v') where
  parse P := by
    show Guards V (ParserOps.takeTagword w (w.parse P) v.tags >>= v.parse P) (ParserOps.takeTagword w (w.parse P) v'.tags >>= v'.parse P)
    rw [h.tags]
    exact .behind _ fun t => h.parse P t
  good x hx τ T := h.good x hx w T
  bad x hx τ T t := h.bad x hx w T t
  known := rfl
  unknown := by funext x; simp only [Codec.data, h.unknown]

theorem Codec.Guarded.record {V : α → Prop} {v v' : FCodec α} (h : FCodec.Guarded V v v') :
    Codec.Guarded V (Codec.record v) (Codec.record v') where
  parse P := h.parse P
  good x hx τ T := by simp only [Codec.record, h.good x hx]
  bad x hx τ T t := by
    simp only [Codec.record]
    exact W.add_none_left (h.bad x hx T t)
  known := h.known
  unknown := h.unknown

theorem VCodec.Guarded.cons {V : α → Prop} {U : β → Prop} (tag : Nat) {c c' : Codec α} {v v' : VCodec β}
    (h : Codec.Guarded V c c') (hv : VCodec.Guarded U v v') :
    VCodec.Guarded (fun x : α ⊕ β => (∀ y, x = .inl y → V y) ∧ (∀ y, x = .inr y → U y)) (VCodec.cons tag c v) (VCodec.cons tag c' v') where
  tags := congrArg (tag :: ·) hv.tags
  parse P t := .ite
    (.map Sum.inl (h.parse P) fun a => ⟨fun h => h.1 a rfl, fun h => ⟨fun y hy => by cases hy; exact h, nofun⟩⟩)
    (.map Sum.inr (hv.parse P t) fun a => ⟨fun h => h.2 a rfl, fun h => ⟨nofun, fun y hy => by cases hy; exact h⟩⟩)
  good x hx w τ T := by
    rcases x with x | x
    · simp only [VCodec.cons, h.good x (hx.1 x rfl)]
    · simp only [VCodec.cons, hv.good x (hx.2 x rfl)]
  bad x hx w τ T t := by
    rcases x with x | x
    · simp only [VCodec.cons]
      exact W.add_none_right (fun t => W.add_none_left (h.bad x (fun hv => hx ⟨fun y hy => by cases hy; exact hv, nofun⟩) T t)) t
    · exact hv.bad x (fun hv => hx ⟨nofun, fun y hy => by cases hy; exact hv⟩) w T t
  unknown := by
    funext w x
    rcases x with x | x
    · simp only [VCodec.cons, h.estimate]
    · simp only [VCodec.cons, hv.unknown]

theorem FCodec.Guarded.cons {V : α → Prop} {U : β → Prop} {c c' : Codec α} {v v' : FCodec β}
    (h : Codec.Guarded V c c') (hv : FCodec.Guarded U v v') :
    FCodec.Guarded (fun x : α × β => V x.1 ∧ U x.2) (FCodec.cons c v) (FCodec.cons c' v') where
  parse P := .bind (W := fun a b => U b.2) (h.parse P) (fun a => .map (fun b => (a, b)) (hv.parse P) fun _ => Iff.rfl)
    fun a s b s' hb => by
      rw [M.bind_run] at hb
      cases he : v'.parse P s with
      | ok u s1 => rw [he] at hb; cases hb; exact Iff.rfl
      | _ => rw [he] at hb; cases hb
  good x hx τ T := by simp only [FCodec.cons, h.good x.1 hx.1, hv.good x.2 hx.2]
  bad x hx τ T t := by
    by_cases h1 : V x.1
    · exact W.add_none_right (hv.bad x.2 (fun h2 => hx ⟨h1, h2⟩) T) t
    · exact W.add_none_left (h.bad x.1 h1 T t)
  known := by simp only [FCodec.cons, h.known, hv.known]
  unknown := by funext x; simp only [FCodec.cons, h.unknown, hv.unknown]

theorem Codec.Guarded.iff {V U : α → Prop} {c c' : Codec α} (h : Codec.Guarded V c c') (hi : ∀ x, U x ↔ V x) : Codec.Guarded U c c' :=
  ⟨fun P => (h.parse P).imp fun _ a _ _ => hi a, fun x hx => h.good x ((hi x).mp hx), fun x hx => h.bad x fun hv => hx ((hi x).mpr hv),
    h.known, h.unknown⟩

mutual
/-- If every part meets `V` that is not a ranged integer, and ranged integers do that pass the check, the codecs with the feature guard
those without. -/
theorem Schema.filters (cfg : Cfg) {V : (s : Schema) → s.Val → Prop}
    (hr : ∀ t min max, Codec.Guarded (V (.rangedInt t min max)) (Codec.checkedRangedInt t min max) (Codec.rangedInt t min max))
    (ho : ∀ s x, (∀ t min max, s ≠ .rangedInt t min max) → V s x) :
    ∀ s : Schema, Codec.Guarded (s.eachPart V) (s.checkedCodec cfg) (s.codec cfg)
  | .rangedInt t min max => hr t min max
  | .unit => .same _ fun x => ho .unit x nofun
  | .bool => .same _ fun x => ho .bool x nofun
  | .int t => .same _ fun x => ho (.int t) x nofun
  | .f64 => .same _ fun x => ho .f64 x nofun
  | .rangedFloat min max => .same _ fun x => ho (.rangedFloat min max) x nofun
  | .zarithN => .same _ fun x => ho .zarithN x nofun
  | .zarithZ => .same _ fun x => ho .zarithZ x nofun
  | .bytes => .same _ fun x => ho .bytes x nofun
  | .vecU8 => .same _ fun x => ho .vecU8 x nofun
  | .string => .same _ fun x => ho .string x nofun
  | .fixedBytes n => .same _ fun x => ho (.fixedBytes n) x nofun
  | .fixedString n => .same _ fun x => ho (.fixedString n) x nofun
  | .hole i => .same _ fun x => ho (.hole i) x nofun
  | .cstyle w tags => .same _ fun x => ho (.cstyle w tags) x nofun
  | .option s => .iff (Schema.filters cfg hr ho s).option fun x => and_iff_right (ho (.option s) x nofun)
  | .nullable s => .iff (Schema.filters cfg hr ho s).nullable fun x => and_iff_right (ho (.nullable s) x nofun)
  | .dynamic S s => .iff ((Schema.filters cfg hr ho s).dynamic cfg S) fun x => and_iff_right (ho (.dynamic S s) x nofun)
  | .vpadded n s => .iff ((Schema.filters cfg hr ho s).vpadded cfg n) fun x => and_iff_right (ho (.vpadded n s) x nofun)
  | .padded n s => .iff ((Schema.filters cfg hr ho s).padded cfg n) fun x => and_iff_right (ho (.padded n s) x nofun)
  | .seq s => .iff (Schema.filters cfg hr ho s).seq fun x => and_iff_right (ho (.seq s) x nofun)
  | .fixSeq n s => .iff ((Schema.filters cfg hr ho s).fixSeq n) fun x => and_iff_right (ho (.fixSeq n s) x nofun)
  | .limSeq n s => .iff ((Schema.filters cfg hr ho s).limSeq n) fun x => and_iff_right (ho (.limSeq n s) x nofun)
  | .autobox s => .iff (Schema.filters cfg hr ho s).autobox fun x => and_iff_right (ho (.autobox s) x nofun)
  | .data w vs => .iff (.data w (Variants.filters cfg hr ho vs)) fun x => and_iff_right (ho (.data w vs) x nofun)
  | .record fs => .iff (.record (Fields.filters cfg hr ho fs)) fun x => and_iff_right (ho (.record fs) x nofun)
theorem Variants.filters (cfg : Cfg) {V : (s : Schema) → s.Val → Prop}
    (hr : ∀ t min max, Codec.Guarded (V (.rangedInt t min max)) (Codec.checkedRangedInt t min max) (Codec.rangedInt t min max))
    (ho : ∀ s x, (∀ t min max, s ≠ .rangedInt t min max) → V s x) :
    ∀ vs : Variants, VCodec.Guarded (vs.eachPart V) (vs.checkedCodec cfg) (vs.codec cfg)
  | .nil => ⟨rfl, fun P t => .triv _ fun _ => trivial, fun _ _ _ _ _ => rfl, (fun x => nomatch (x : Empty)), rfl⟩
  | .cons tag s vs => .cons tag (Schema.filters cfg hr ho s) (Variants.filters cfg hr ho vs)
theorem Fields.filters (cfg : Cfg) {V : (s : Schema) → s.Val → Prop}
    (hr : ∀ t min max, Codec.Guarded (V (.rangedInt t min max)) (Codec.checkedRangedInt t min max) (Codec.rangedInt t min max))
    (ho : ∀ s x, (∀ t min max, s ≠ .rangedInt t min max) → V s x) :
    ∀ fs : Fields, FCodec.Guarded (fs.eachPart V) (fs.checkedCodec cfg) (fs.codec cfg)
  | .nil => ⟨fun P => .triv _ fun _ => trivial, fun _ _ _ _ => rfl, fun x h => absurd trivial h, rfl, rfl⟩
  | .cons s fs => .cons (Schema.filters cfg hr ho s) (Fields.filters cfg hr ho fs)
end

end Verif
