import Verif.Recursive
/-
A codec that works like another one on more values: it writes and measures the same, and parses the same
whenever the other one's parser returns.
-/
namespace Verif

variable {σ ε α β α' β' γ : Type}

/-- `m'` does what `m` does (up to `f`) whenever `m` returns. -/
def MLe (f : α → α') (m : M σ ε α) (m' : M σ ε α') : Prop := ∀ s, m s = .diverge ∨ m' s = (f <$> m) s

namespace MLe

theorem pure (f : α → α') (a : α) : MLe f (Pure.pure a : M σ ε α) (Pure.pure (f a)) := fun _ => .inr rfl

theorem pure' {f : α → α'} {a : α} {a' : α'} (h : f a = a') : MLe f (Pure.pure a : M σ ε α) (Pure.pure a') := by
  subst h
  exact pure f a

theorem refl (m : M σ ε α) : MLe id m m := by
  intro s
  right
  show m s = (m s).bind fun a s' => .ok a s'
  cases m s <;> rfl

theorem throw (f : α → α') (e : ε) : MLe f (M.throw e : M σ ε α) (M.throw e) := fun _ => .inr rfl
theorem panic (f : α → α') : MLe f (M.panic : M σ ε α) M.panic := fun _ => .inr rfl

theorem bind {f : α → α'} {g : β → β'} {m : M σ ε α} {m' : M σ ε α'} {k : α → M σ ε β} {k' : α' → M σ ε β'}
    (h : MLe f m m') (hk : ∀ a, MLe g (k a) (k' (f a))) : MLe g (m >>= k) (m' >>= k') := by
  intro s
  rcases h s with h | h
  · left
    rw [M.bind_run, h]
    rfl
  · rw [M.map_run, M.bind_run, M.bind_run, h, M.map_run]
    cases m s with
    | ok a s' => exact hk a s'
    | _ => exact .inr rfl

/-- The same first step. -/
theorem bind_same {g : β → β'} (m : M σ ε α) {k : α → M σ ε β} {k' : α → M σ ε β'}
    (hk : ∀ a, MLe g (k a) (k' a)) : MLe g (m >>= k) (m >>= k') := bind (refl m) hk

theorem ite {c : Prop} [Decidable c] {f : α → α'} {m n : M σ ε α} {m' n' : M σ ε α'} (h : MLe f m m') (h' : MLe f n n') :
    MLe f (if c then m else n) (if c then m' else n') := by
  split
  · exact h
  · exact h'

theorem iterN {f : β → β'} {g : α → α'} {body : β → M σ ε (β ⊕ α)} {body' : β' → M σ ε (β' ⊕ α')}
    (h : ∀ b, MLe (Sum.map f g) (body b) (body' (f b))) : ∀ (n : Nat) (b : β) (s : σ) (o : Out σ ε α),
    Verif.iterN body n b s = some o → o = .diverge ∨
      Verif.iterN body' n (f b) s = some (o.bind fun a s' => .ok (g a) s')
  | 0, _, _, _, hn => by cases hn
  | n + 1, b, s, o, hn => by
    simp only [Verif.iterN] at hn ⊢
    rcases h b s with h' | h'
    · rw [h'] at hn
      cases hn
      exact .inl rfl
    · rw [h', M.map_run]
      cases hb : body b s with
      | ok r s' =>
        rw [hb] at hn
        cases r with
        | inl b' => exact iterN h n b' s' o hn
        | inr a => cases hn; exact .inr rfl
      | _ => rw [hb] at hn; cases hn; exact .inr rfl

theorem iterM {f : β → β'} {g : α → α'} {body : β → M σ ε (β ⊕ α)} {body' : β' → M σ ε (β' ⊕ α')}
    (h : ∀ b, MLe (Sum.map f g) (body b) (body' (f b))) (b : β) : MLe g (iterM body b) (iterM body' (f b)) := by
  intro s
  by_cases hex : ∃ n o, Verif.iterN body n b s = some o
  · obtain ⟨n, o, hn⟩ := hex
    rw [M.map_run, iterM_of_iterN hn]
    rcases iterN h n b s o hn with h' | h'
    · exact .inl h'
    · exact .inr (iterM_of_iterN h')
  · left
    apply iterM_eq_diverge
    intro n
    cases h : Verif.iterN body n b s with
    | none => rfl
    | some o => exact absurd ⟨n, o, h⟩ hex

end MLe

/-- `c'` works like `c` on the values `f x`. -/
structure Codec.Sim (f : α → α') (c : Codec α) (c' : Codec α') : Prop where
  write : ∀ {τ : Type} (T : TargetOps τ) x, c'.write T (f x) = c.write T x
  parse : ∀ {σ : Type} (P : ParserOps σ), MLe f (c.parse P) (c'.parse P)
  known : c'.known = c.known
  unknown : ∀ x, c'.unknown (f x) = c.unknown x

structure VCodec.Sim (f : α → α') (c : VCodec α) (c' : VCodec α') : Prop where
  tags : c'.tags = c.tags
  write : ∀ (w : TagWidth) {τ : Type} (T : TargetOps τ) x, c'.write w T (f x) = c.write w T x
  parse : ∀ {σ : Type} (P : ParserOps σ) (t : Nat), MLe f (c.parse P t) (c'.parse P t)
  unknown : ∀ w x, c'.unknown w (f x) = c.unknown w x

structure FCodec.Sim (f : α → α') (c : FCodec α) (c' : FCodec α') : Prop where
  write : ∀ {τ : Type} (T : TargetOps τ) x, c'.write T (f x) = c.write T x
  parse : ∀ {σ : Type} (P : ParserOps σ), MLe f (c.parse P) (c'.parse P)
  known : c'.known = c.known
  unknown : ∀ x, c'.unknown (f x) = c.unknown x

namespace Codec.Sim

variable {f : α → α'} {c : Codec α} {c' : Codec α'}

theorem refl (c : Codec α) : Sim (fun x => x) c c where
  write _ _ := rfl
  parse _ := MLe.refl _
  known := rfl
  unknown _ := rfl

theorem estimate (h : Sim f c c') (x : α) : c'.estimate (f x) = c.estimate x := by
  unfold Codec.estimate
  rw [h.known, h.unknown]

theorem encLen (h : Sim f c c') (cfg : Cfg) (x : α) : c'.encLen cfg (f x) = c.encLen cfg x := by
  unfold Codec.encLen
  rw [h.estimate, h.write]

theorem writeList (h : Sim f c c') {τ : Type} (T : TargetOps τ) : ∀ xs : List α,
    c'.writeList T (xs.map f) = c.writeList T xs
  | [] => rfl
  | x :: xs => by
    show W.add (c'.write T (f x)) (c'.writeList T (xs.map f)) = W.add (c.write T x) (c.writeList T xs)
    rw [h.write, writeList h]

theorem option (h : Sim f c c') : Sim (Option.map f) (Codec.option c) (Codec.option c') where
  write T x := by
    cases x with
    | none => rfl
    | some x => simp only [Codec.option, Option.map, h.write]
  parse P := .bind_same _ fun _ => .ite (.bind (h.parse P) fun a => .pure _ _) (.ite (.pure _ _) (.panic _))
  known := by simp only [Codec.option, h.known]
  unknown x := by
    cases x with
    | none => rfl
    | some x => simp only [Codec.option, Option.map, h.estimate]

theorem nullable (h : Sim f c c') : Sim (Option.map f) (Codec.nullable c) (Codec.nullable c') where
  write T x := by
    cases x with
    | none => rfl
    | some x => simp only [Codec.nullable, Option.map, h.write]
  parse P := .bind_same _ fun _ => .ite (.bind (h.parse P) fun a => .pure _ _) (.pure _ _)
  known := by simp only [Codec.nullable, h.known]
  unknown x := by
    cases x with
    | none => rfl
    | some x => simp only [Codec.nullable, Option.map, h.estimate]

theorem dynamic (cfg : Cfg) (S : LenPref) (h : Sim f c c') : Sim f (Codec.dynamic cfg S c) (Codec.dynamic cfg S c') where
  write T x := by simp only [Codec.dynamic, h.encLen, h.write]
  parse P := .bind_same _ fun _ => .bind_same _ fun _ => .bind (h.parse P) fun _ => .bind_same _ fun _ => .pure _ _
  known := by simp only [Codec.dynamic, h.known]
  unknown x := by simp only [Codec.dynamic, h.unknown]

theorem vpadded (cfg : Cfg) (n : Nat) (h : Sim f c c') : Sim f (Codec.vpadded cfg n c) (Codec.vpadded cfg n c') where
  write T x := h.write T x
  parse P := .bind_same _ fun rem => .ite (.panic _) <| by
    cases usub cfg.prof rem n with
    | none => exact .panic _
    | some k => exact .bind_same _ fun _ => .bind (h.parse P) fun _ => .bind_same _ fun _ => .pure _ _
  known := h.known
  unknown x := h.unknown x

theorem padded (cfg : Cfg) (n : Nat) (h : Sim f c c') : Sim f (Codec.padded cfg n c) (Codec.padded cfg n c') where
  write T x := by simp only [Codec.padded, h.write]
  parse P := .bind (h.parse P) fun _ => .bind_same _ fun _ => .ite (.throw _ _) (.pure _ _)
  known := by simp only [Codec.padded, h.known]
  unknown x := by simp only [Codec.padded, h.unknown]

theorem sum_estimate (h : Sim f c c') (xs : List α) :
    ((xs.map f).map c'.estimate).sum = (xs.map c.estimate).sum := by
  rw [List.map_map]
  congr 1
  exact List.map_congr_left fun x _ => h.estimate x

theorem sum_unknown (h : Sim f c c') (xs : List α) :
    ((xs.map f).map c'.unknown).sum = (xs.map c.unknown).sum := by
  rw [List.map_map]
  congr 1
  exact List.map_congr_left fun x _ => h.unknown x

theorem tryPush {σ : Type} (n : Nat) (acc : List α) (a : α) (f : α → α') :
    MLe (List.map f) (Codec.tryPush n acc a : PM σ (List α)) (Codec.tryPush n (acc.map f) (f a)) := by
  unfold Codec.tryPush
  rw [List.length_map]
  exact .ite (.pure' (by simp)) (.throw _ _)

theorem seq (h : Sim f c c') : Sim (List.map f) (Codec.seq c) (Codec.seq c') where
  write T x := by simp only [Codec.seq, h.writeList]
  parse P := by
    refine .iterM (f := List.map f) (fun acc => ?_) []
    refine .bind_same _ fun _ => .ite (.bind (h.parse P) fun a => .pure' ?_) (.pure' rfl)
    simp
  known := rfl
  unknown x := h.sum_estimate x

theorem fixSeq (n : Nat) (h : Sim f c c') : Sim (List.map f) (Codec.fixSeq n c) (Codec.fixSeq n c') where
  write T x := by simp only [Codec.fixSeq, h.writeList]
  parse P := by
    refine .bind (f := List.map f) (.iterM (f := List.map f) (fun acc => ?_) []) fun l => ?_
    · refine .bind_same _ fun _ => ?_
      rw [List.length_map]
      refine .ite (.bind (h.parse P) fun a => .bind (tryPush n acc a f) fun _ => ?_) (.pure' rfl)
      exact .pure' rfl
    · rw [List.length_map]
      exact .ite (.pure _ _) (.throw _ _)
  known := by simp only [Codec.fixSeq, h.known]
  unknown x := h.sum_unknown x

theorem limSeq (n : Nat) (h : Sim f c c') : Sim (List.map f) (Codec.limSeq n c) (Codec.limSeq n c') where
  write T x := by simp only [Codec.limSeq, h.writeList]
  parse P := by
    refine .iterM (f := List.map f) (fun acc => ?_) []
    refine .bind_same _ fun _ => .ite (.bind (h.parse P) fun a => .bind (tryPush n acc a f) fun _ => ?_) (.pure' rfl)
    exact .pure' rfl
  known := rfl
  unknown x := h.sum_estimate x

theorem autobox (h : Sim f c c') : Sim f (Codec.autobox c) (Codec.autobox c') where
  write T x := h.write T x
  parse P := h.parse P
  known := h.known
  unknown x := h.unknown x

theorem data (w : TagWidth) {v : VCodec α} {v' : VCodec α'} (h : VCodec.Sim f v v') : Sim f (Codec.data w v) (Codec.data w v') where
  write T x := h.write w T x
  parse P := by
    unfold Codec.data
    rw [h.tags]
    exact .bind_same _ fun t => h.parse P t
  known := rfl
  unknown x := h.unknown w x

theorem record {v : FCodec α} {v' : FCodec α'} (h : FCodec.Sim f v v') : Sim f (Codec.record v) (Codec.record v') where
  write T x := by simp only [Codec.record, h.write]
  parse P := h.parse P
  known := h.known
  unknown x := h.unknown x

end Codec.Sim

theorem VCodec.Sim.nil : VCodec.Sim (fun x => x) VCodec.nil VCodec.nil where
  tags := rfl
  write _ _ _ _ := rfl
  parse _ _ := MLe.refl _
  unknown _ _ := rfl

theorem VCodec.Sim.cons (tag : Nat) {f : α → α'} {g : β → β'} {c : Codec α} {c' : Codec α'} {v : VCodec β} {v' : VCodec β'}
    (h : Codec.Sim f c c') (hv : VCodec.Sim g v v') : VCodec.Sim (Sum.map f g) (VCodec.cons tag c v) (VCodec.cons tag c' v') where
  tags := by simp only [VCodec.cons, hv.tags]
  write w _ T x := by
    cases x with
    | inl x => simp only [VCodec.cons, Sum.map, Sum.elim_inl, Function.comp, h.write]
    | inr x => exact hv.write w T x
  parse P t := .ite (.bind (h.parse P) fun _ => .pure _ _) (.bind (hv.parse P t) fun _ => .pure _ _)
  unknown w x := by
    cases x with
    | inl x => simp only [VCodec.cons, Sum.map, Sum.elim_inl, Function.comp, h.estimate]
    | inr x => exact hv.unknown w x

theorem FCodec.Sim.nil : FCodec.Sim (fun x => x) FCodec.nil FCodec.nil where
  write _ _ := rfl
  parse _ := MLe.refl _
  known := rfl
  unknown _ := rfl

theorem FCodec.Sim.cons {f : α → α'} {g : β → β'} {c : Codec α} {c' : Codec α'} {v : FCodec β} {v' : FCodec β'}
    (h : Codec.Sim f c c') (hv : FCodec.Sim g v v') : FCodec.Sim (Prod.map f g) (FCodec.cons c v) (FCodec.cons c' v') where
  write T x := by simp only [FCodec.cons, Prod.map, h.write, hv.write]
  parse P := .bind (h.parse P) fun _ => .bind (hv.parse P) fun _ => .pure _ _
  known := by simp only [FCodec.cons, h.known, hv.known]
  unknown x := by simp only [FCodec.cons, Prod.map, h.unknown, hv.unknown]

mutual
theorem Schema.sim (cfg : Cfg) {ρ ρ' : Nat → Schema} {f : ∀ i, (ρ i).Val → (ρ' i).Val}
    (h : ∀ i, Codec.Sim (f i) ((ρ i).codec cfg) ((ρ' i).codec cfg)) :
    ∀ s : Schema, Codec.Sim (s.mapFill f) ((s.fill ρ).codec cfg) ((s.fill ρ').codec cfg)
  | .unit => .refl _
  | .bool => .refl _
  | .int _ => .refl _
  | .f64 => .refl _
  | .rangedInt _ _ _ => .refl _
  | .rangedFloat _ _ => .refl _
  | .zarithN => .refl _
  | .zarithZ => .refl _
  | .bytes => .refl _
  | .vecU8 => .refl _
  | .string => .refl _
  | .fixedBytes _ => .refl _
  | .fixedString _ => .refl _
  | .option s => .option (s.sim cfg h)
  | .nullable s => .nullable (s.sim cfg h)
  | .dynamic S s => .dynamic cfg S (s.sim cfg h)
  | .vpadded n s => .vpadded cfg n (s.sim cfg h)
  | .padded n s => .padded cfg n (s.sim cfg h)
  | .seq s => .seq (s.sim cfg h)
  | .fixSeq n s => .fixSeq n (s.sim cfg h)
  | .limSeq n s => .limSeq n (s.sim cfg h)
  | .autobox s => .autobox (s.sim cfg h)
  | .hole i => h i
  | .cstyle _ _ => .refl _
  | .data w vs => .data w (vs.sim cfg h)
  | .record fs => .record (fs.sim cfg h)
theorem Variants.sim (cfg : Cfg) {ρ ρ' : Nat → Schema} {f : ∀ i, (ρ i).Val → (ρ' i).Val}
    (h : ∀ i, Codec.Sim (f i) ((ρ i).codec cfg) ((ρ' i).codec cfg)) :
    ∀ vs : Variants, VCodec.Sim (vs.mapFill f) ((vs.fill ρ).codec cfg) ((vs.fill ρ').codec cfg)
  | .nil => .nil
  | .cons tag s vs => .cons tag (s.sim cfg h) (vs.sim cfg h)
theorem Fields.sim (cfg : Cfg) {ρ ρ' : Nat → Schema} {f : ∀ i, (ρ i).Val → (ρ' i).Val}
    (h : ∀ i, Codec.Sim (f i) ((ρ i).codec cfg) ((ρ' i).codec cfg)) :
    ∀ fs : Fields, FCodec.Sim (fs.mapFill f) ((fs.fill ρ).codec cfg) ((fs.fill ρ').codec cfg)
  | .nil => .nil
  | .cons s fs => .cons (s.sim cfg h) (fs.sim cfg h)
end

end Verif
