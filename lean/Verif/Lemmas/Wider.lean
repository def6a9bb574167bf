import Verif.Spec.Wider
import Verif.RecCodec
import Verif.Lemmas.Recursive
/-
Codecs of wider types: they write the same, and parse the same unless the narrower type's parser reports something that
is out of its range.
-/
namespace Verif

variable {σ α β α' β' γ : Type}

/-- `m'` does what `m` does (up to `f`), unless `m` reports something out of range. -/
def Later (f : α → α') (m : PM σ α) (m' : PM σ α') : Prop :=
  ∀ s, (∃ e s', m s = .err e s' ∧ OutOfDate e) ∨ m' s = (f <$> m) s

namespace Later

theorem pure (f : α → α') (a : α) : Later f (Pure.pure a : PM σ α) (Pure.pure (f a)) := fun _ => .inr rfl

theorem pure' {f : α → α'} {a : α} {a' : α'} (h : f a = a') : Later f (Pure.pure a : PM σ α) (Pure.pure a') := by
  subst h
  exact pure f a

theorem refl (m : PM σ α) : Later (fun x => x) m m := by
  intro s
  right
  show m s = (m s).bind fun a s' => .ok a s'
  cases m s <;> rfl

theorem throw (f : α → α') (e : ParseError) : Later f (M.throw e : PM σ α) (M.throw e) := fun _ => .inr rfl
theorem panic (f : α → α') : Later f (M.panic : PM σ α) M.panic := fun _ => .inr rfl
theorem late (f : α → α') {e : ParseError} (h : OutOfDate e) (m : PM σ α') : Later f (M.throw e : PM σ α) m :=
  fun s => .inl ⟨e, s, rfl, h⟩

theorem bind {f : α → α'} {g : β → β'} {m : PM σ α} {m' : PM σ α'} {k : α → PM σ β} {k' : α' → PM σ β'}
    (h : Later f m m') (hk : ∀ a, Later g (k a) (k' (f a))) : Later g (m >>= k) (m' >>= k') := by
  intro s
  rcases h s with ⟨e, s', h, ho⟩ | h
  · left
    rw [M.bind_run, h]
    exact ⟨e, s', rfl, ho⟩
  · rw [M.map_run, M.bind_run, M.bind_run, h, M.map_run]
    cases m s with
    | ok a s' => exact hk a s'
    | _ => exact .inr rfl

theorem bind_same {g : β → β'} (m : PM σ α) {k : α → PM σ β} {k' : α → PM σ β'}
    (hk : ∀ a, Later g (k a) (k' a)) : Later g (m >>= k) (m >>= k') := bind (refl m) hk

theorem ite {c : Prop} [Decidable c] {f : α → α'} {m n : PM σ α} {m' n' : PM σ α'} (h : Later f m m') (h' : Later f n n') :
    Later f (if c then m else n) (if c then m' else n') := by
  split
  · exact h
  · exact h'

theorem iterN {f : β → β'} {g : α → α'} {body : β → PM σ (β ⊕ α)} {body' : β' → PM σ (β' ⊕ α')}
    (h : ∀ b, Later (Sum.map f g) (body b) (body' (f b))) : ∀ (n : Nat) (b : β) (s : σ),
    (∃ e s', Verif.iterN body n b s = some (.err e s') ∧ OutOfDate e) ∨
      Verif.iterN body' n (f b) s = (Verif.iterN body n b s).map fun o => o.bind fun a s' => .ok (g a) s'
  | 0, _, _ => .inr rfl
  | n + 1, b, s => by
    simp only [Verif.iterN]
    rcases h b s with ⟨e, s', h', ho⟩ | h'
    · rw [h']
      exact .inl ⟨e, s', rfl, ho⟩
    · rw [h', M.map_run]
      cases hb : body b s with
      | ok r s' =>
        cases r with
        | inl b' => exact iterN h n b' s'
        | inr a => exact .inr rfl
      | _ => exact .inr rfl

theorem iterM {f : β → β'} {g : α → α'} {body : β → PM σ (β ⊕ α)} {body' : β' → PM σ (β' ⊕ α')}
    (h : ∀ b, Later (Sum.map f g) (body b) (body' (f b))) (b : β) : Later g (iterM body b) (iterM body' (f b)) := by
  intro s
  by_cases hex : ∃ n o, Verif.iterN body n b s = some o
  · obtain ⟨n, o, hn⟩ := hex
    rw [M.map_run, iterM_of_iterN hn]
    rcases iterN h n b s with ⟨e, s', h', ho⟩ | h'
    · rw [hn] at h'
      exact .inl ⟨e, s', Option.some.inj h', ho⟩
    · rw [hn] at h'
      exact .inr (iterM_of_iterN h')
  · right
    have hd : ∀ n, Verif.iterN body n b s = none := fun n => by
      cases h : Verif.iterN body n b s with
      | none => rfl
      | some o => exact absurd ⟨n, o, h⟩ hex
    have hd' : ∀ n, Verif.iterN body' n (f b) s = none := fun n => by
      rcases iterN h n b s with ⟨e, s', h', _⟩ | h'
      · rw [hd n] at h'; cases h'
      · rw [h', hd n]; rfl
    rw [M.map_run, iterM_eq_diverge hd, iterM_eq_diverge hd']
    rfl

/-- A tag that both know, or that the narrower type does not. -/
theorem tag (w : TagWidth) (p : PM σ Nat) {tags tags' : List Nat} (h : ∀ t ∈ tags, t ∈ tags') {f : α → α'} {k : Nat → PM σ α}
    {k' : Nat → PM σ α'} (hk : ∀ t ∈ tags, Later f (k t) (k' t)) :
    Later f (ParserOps.takeTagword w p tags >>= k) (ParserOps.takeTagword w p tags' >>= k') := by
  intro s
  unfold ParserOps.takeTagword
  simp only [M.bind_run, M.map_run]
  cases p s with
  | ok n s' =>
    simp only [Out.bind_ok]
    by_cases hn : n ∈ tags
    · rw [if_pos (List.contains_iff_mem.2 hn), if_pos (List.contains_iff_mem.2 (h n hn))]
      exact hk n hn s'
    · rw [if_neg (mt List.contains_iff_mem.1 hn)]
      left
      cases tags with
      | nil => exact ⟨_, s', rfl, .noTags⟩
      | cons t ts => exact ⟨_, s', rfl, .tag w n _ hn⟩
  | _ => exact .inr rfl

end Later

/-- `w'` writes what `w` writes, unless `w` panics. -/
def WLater {τ : Type} (w w' : W τ) : Prop := ∀ t, w t = none ∨ w' t = w t

namespace WLater

variable {τ : Type} {w w' v v' : W τ}

theorem refl (w : W τ) : WLater w w := fun _ => .inr rfl

theorem add (h : WLater w w') (h' : WLater v v') : WLater (W.add w v) (W.add w' v') := by
  intro t
  unfold W.add
  rcases h t with e | e
  · rw [e]; exact .inl rfl
  · rw [e]
    cases w t with
    | none => exact .inl rfl
    | some r =>
      obtain ⟨n, t'⟩ := r
      simp only []
      rcases h' t' with e | e
      · rw [e]; exact .inl rfl
      · rw [e]; exact .inr rfl

end WLater

structure Codec.Later (f : α → α') (c : Codec α) (c' : Codec α') : Prop where
  write : ∀ {τ : Type} (T : TargetOps τ) x, WLater (c.write T x) (c'.write T (f x))
  parse : ∀ {σ : Type} (P : ParserOps σ), Verif.Later f (c.parse P) (c'.parse P)
  known : c'.known = c.known
  unknown : ∀ x, c'.unknown (f x) = c.unknown x

structure VCodec.Later (f : α → α') (c : VCodec α) (c' : VCodec α') : Prop where
  tags : ∀ t ∈ c.tags, t ∈ c'.tags
  write : ∀ (w : TagWidth) {τ : Type} (T : TargetOps τ) x, WLater (c.write w T x) (c'.write w T (f x))
  parse : ∀ {σ : Type} (P : ParserOps σ) (t : Nat), t ∈ c.tags → Verif.Later f (c.parse P t) (c'.parse P t)
  unknown : ∀ w x, c'.unknown w (f x) = c.unknown w x

structure FCodec.Later (f : α → α') (c : FCodec α) (c' : FCodec α') : Prop where
  write : ∀ {τ : Type} (T : TargetOps τ) x, WLater (c.write T x) (c'.write T (f x))
  parse : ∀ {σ : Type} (P : ParserOps σ), Verif.Later f (c.parse P) (c'.parse P)
  known : c'.known = c.known
  unknown : ∀ x, c'.unknown (f x) = c.unknown x

namespace Codec.Later

variable {f : α → α'} {c : Codec α} {c' : Codec α'}

theorem refl (c : Codec α) : Later (fun x => x) c c where
  write _ _ := .refl _
  parse _ := .refl _
  known := rfl
  unknown _ := rfl

theorem estimate (h : Later f c c') (x : α) : c'.estimate (f x) = c.estimate x := by
  unfold Codec.estimate
  rw [h.known, h.unknown]

theorem encLen (h : Later f c c') (cfg : Cfg) (x : α) : c.encLen cfg x = none ∨ c'.encLen cfg (f x) = c.encLen cfg x := by
  unfold Codec.encLen
  rw [h.estimate]
  rcases h.write sinkTarget x sinkTarget.create with e | e
  · rw [e]
    split
    · exact .inr rfl
    · exact .inl rfl
  · rw [e]; exact .inr rfl

theorem writeList (h : Later f c c') {τ : Type} (T : TargetOps τ) : ∀ xs : List α,
    WLater (c.writeList T xs) (c'.writeList T (xs.map f))
  | [] => .refl _
  | x :: xs => .add (h.write T x) (writeList h T xs)

theorem rangedInt (t : IntTy) {min max min' max' : Int} (hmin : min' = min ∨ min' ≤ min ∧ min ≤ 0) (hmax : max ≤ max') :
    Later (fun x => x) (Codec.rangedInt t min max) (Codec.rangedInt t min' max') where
  write T x := by
    unfold Codec.rangedInt RangedInt.toUnderlying
    simp only []
    cases h : restrict (t.toInt x) min max with
    | error e => exact fun _ => .inl rfl
    | ok u =>
      have h' : restrict (t.toInt x) min' max' = .ok () := by
        rw [restrict_ok_iff] at h ⊢
        unfold Enc.inRange at h ⊢
        split at h <;> split <;> omega
      rw [h']
      exact .refl _
  parse P := by
    refine .bind_same _ fun x => ?_
    unfold RangedInt.tryFromUnderlying
    cases h : restrict (t.toInt x) min max with
    | error e => exact .late _ (.range e) _
    | ok u =>
      have h' : restrict (t.toInt x) min' max' = .ok () := by
        rw [restrict_ok_iff] at h ⊢
        unfold Enc.inRange at h ⊢
        split at h <;> split <;> omega
      rw [h']
      exact .refl _
  known := rfl
  unknown _ := rfl

theorem f64_trans {x y z : BitVec 64} (h : F64.le x y = true) (h' : F64.le y z = true) : F64.le x z = true := by
  unfold F64.le at *
  simp only [Bool.and_eq_true, decide_eq_true_eq] at *
  exact ⟨⟨h.1.1, h'.1.2⟩, Int.le_trans h.2 h'.2⟩

theorem rangedFloat {min max min' max' : BitVec 64} (hmin : min' = min ∨ F64.le min' min = true)
    (hmax : max' = max ∨ F64.le max max' = true) : Later (fun x => x) (Codec.rangedFloat min max) (Codec.rangedFloat min' max') where
  write T x := .refl _
  parse P := by
    refine .bind_same _ fun x => ?_
    have lo : ∀ y, F64.le min y = true → F64.le min' y = true := fun y hy => by
      rcases hmin with e | e
      · rw [e]; exact hy
      · exact f64_trans e hy
    have hi : ∀ y, F64.le y max = true → F64.le y max' = true := fun y hy => by
      rcases hmax with e | e
      · rw [e]; exact hy
      · exact f64_trans hy e
    have h : (∃ e, restrictFloat x min max = .error e) ∨ restrictFloat x min max = .ok x ∧ restrictFloat x min' max' = .ok x := by
      unfold restrictFloat
      by_cases h1 : F64.le min max = true
      · by_cases h2 : F64.le min x = true
        · by_cases h3 : F64.le x max = true
          · rw [if_pos h1, if_pos h2, if_pos h3, if_pos (lo _ (hi _ h1)), if_pos (lo _ h2), if_pos (hi _ h3)]
            exact .inr ⟨rfl, rfl⟩
          · rw [if_pos h1, if_pos h2, if_neg h3]; exact .inl ⟨_, rfl⟩
        · rw [if_pos h1, if_neg h2]; exact .inl ⟨_, rfl⟩
      · rw [if_neg h1]; exact .inl ⟨_, rfl⟩
    rcases h with ⟨e, h⟩ | ⟨h, h'⟩
    · rw [h]; exact .late _ (.floatRange e) _
    · rw [h, h']; exact .refl _
  known := rfl
  unknown _ := rfl

theorem option (h : Later f c c') : Later (Option.map f) (Codec.option c) (Codec.option c') where
  write T x := by
    cases x with
    | none => exact .refl _
    | some x => exact WLater.add (.add (.refl (W.push (T.pushOne 0xff))) (h.write T x)) (.refl (W.resolveZero T))
  parse P := .bind_same _ fun _ => .ite (.bind (h.parse P) fun a => .pure _ _) (.ite (.pure _ _) (.panic _))
  known := by simp only [Codec.option, h.known]
  unknown x := by
    cases x with
    | none => rfl
    | some x => simp only [Codec.option, Option.map, h.estimate]

theorem nullable (h : Later f c c') : Later (Option.map f) (Codec.nullable c) (Codec.nullable c') where
  write T x := by
    cases x with
    | none => exact .refl _
    | some x => exact WLater.add (h.write T x) (.refl (W.resolveZero T))
  parse P := .bind_same _ fun _ => .ite (.bind (h.parse P) fun a => .pure _ _) (.pure _ _)
  known := by simp only [Codec.nullable, h.known]
  unknown x := by
    cases x with
    | none => rfl
    | some x => simp only [Codec.nullable, Option.map, h.estimate]

theorem dynamic (cfg : Cfg) (S : LenPref) (h : Later f c c') : Later f (Codec.dynamic cfg S c) (Codec.dynamic cfg S c') where
  write T x := by
    intro t
    simp only [Codec.dynamic]
    rcases h.encLen cfg x with e | e
    · rw [e]; exact .inl rfl
    · rw [e]
      cases c.encLen cfg x with
      | none => exact .inl rfl
      | some l =>
        simp only []
        split
        · exact (WLater.refl _).add ((h.write T x).add (.refl _)) _
        · exact .inl rfl
  parse P := .bind_same _ fun _ => .bind_same _ fun _ => .bind (h.parse P) fun _ => .bind_same _ fun _ => .pure _ _
  known := by simp only [Codec.dynamic, h.known]
  unknown x := by simp only [Codec.dynamic, h.unknown]

theorem vpadded (cfg : Cfg) (n : Nat) (h : Later f c c') : Later f (Codec.vpadded cfg n c) (Codec.vpadded cfg n c') where
  write T x := h.write T x
  parse P := .bind_same _ fun rem => .ite (.panic _) <| by
    cases usub cfg.prof rem n with
    | none => exact .panic _
    | some k => exact .bind_same _ fun _ => .bind (h.parse P) fun _ => .bind_same _ fun _ => .pure _ _
  known := h.known
  unknown x := h.unknown x

theorem padded (cfg : Cfg) (n : Nat) (h : Later f c c') : Later f (Codec.padded cfg n c) (Codec.padded cfg n c') where
  write T x := WLater.add (.add (h.write T x) (.refl (W.push (T.pushMany (List.replicate n 0))))) (.refl (W.resolveZero T))
  parse P := .bind (h.parse P) fun _ => .bind_same _ fun _ => .ite (.throw _ _) (.pure _ _)
  known := by simp only [Codec.padded, h.known]
  unknown x := by simp only [Codec.padded, h.unknown]

theorem sum_estimate (h : Later f c c') (xs : List α) :
    ((xs.map f).map c'.estimate).sum = (xs.map c.estimate).sum := by
  rw [List.map_map]
  congr 1
  exact List.map_congr_left fun x _ => h.estimate x

theorem sum_unknown (h : Later f c c') (xs : List α) :
    ((xs.map f).map c'.unknown).sum = (xs.map c.unknown).sum := by
  rw [List.map_map]
  congr 1
  exact List.map_congr_left fun x _ => h.unknown x

theorem tryPush {σ : Type} {n n' : Nat} (hn : n ≤ n') (acc : List α) (a : α) (f : α → α') :
    Verif.Later (List.map f) (Codec.tryPush n acc a : PM σ (List α)) (Codec.tryPush n' (acc.map f) (f a)) := by
  unfold Codec.tryPush
  rw [List.length_map]
  by_cases h : acc.length < n
  · rw [if_pos h, if_pos (Nat.lt_of_lt_of_le h hn)]
    exact .pure' (by simp)
  · rw [if_neg h]
    exact .late _ (.length n) _

theorem seq (h : Later f c c') : Later (List.map f) (Codec.seq c) (Codec.seq c') where
  write T x := WLater.add (h.writeList T x) (.refl (W.resolveZero T))
  parse P := by
    refine .iterM (f := List.map f) (fun acc => ?_) []
    refine .bind_same _ fun _ => .ite (.bind (h.parse P) fun a => .pure' ?_) (.pure' rfl)
    simp
  known := rfl
  unknown x := h.sum_estimate x

theorem fixSeq (n : Nat) (h : Later f c c') : Later (List.map f) (Codec.fixSeq n c) (Codec.fixSeq n c') where
  write T x := WLater.add (h.writeList T x) (.refl (W.resolveZero T))
  parse P := by
    refine .bind (f := List.map f) (.iterM (f := List.map f) (fun acc => ?_) []) fun l => ?_
    · refine .bind_same _ fun _ => ?_
      rw [List.length_map]
      refine .ite (.bind (h.parse P) fun a => .bind (tryPush (Nat.le_refl n) acc a f) fun _ => ?_) (.pure' rfl)
      exact .pure' rfl
    · rw [List.length_map]
      exact .ite (.pure _ _) (.throw _ _)
  known := by simp only [Codec.fixSeq, h.known]
  unknown x := h.sum_unknown x

theorem limSeq {n n' : Nat} (hn : n ≤ n') (h : Later f c c') : Later (List.map f) (Codec.limSeq n c) (Codec.limSeq n' c') where
  write T x := WLater.add (h.writeList T x) (.refl (W.resolveZero T))
  parse P := by
    refine .iterM (f := List.map f) (fun acc => ?_) []
    refine .bind_same _ fun _ => .ite (.bind (h.parse P) fun a => .bind (tryPush hn acc a f) fun _ => ?_) (.pure' rfl)
    exact .pure' rfl
  known := rfl
  unknown x := h.sum_estimate x

theorem autobox (h : Later f c c') : Later f (Codec.autobox c) (Codec.autobox c') where
  write T x := h.write T x
  parse P := h.parse P
  known := h.known
  unknown x := h.unknown x

theorem cstyle (w : TagWidth) {tags tags' : List Nat} (h : ∀ t ∈ tags, t ∈ tags') :
    Later (fun x => (⟨x.1, h x.1 x.2⟩ : CEnum tags')) (Codec.cstyle w tags) (Codec.cstyle w tags') where
  write T x := .refl _
  parse P := .tag w _ h fun t ht => by
    rw [dif_pos ht, dif_pos (h t ht)]
    exact .pure' rfl
  known := rfl
  unknown x := rfl

theorem data (w : TagWidth) {v : VCodec α} {v' : VCodec α'} (h : VCodec.Later f v v') : Later f (Codec.data w v) (Codec.data w v') where
  write T x := h.write w T x
  parse P := .tag w _ h.tags fun t ht => h.parse P t ht
  known := rfl
  unknown x := h.unknown w x

theorem record {v : FCodec α} {v' : FCodec α'} (h : FCodec.Later f v v') : Later f (Codec.record v) (Codec.record v') where
  write T x := WLater.add (h.write T x) (.refl (W.resolveZero T))
  parse P := h.parse P
  known := h.known
  unknown x := h.unknown x

end Codec.Later

theorem FCodec.Later.nil : FCodec.Later (fun x => x) FCodec.nil FCodec.nil where
  write _ _ := .refl _
  parse _ := .refl _
  known := rfl
  unknown _ := rfl

theorem FCodec.Later.cons {f : α → α'} {g : β → β'} {c : Codec α} {c' : Codec α'} {v : FCodec β} {v' : FCodec β'}
    (h : Codec.Later f c c') (hv : FCodec.Later g v v') : FCodec.Later (Prod.map f g) (FCodec.cons c v) (FCodec.cons c' v') where
  write T x := .add (h.write T x.1) (hv.write T x.2)
  parse P := .bind (h.parse P) fun _ => .bind (hv.parse P) fun _ => .pure _ _
  known := by simp only [FCodec.cons, h.known, hv.known]
  unknown x := by simp only [FCodec.cons, Prod.map, h.unknown, hv.unknown]

/-- One arm of an enum, as the enum's own code has it. -/
structure VCodec.Has (tag : Nat) (f : α → β) (c : Codec α) (v : VCodec β) : Prop where
  mem : tag ∈ v.tags
  write : ∀ (w : TagWidth) {τ : Type} (T : TargetOps τ) x,
    v.write w T (f x) = W.add (w.write T tag) (W.add (c.write T x) (W.resolveZero T))
  parse : ∀ {σ : Type} (P : ParserOps σ), v.parse P tag = f <$> c.parse P
  unknown : ∀ w x, v.unknown w (f x) = w.len + c.estimate x

theorem VCodec.Has.here (tag : Nat) (c : Codec α) (v : VCodec β) : VCodec.Has tag Sum.inl c (VCodec.cons tag c v) where
  mem := .head _
  write _ _ _ _ := rfl
  parse P := by
    show (if tag = tag then _ else _) = _
    rw [if_pos rfl]
    rfl
  unknown _ _ := rfl

theorem VCodec.Has.there {tag : Nat} {f : α → β} {c : Codec α} {v : VCodec β} (h : VCodec.Has tag f c v) {tag' : Nat}
    (hne : tag' ≠ tag) (c' : Codec γ) : VCodec.Has tag (fun x => Sum.inr (f x)) c (VCodec.cons tag' c' v) where
  mem := .tail _ h.mem
  write w _ T x := h.write w T x
  parse P := by
    show (if tag = tag' then _ else _) = _
    rw [if_neg (Ne.symm hne), h.parse]
    funext s
    simp only [M.bind_run, M.map_run]
    cases c.parse P s <;> rfl
  unknown w x := h.unknown w x

theorem VCodec.Later.nil (v' : VCodec β) : VCodec.Later (fun x : Empty => (nomatch x : β)) VCodec.nil v' where
  tags := nofun
  write _ _ _ x := nomatch x
  parse _ _ h := nomatch h
  unknown _ x := nomatch x

theorem VCodec.Later.cons {tag : Nat} {f : α → α'} {i : α' → γ} {g : β → γ} {c : Codec α} {c' : Codec α'} {v : VCodec β}
    {v' : VCodec γ} (ha : VCodec.Has tag i c' v') (h : Codec.Later f c c') (hv : VCodec.Later g v v') :
    VCodec.Later (Sum.elim (fun x => i (f x)) g) (VCodec.cons tag c v) v' where
  tags t ht := by
    rcases List.mem_cons.1 ht with e | e
    · rw [e]; exact ha.mem
    · exact hv.tags t e
  write w _ T x := by
    cases x with
    | inl x =>
      show WLater _ (v'.write w T (i (f x)))
      rw [ha.write]
      exact WLater.add (.refl (w.write T tag)) (.add (h.write T x) (.refl (W.resolveZero T)))
    | inr x => exact hv.write w T x
  parse P t ht := by
    show Verif.Later _ (if t = tag then _ else _) _
    split
    · next e =>
      subst e
      rw [ha.parse]
      intro s
      rcases h.parse P s with ⟨e, s', he, ho⟩ | he
      · exact .inl ⟨e, s', by rw [M.bind_run, he]; rfl, ho⟩
      · right
        rw [M.map_run, he, M.map_run, M.map_run, M.bind_run]
        cases c.parse P s <;> rfl
    · next hne =>
      have ht' : t ∈ v.tags := (List.mem_cons.1 ht).resolve_left hne
      intro s
      rcases hv.parse P t ht' s with ⟨e, s', he, ho⟩ | he
      · exact .inl ⟨e, s', by rw [M.bind_run, he]; rfl, ho⟩
      · right
        rw [he, M.map_run, M.map_run, M.bind_run]
        cases v.parse P t s <;> rfl
  unknown w x := by
    cases x with
    | inl x =>
      show v'.unknown w (i (f x)) = w.len + c.estimate x
      rw [ha.unknown, h.estimate]
    | inr x => exact hv.unknown w x

theorem Arm.has (cfg : Cfg) {tag : Nat} {s : Schema} : ∀ {vs : Variants} (a : Arm tag s vs),
    VCodec.Has tag a.inj (s.codec cfg) (vs.codec cfg)
  | _, .here _ => .here _ _ _
  | _, .there _ _ h a => (a.has cfg).there h _

mutual
theorem Wider.later (cfg : Cfg) : ∀ {s s' : Schema} (h : Wider s s'), Codec.Later h.up (s.codec cfg) (s'.codec cfg)
  | _, _, .unit => .refl _
  | _, _, .bool => .refl _
  | _, _, .int _ => .refl _
  | _, _, .f64 => .refl _
  | _, _, .rangedInt t h h' => .rangedInt t h h'
  | _, _, .rangedFloat h h' => .rangedFloat h h'
  | _, _, .zarithN => .refl _
  | _, _, .zarithZ => .refl _
  | _, _, .bytes => .refl _
  | _, _, .vecU8 => .refl _
  | _, _, .string => .refl _
  | _, _, .fixedBytes _ => .refl _
  | _, _, .fixedString _ => .refl _
  | _, _, .option h => .option (h.later cfg)
  | _, _, .nullable h => .nullable (h.later cfg)
  | _, _, .dynamic S h => .dynamic cfg S (h.later cfg)
  | _, _, .vpadded n h => .vpadded cfg n (h.later cfg)
  | _, _, .padded n h => .padded cfg n (h.later cfg)
  | _, _, .seq h => .seq (h.later cfg)
  | _, _, .fixSeq n h => .fixSeq n (h.later cfg)
  | _, _, .limSeq hn h => .limSeq hn (h.later cfg)
  | _, _, .autobox h => .autobox (h.later cfg)
  | _, _, .hole _ => .refl _
  | _, _, .cstyle w h => .cstyle w h
  | _, _, .data w h => .data w (h.later cfg)
  | _, _, .record h => .record (h.later cfg)
theorem VWider.later (cfg : Cfg) : ∀ {vs vs' : Variants} (h : VWider vs vs'), VCodec.Later h.up (vs.codec cfg) (vs'.codec cfg)
  | _, _, .nil _ => .nil _
  | _, _, .cons _ a h hs => .cons (a.has cfg) (h.later cfg) (hs.later cfg)
theorem FWider.later (cfg : Cfg) : ∀ {fs fs' : Fields} (h : FWider fs fs'), FCodec.Later h.up (fs.codec cfg) (fs'.codec cfg)
  | _, _, .nil => .nil
  | _, _, .cons h hs => .cons (h.later cfg) (hs.later cfg)
end

/-! ### different values stay different -/

theorem Arm.inj_inj {tag : Nat} {s : Schema} : ∀ {vs : Variants} (a : Arm tag s vs) {x y : s.Val}, a.inj x = a.inj y → x = y
  | _, .here _, _, _, h => Sum.inl.inj h
  | _, .there _ _ _ a, _, _, h => a.inj_inj (Sum.inr.inj h)

/-- The tag of the value's arm. -/
def Variants.tagOf : (vs : Variants) → vs.Val → Nat
  | .nil, x => nomatch x
  | .cons tag _ vs, x => Sum.elim (fun _ => tag) vs.tagOf x

theorem Variants.tagOf_mem : ∀ (vs : Variants) (x : vs.Val), vs.tagOf x ∈ vs.tags
  | .nil, x => nomatch x
  | .cons _ _ _, .inl _ => .head _
  | .cons _ _ vs, .inr x => .tail _ (vs.tagOf_mem x)

theorem Arm.tagOf {tag : Nat} {s : Schema} : ∀ {vs : Variants} (a : Arm tag s vs) (x : s.Val), vs.tagOf (a.inj x) = tag
  | _, .here _, _ => rfl
  | _, .there _ _ _ a, x => a.tagOf x

theorem VWider.tagOf : ∀ {vs vs' : Variants} (h : VWider vs vs') (x : vs.Val), vs'.tagOf (h.up x) = vs.tagOf x
  | _, _, .nil _, x => nomatch x
  | _, _, .cons _ a h _, .inl x => a.tagOf (h.up x)
  | _, _, .cons _ _ _ hs, .inr x => hs.tagOf x

theorem VWider.arms_inj {A B C : Type} {i : A → C} {j : B → C} (hi : ∀ x y, i x = i y → x = y) (hj : ∀ x y, j x = j y → x = y)
    (hd : ∀ x y, i x ≠ j y) : ∀ x y : A ⊕ B, Sum.elim i j x = Sum.elim i j y → x = y
  | .inl x, .inl y, h => congrArg _ (hi x y h)
  | .inl x, .inr y, h => absurd h (hd x y)
  | .inr x, .inl y, h => absurd h.symm (hd y x)
  | .inr x, .inr y, h => congrArg _ (hj x y h)

theorem Wider.opt_inj {A B : Type} {f : A → B} (h : ∀ x y, f x = f y → x = y) : ∀ x y, Option.map f x = Option.map f y → x = y
  | none, none, _ => rfl
  | some x, some y, e => congrArg _ (h x y (Option.some.inj e))

theorem Wider.lst_inj {A B : Type} {f : A → B} (h : ∀ x y, f x = f y → x = y) : ∀ x y, List.map f x = List.map f y → x = y
  | [], [], _ => rfl
  | x :: xs, y :: ys, e => by
    rw [List.map_cons, List.map_cons] at e
    rw [h x y (List.cons.inj e).1, Wider.lst_inj h xs ys (List.cons.inj e).2]

mutual
theorem Wider.up_inj : ∀ {s s' : Schema} (h : Wider s s'), s.tagsOk → ∀ x y, h.up x = h.up y → x = y
  | _, _, .unit, _, _, _, e | _, _, .bool, _, _, _, e | _, _, .int _, _, _, _, e | _, _, .f64, _, _, _, e
  | _, _, .rangedInt _ _ _, _, _, _, e | _, _, .rangedFloat _ _, _, _, _, e | _, _, .zarithN, _, _, _, e
  | _, _, .zarithZ, _, _, _, e | _, _, .bytes, _, _, _, e | _, _, .vecU8, _, _, _, e | _, _, .string, _, _, _, e
  | _, _, .fixedBytes _, _, _, _, e | _, _, .fixedString _, _, _, _, e | _, _, .hole _, _, _, _, e => e
  | _, _, .option h, ht, x, y, e | _, _, .nullable h, ht, x, y, e => Wider.opt_inj (h.up_inj ht) x y e
  | _, _, .dynamic _ h, ht, x, y, e | _, _, .vpadded _ h, ht, x, y, e | _, _, .padded _ h, ht, x, y, e
  | _, _, .autobox h, ht, x, y, e => h.up_inj ht x y e
  | _, _, .seq h, ht, x, y, e | _, _, .fixSeq _ h, ht, x, y, e | _, _, .limSeq _ h, ht, x, y, e => Wider.lst_inj (h.up_inj ht) x y e
  | _, _, .cstyle _ _, _, _, _, e => Subtype.ext (congrArg (fun z => z.1) e)
  | _, _, .data _ h, ht, x, y, e => h.up_inj ht.2 x y e
  | _, _, .record h, ht, x, y, e => h.up_inj ht x y e
theorem VWider.up_inj : ∀ {vs vs' : Variants} (h : VWider vs vs'), vs.tagsOk → ∀ x y, h.up x = h.up y → x = y
  | _, _, .nil _, _, x, _, _ => nomatch x
  | _, _, .cons tag a h hs, ht, x, y, e =>
    VWider.arms_inj (fun x y e => h.up_inj ht.2.1 x y (a.inj_inj e)) (hs.up_inj ht.2.2)
      (fun x y e => ht.1 (by
        have e' := congrArg (Variants.tagOf _) e
        rw [a.tagOf, hs.tagOf] at e'
        rw [e']
        exact Variants.tagOf_mem _ y)) x y e
theorem FWider.up_inj : ∀ {fs fs' : Fields} (h : FWider fs fs'), fs.tagsOk → ∀ x y, h.up x = h.up y → x = y
  | _, _, .nil, _, _, _, e => e
  | _, _, .cons h hs, ht, x, y, e =>
    Prod.ext (h.up_inj ht.1 x.1 y.1 (Prod.mk.inj e).1) (hs.up_inj ht.2 x.2 y.2 (Prod.mk.inj e).2)
end

/-! ### recursive types -/

theorem Wider.opt {A B C D : Type} {f : A → B} {f' : C → D} {g : B → D} {g' : A → C} (h : ∀ x, g (f x) = f' (g' x))
    (x : Option A) : Option.map g (Option.map f x) = Option.map f' (Option.map g' x) := by
  cases x with
  | none => rfl
  | some x => exact congrArg some (h x)

theorem Wider.lst {A B C D : Type} {f : A → B} {f' : C → D} {g : B → D} {g' : A → C} (h : ∀ x, g (f x) = f' (g' x))
    (x : List A) : List.map g (List.map f x) = List.map f' (List.map g' x) := by
  rw [List.map_map, List.map_map]
  exact List.map_congr_left fun y _ => h y

theorem VWider.arm {A B A' B' C D : Type} {f : A → A'} {f' : B → B'} {i : A → C} {i' : A' → D} {j : B → C} {j' : B' → D}
    {k : C → D} (h : ∀ x, i' (f x) = k (i x)) (h' : ∀ x, j' (f' x) = k (j x)) (x : A ⊕ B) :
    Sum.elim i' j' (Sum.map f f' x) = k (Sum.elim i j x) := by
  cases x with
  | inl x => exact h x
  | inr x => exact h' x

theorem FWider.pair {A B C D A' B' C' D' : Type} {f : A → B} {f' : C → D} {g : B → D} {g' : A → C} {k : A' → B'} {k' : C' → D'}
    {l : B' → D'} {l' : A' → C'} (h : ∀ x, g (f x) = f' (g' x)) (h' : ∀ x, l (k x) = k' (l' x)) (x : A × A') :
    Prod.map g l (Prod.map f k x) = Prod.map f' k' (Prod.map g' l' x) := Prod.ext (h x.1) (h' x.2)

theorem Arm.inj_map {tag : Nat} {s : Schema} {ρ ρ' : Nat → Schema} (f : ∀ i, (ρ i).Val → (ρ' i).Val) :
    ∀ {vs : Variants} (a : Arm tag s vs) (x : (s.fill ρ).Val),
      (a.fill ρ').inj (s.mapFill f x) = vs.mapFill f ((a.fill ρ).inj x)
  | _, .here _, _ => rfl
  | _, .there _ _ _ a, x => congrArg Sum.inr (Arm.inj_map f a x)

mutual
theorem Wider.up_map {ρ ρ' r r' : Nat → Schema} {f : ∀ i, (ρ i).Val → (ρ' i).Val} {g : ∀ i, (r i).Val → (r' i).Val}
    {e : ∀ i, Wider (ρ i) (r i)} {e' : ∀ i, Wider (ρ' i) (r' i)} (he : ∀ i x, (e' i).up (f i x) = g i ((e i).up x)) :
    ∀ {s s' : Schema} (h : Wider s s') (x : (s.fill ρ).Val), (h.fill e').up (s.mapFill f x) = s'.mapFill g ((h.fill e).up x)
  | _, _, .unit, _ => rfl
  | _, _, .bool, _ => rfl
  | _, _, .int _, _ => rfl
  | _, _, .f64, _ => rfl
  | _, _, .rangedInt _ _ _, _ => rfl
  | _, _, .rangedFloat _ _, _ => rfl
  | _, _, .zarithN, _ => rfl
  | _, _, .zarithZ, _ => rfl
  | _, _, .bytes, _ => rfl
  | _, _, .vecU8, _ => rfl
  | _, _, .string, _ => rfl
  | _, _, .fixedBytes _, _ => rfl
  | _, _, .fixedString _, _ => rfl
  | _, _, .option h, x => Wider.opt (h.up_map he) x
  | _, _, .nullable h, x => Wider.opt (h.up_map he) x
  | _, _, .dynamic _ h, x => h.up_map he x
  | _, _, .vpadded _ h, x => h.up_map he x
  | _, _, .padded _ h, x => h.up_map he x
  | _, _, .seq h, x => Wider.lst (h.up_map he) x
  | _, _, .fixSeq _ h, x => Wider.lst (h.up_map he) x
  | _, _, .limSeq _ h, x => Wider.lst (h.up_map he) x
  | _, _, .autobox h, x => h.up_map he x
  | _, _, .hole i, x => he i x
  | _, _, .cstyle _ _, _ => rfl
  | _, _, .data _ h, x => h.up_map he x
  | _, _, .record h, x => h.up_map he x
theorem VWider.up_map {ρ ρ' r r' : Nat → Schema} {f : ∀ i, (ρ i).Val → (ρ' i).Val} {g : ∀ i, (r i).Val → (r' i).Val}
    {e : ∀ i, Wider (ρ i) (r i)} {e' : ∀ i, Wider (ρ' i) (r' i)} (he : ∀ i x, (e' i).up (f i x) = g i ((e i).up x)) :
    ∀ {vs vs' : Variants} (h : VWider vs vs') (x : (vs.fill ρ).Val),
      (h.fill e').up (vs.mapFill f x) = vs'.mapFill g ((h.fill e).up x)
  | _, _, .nil _, x => nomatch x
  | _, _, .cons _ a h hs, x => VWider.arm (i' := fun y => (a.fill r').inj ((h.fill e').up y)) (fun y => (congrArg _ (h.up_map he y)).trans (Arm.inj_map g a _)) (hs.up_map he) x
theorem FWider.up_map {ρ ρ' r r' : Nat → Schema} {f : ∀ i, (ρ i).Val → (ρ' i).Val} {g : ∀ i, (r i).Val → (r' i).Val}
    {e : ∀ i, Wider (ρ i) (r i)} {e' : ∀ i, Wider (ρ' i) (r' i)} (he : ∀ i x, (e' i).up (f i x) = g i ((e i).up x)) :
    ∀ {fs fs' : Fields} (h : FWider fs fs') (x : (fs.fill ρ).Val),
      (h.fill e').up (fs.mapFill f x) = fs'.mapFill g ((h.fill e).up x)
  | _, _, .nil, _ => rfl
  | _, _, .cons h hs, x => FWider.pair (h.up_map he) (hs.up_map he) x
end

namespace Decls

variable {d d' : Decls} (w : ∀ i, Wider (d.body i) (d'.body i))

theorem up_lift : ∀ (n i : Nat) (x : (d.unfold n i).Val),
    (wider w (n + 1) i).up (d.lift n i x) = d'.lift n i ((wider w n i).up x)
  | 0, _, x => nomatch x
  | n + 1, i, x => Wider.up_map (up_lift n) (w i) x

/-- A value of the narrower family as a value of the wider one. -/
def up (i : Nat) : d.Val i → d'.Val i :=
  Quot.lift (fun p => d'.val p.1 ((wider w p.1 i).up p.2)) fun _ _ h => by
    cases h with
    | step n x =>
      show d'.val n _ = d'.val (n + 1) _
      rw [up_lift]
      exact Quot.sound (.step n _)

theorem val_at (d : Decls) {i n : Nat} (x : (d.unfold n i).Val) : ∀ k, ∃ y, d.val (n + k) y = d.val n x
  | 0 => ⟨x, rfl⟩
  | k + 1 => by
    obtain ⟨y, hy⟩ := val_at d x k
    exact ⟨d.lift _ i y, (d.val_lift _ y).trans hy⟩

/-- Two values are values of one unfolding. -/
theorem exists_two (d : Decls) {i : Nat} (a b : d.Val i) : ∃ n x y, a = d.val n x ∧ b = d.val n y := by
  obtain ⟨n, x, rfl⟩ := d.exists_val a
  obtain ⟨m, y, rfl⟩ := d.exists_val b
  obtain ⟨x', hx⟩ := d.val_at x m
  obtain ⟨y', hy⟩ : ∃ y', d.val (n + m) y' = d.val m y := by
    rw [Nat.add_comm]
    exact d.val_at y n
  exact ⟨n + m, x', y', hx.symm, hy.symm⟩

theorem up_inj (ht : ∀ i, (d.body i).tagsOk) (i : Nat) (a b : d.Val i) (h : up w i a = up w i b) : a = b := by
  obtain ⟨n, x, y, rfl, rfl⟩ := d.exists_two a b
  exact congrArg (d.val n) ((wider w n i).up_inj (d.tagsOk ht n i) x y (d'.val_inj h))

theorem later (cfg : Cfg) (i : Nat) : Codec.Later (up w i) (d.codec cfg i) (d'.codec cfg i) where
  write T x := by
    induction x using Quot.ind with
    | mk y => exact ((wider w y.1 i).later cfg).write T y.2
  parse P := by
    intro s
    have h := fun n => ((wider w n i).later cfg).parse P s
    by_cases hex : ∃ n, ((d.unfold n i).codec cfg).parse P s ≠ .diverge
    · obtain ⟨n, hn⟩ := hex
      rw [M.map_run, d.parse_eq hn]
      rcases h n with ⟨e, s', h', ho⟩ | h'
      · rw [M.map_run, h']
        exact .inl ⟨e, s', rfl, ho⟩
      · right
        rw [M.map_run] at h'
        have hn' : ((d'.unfold n i).codec cfg).parse P s ≠ .diverge := by
          rw [h']
          intro hd
          revert hn hd
          cases ((d.unfold n i).codec cfg).parse P s <;> simp [Out.bind]
        rw [d'.parse_eq hn', M.map_run, M.map_run, h']
        cases ((d.unfold n i).codec cfg).parse P s <;> rfl
    · right
      have hd : ∀ n, ((d.unfold n i).codec cfg).parse P s = .diverge := fun n => Classical.byContradiction fun h' => hex ⟨n, h'⟩
      have h1 : (d.codec cfg i).parse P s = .diverge := dif_neg hex
      have h2 : (d'.codec cfg i).parse P s = .diverge := by
        refine dif_neg ?_
        rintro ⟨n, hn⟩
        rcases h n with ⟨e, s', h', _⟩ | h'
        · rw [hd n] at h'; cases h'
        · rw [M.map_run, hd n] at h'; exact hn h'
      rw [M.map_run, h1, h2]
      rfl
  known := rfl
  unknown x := by
    induction x using Quot.ind with
    | mk y => exact ((wider w y.1 i).later cfg).unknown y.2

end Decls

end Verif
