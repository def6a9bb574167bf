import Verif.Spec.Ends
import Verif.Lemmas.Schema
/-
The pure decoder comes back on every input if the elements of sequences read something.
-/
namespace Verif

variable {α β : Type}

/-- Success on input that is not empty reads something. -/
def Hungry (d : D α) : Prop := ∀ v a r, v ≠ [] → d v = .ok a r → r.length < v.length

theorem Progress.hungry {d : D α} (h : Progress d) : Hungry d := fun v a r _ hd => h v a r hd

theorem ReadsPrefix.shorter {d : D α} (h : ReadsPrefix d) {v : Bytes} {a : α} {r : Bytes} (hd : d v = .ok a r) :
    r.length ≤ v.length := by
  obtain ⟨p, rfl⟩ := h _ _ _ hd
  simp

namespace Hungry

theorem rest : Hungry D.rest := by
  intro v a r hv h
  cases h
  cases v with
  | nil => exact absurd rfl hv
  | cons b v => simp

theorem map {d : D α} (h : Hungry d) (f : α → β) : Hungry (f <$> d) := by
  intro v a r hv hd
  rw [D.map_run] at hd
  cases hd' : d v with
  | ok x r' => rw [hd'] at hd; cases hd; exact h v x r hv hd'
  | _ => rw [hd'] at hd; cases hd

/-- The first part reads something. -/
theorem bind {d : D α} {f : α → D β} (h : Hungry d) (hf : ∀ a, ReadsPrefix (f a)) : Hungry (d >>= f) := by
  intro v b r hv hd
  rw [D.bind_run] at hd
  cases hd' : d v with
  | ok x r' =>
    rw [hd'] at hd
    exact Nat.lt_of_le_of_lt ((hf x).shorter hd) (h v x r' hv hd')
  | _ => rw [hd'] at hd; cases hd

/-- What follows does, if the first part has not. -/
theorem bind' {d : D α} {f : α → D β} (h : ReadsPrefix d) (hr : ∀ a, ReadsPrefix (f a)) (hf : ∀ a, Hungry (f a)) :
    Hungry (d >>= f) := by
  intro v b r hv hd
  rw [D.bind_run] at hd
  cases hd' : d v with
  | ok x r' =>
    rw [hd'] at hd
    have h1 := h.shorter hd'
    have h2 := (hr x).shorter hd
    by_cases hr' : r' = []
    · subst hr'
      have := List.length_pos_iff.mpr hv
      simp only [List.length_nil] at h2
      omega
    · have := hf x r' b r hr' hd
      omega
  | _ => rw [hd'] at hd; cases hd

/-- Whatever reads to the end. -/
theorem toEnd {d : D α} (h : ∀ v a r, d v = .ok a r → r = []) : Hungry d := by
  intro v a r hv hd
  rw [h v a r hd]
  exact List.length_pos_iff.mpr hv

theorem ifEmpty {d e : D α} (h : Hungry e) : Hungry (D.ifEmpty d e) := by
  intro v a r hv hd
  unfold D.ifEmpty at hd
  rw [if_neg hv] at hd
  exact h v a r hv hd

end Hungry

theorem D.many_toEnd (d : D α) : ∀ v a r, D.many d v = .ok a r → r = [] := by
  intro v
  induction v using D.many.induct d with
  | case1 => intro a r h; rw [D.many] at h; simp at h; exact h.2
  | case2 v hv a rest hd hl ih =>
    intro a r h
    rw [D.many, if_neg hv, hd] at h
    simp only [if_pos hl] at h
    unfold DecRes.map at h
    cases hm : D.many d rest with
    | ok l r' => rw [hm] at h; cases h; exact ih l r hm
    | _ => rw [hm] at h; cases h
  | case3 v hv a hd => intro _ _ h; rw [D.many, if_neg hv, hd] at h; simp at h
  | case4 v hv a rest hd hl hne => intro _ _ h; rw [D.many, if_neg hv, hd] at h; simp [hl, hne] at h
  | case5 v hv e hd => intro _ _ h; rw [D.many, if_neg hv, hd] at h; simp at h
  | case6 v hv hd => intro _ _ h; rw [D.many, if_neg hv, hd] at h; simp at h
  | case7 v hv hd => intro _ _ h; rw [D.many, if_neg hv, hd] at h; simp at h
  | case8 v hv hd => intro _ _ h; rw [D.many, if_neg hv, hd] at h; simp at h

theorem D.manyMax_toEnd (e : ParseError) (d : D α) : ∀ n v a r, D.manyMax e d n v = .ok a r → r = []
  | 0, v, a, r, h => by
    rw [D.manyMax, D.ifEmpty] at h
    split at h
    · cases h; assumption
    · rw [D.bind_run] at h
      cases hd : d v with
      | _ => rw [hd] at h; cases h
  | n + 1, v, a, r, h => by
    rw [D.manyMax, D.ifEmpty] at h
    split at h
    · cases h; assumption
    · obtain ⟨x, r', _, h⟩ := D.bind_eq_ok.mp h
      obtain ⟨l, r2, h, h2⟩ := D.bind_eq_ok.mp h
      cases h2
      exact D.manyMax_toEnd e d n r' l r h

/-- A `VPadded` that leaves nothing reads everything. -/
theorem Dec.vpadded_toEnd (cfg : Cfg) (d : D α) : ∀ v a r, Dec.vpadded cfg 0 d v = .ok a r → r = [] := by
  intro v a r h
  unfold Dec.vpadded D.window at h
  rw [if_pos (Nat.zero_le _), if_pos (Nat.sub_le _ _)] at h
  obtain ⟨x, l, _, h⟩ := DecRes.bind_eq_ok.mp h
  split at h
  · cases h; simp
  · cases h

theorem Hungry.fixSeq {n : Nat} (hn : 0 < n) {d : D α} (h : Hungry d) (hp : ReadsPrefix d) : Hungry (Dec.fixSeq n d) := by
  intro v l r hv hd
  obtain ⟨l', r', h1, h2⟩ := D.bind_eq_ok.mp hd
  split at h2
  · rename_i hl
    cases h2
    cases n with
    | zero => omega
    | succ n =>
      simp only [D.upTo, D.ifEmpty, if_neg hv] at h1
      exact Hungry.bind h (fun _ => .bind (.upTo hp n) fun _ => .pure _) _ _ _ hv h1
  · cases h2

mutual
theorem Schema.hungry_dec (cfg : Cfg) : ∀ s : Schema, s.hungry = true → Hungry (s.dec cfg)
  | .unit, h => by cases h
  | .bool, _ => (Schema.progress cfg .bool rfl).hungry
  | .int t, _ => (Schema.progress cfg (.int t) rfl).hungry
  | .f64, _ => (Schema.progress cfg .f64 rfl).hungry
  | .rangedInt t min max, _ => (Schema.progress cfg (.rangedInt t min max) rfl).hungry
  | .rangedFloat min max, _ => (Schema.progress cfg (.rangedFloat min max) rfl).hungry
  | .zarithN, _ => (Schema.progress cfg .zarithN rfl).hungry
  | .zarithZ, _ => (Schema.progress cfg .zarithZ rfl).hungry
  | .bytes, _ => .rest
  | .vecU8, _ => .rest
  | .string, _ => .map .rest _
  | .fixedBytes n, h => (Schema.progress cfg (.fixedBytes n) h).hungry
  | .fixedString n, h => (Schema.progress cfg (.fixedString n) h).hungry
  | .option s, _ => (Schema.progress cfg (.option s) rfl).hungry
  | .nullable s, h => .ifEmpty (.map (s.hungry_dec cfg h) _)
  | .dynamic S s, _ => (Schema.progress cfg (.dynamic S s) rfl).hungry
  | .vpadded n s, h => by
    simp only [Schema.hungry, Bool.or_eq_true, decide_eq_true_eq] at h
    rcases h with rfl | h
    · exact .toEnd (Dec.vpadded_toEnd cfg _)
    · exact (Schema.progress cfg (.vpadded n s) h).hungry
  | .padded n s, h => by
    by_cases hn : 0 < n
    · exact (Progress.padded' cfg hn (s.readsPrefix cfg)).hungry
    · refine .bind (s.hungry_dec cfg (by simpa [Schema.hungry, hn] using h)) fun _ => ?_
      exact .bind (.take n) fun _ => .ite (.throw _) (.pure _)
  | .seq s, _ => .toEnd (D.many_toEnd _)
  | .fixSeq n s, h => by
    simp only [Schema.hungry, Bool.and_eq_true, decide_eq_true_eq] at h
    exact .fixSeq h.1 (s.hungry_dec cfg h.2) (s.readsPrefix cfg)
  | .limSeq n s, _ => .toEnd (D.manyMax_toEnd _ _ n)
  | .autobox s, h => s.hungry_dec cfg h
  | .hole i, _ => (Schema.progress cfg (.hole i) rfl).hungry
  | .cstyle w tags, _ => (Schema.progress cfg (.cstyle w tags) rfl).hungry
  | .data w vs, _ => (Schema.progress cfg (.data w vs) rfl).hungry
  | .record fs, h => fs.hungry_dec cfg h
theorem Fields.hungry_dec (cfg : Cfg) : ∀ fs : Fields, fs.hungry = true → Hungry (fs.dec cfg)
  | .nil, h => by cases h
  | .cons s fs, h => by
    simp only [Fields.hungry, Bool.or_eq_true] at h
    rcases h with h | h
    · exact .bind (s.hungry_dec cfg h) fun _ => .bind (fs.readsPrefix cfg) fun _ => .pure _
    · exact .bind' (s.readsPrefix cfg) (fun _ => .bind (fs.readsPrefix cfg) fun _ => .pure _) fun _ =>
        .bind (fs.hungry_dec cfg h) fun _ => .pure _
end

/-! ### coming back -/

def Ends (d : D α) : Prop := ∀ v, d v ≠ .diverge

namespace Ends

theorem pure (a : α) : Ends (Pure.pure a : D α) := fun _ => nofun
theorem throw (e : ParseError) : Ends (D.throw e : D α) := fun _ => nofun
theorem panic : Ends (D.panic : D α) := fun _ => nofun

theorem bind {d : D α} {f : α → D β} (h : Ends d) (hf : ∀ a, Ends (f a)) : Ends (d >>= f) := by
  intro v
  rw [D.bind_run]
  cases hd : d v with
  | ok a r => exact hf a r
  | diverge => exact absurd hd (h v)
  | _ => nofun

theorem map {d : D α} (h : Ends d) (f : α → β) : Ends (f <$> d) := by
  intro v
  rw [D.map_run]
  cases hd : d v with
  | diverge => exact absurd hd (h v)
  | _ => nofun

theorem take (n : Nat) : Ends (D.take n) := by
  intro v
  unfold D.take D.short
  split
  · nofun
  · split <;> nofun

theorem rest : Ends D.rest := fun _ => nofun

theorem byte : Ends D.byte := by
  intro v
  cases v <;> nofun

theorem ifEmpty {d e : D α} (h : Ends d) (h' : Ends e) : Ends (D.ifEmpty d e) := by
  intro v
  unfold D.ifEmpty
  split
  · exact h v
  · exact h' v

theorem window (n : Nat) {d : D α} (h : Ends d) : Ends (D.window n d) := by
  intro v
  unfold D.window D.short
  split
  · cases hd : d (v.take n) with
    | diverge => exact absurd hd (h _)
    | ok a l => simp only [DecRes.bind_ok]; split <;> nofun
    | _ => nofun
  · split <;> nofun

theorem until_ (f : Byte → Bool) : Ends (D.until_ f) := by
  have : ∀ (v acc : Bytes), D.until' f acc v ≠ .diverge := by
    intro v
    induction v with
    | nil => intro acc; nofun
    | cons b v ih => intro acc; unfold D.until'; split; nofun; exact ih _
  intro v
  exact this v []

theorem many {d : D α} (h : Ends d) (hh : Hungry d) : Ends (D.many d) := by
  intro v
  induction v using D.many.induct d with
  | case1 => rw [D.many]; simp
  | case2 v hv a rest hd hl ih =>
    rw [D.many, if_neg hv, hd]
    simp only [if_pos hl]
    unfold DecRes.map
    cases hm : D.many d rest with
    | diverge => exact absurd hm ih
    | _ => nofun
  | case3 v hv a hd => exact absurd (hh v a _ hv hd) (Nat.lt_irrefl _)
  | case4 v hv a rest hd hl hne => exact absurd (hh v a _ hv hd) hl
  | case5 v hv e hd => rw [D.many, if_neg hv, hd]; simp
  | case6 v hv hd => rw [D.many, if_neg hv, hd]; simp
  | case7 v hv hd => exact absurd hd (h v)
  | case8 v hv hd => rw [D.many, if_neg hv, hd]; simp

theorem manyMax (e : ParseError) {d : D α} (h : Ends d) : ∀ n, Ends (D.manyMax e d n)
  | 0 => ifEmpty (pure _) (bind h fun _ => throw _)
  | n + 1 => ifEmpty (pure _) (bind h fun _ => bind (manyMax e h n) fun _ => pure _)

theorem upTo {d : D α} (h : Ends d) : ∀ n, Ends (D.upTo d n)
  | 0 => pure _
  | n + 1 => ifEmpty (pure _) (bind h fun _ => bind (upTo h n) fun _ => pure _)

theorem ite {c : Prop} [Decidable c] {d e : D α} (h : Ends d) (h' : Ends e) : Ends (if c then d else e) := by
  split
  · exact h
  · exact h'

theorem tag (w : TagWidth) (tags : List Nat) : Ends (Dec.tag w tags) :=
  bind (map (take _) _) fun _ => ite (pure _) (ite (throw _) (throw _))

theorem check {ε : Type} (r : Except ε α) (f : ε → ParseError) : Ends (Dec.check r f) := by
  unfold Dec.check
  cases r
  · exact throw _
  · exact pure _

theorem lenPref (S : LenPref) : Ends (Dec.lenPref S) :=
  bind (map (take _) _) fun _ => ite (pure _) (throw _)

theorem byteArr (n : Nat) : Ends (Dec.byteArr n) :=
  bind (take n) fun _ => by
    split
    · exact pure _
    · exact panic

theorem vpadded (cfg : Cfg) (n : Nat) {d : D α} (h : Ends d) : Ends (Dec.vpadded cfg n d) := by
  intro v
  unfold Dec.vpadded
  split
  · exact window _ h v
  · split <;> nofun

end Ends

mutual
theorem Schema.ends_dec (cfg : Cfg) : ∀ s : Schema, s.ends = true → Ends (s.dec cfg)
  | .unit, _ => .pure _
  | .bool, _ => .bind .byte fun _ => .ite (.pure _) (.ite (.pure _) (.throw _))
  | .int t, _ => .map (.take _) _
  | .f64, _ => .map (.take _) _
  | .rangedInt t min max, _ => .bind (.map (.take _) _) fun _ => .check _ _
  | .rangedFloat min max, _ => .bind (.map (.take _) _) fun _ => .check _ _
  | .zarithN, _ => .map (.until_ _) _
  | .zarithZ, _ => .map (.until_ _) _
  | .bytes, _ => .rest
  | .vecU8, _ => .rest
  | .string, _ => .map .rest _
  | .fixedBytes n, _ => Ends.byteArr n
  | .fixedString n, _ => Ends.byteArr n
  | .option s, h => .bind (.tag _ _) fun _ => .ite (.map (s.ends_dec cfg h) _) (.pure _)
  | .nullable s, h => .ifEmpty (.pure _) (.map (s.ends_dec cfg h) _)
  | .dynamic S s, h => .bind (.lenPref S) fun n => .window n (s.ends_dec cfg h)
  | .vpadded n s, h => .vpadded cfg n (s.ends_dec cfg h)
  | .padded n s, h => .bind (s.ends_dec cfg h) fun _ => .bind (.take n) fun _ => .ite (.throw _) (.pure _)
  | .seq s, h => by
    simp only [Schema.ends, Bool.and_eq_true] at h
    exact .many (s.ends_dec cfg h.2) (s.hungry_dec cfg h.1)
  | .fixSeq n s, h => .bind (.upTo (s.ends_dec cfg h) n) fun _ => .ite (.pure _) (.throw _)
  | .limSeq n s, h => .manyMax _ (s.ends_dec cfg h) n
  | .autobox s, h => s.ends_dec cfg h
  | .hole _, h => by cases h
  | .cstyle w tags, _ => .bind (.tag w tags) fun t => by
      split
      · exact .pure _
      · exact .panic
  | .data w vs, h => .bind (.tag w vs.tags) fun t => vs.ends_dec cfg h t
  | .record fs, h => fs.ends_dec cfg h
theorem Variants.ends_dec (cfg : Cfg) : ∀ (vs : Variants), vs.ends = true → ∀ t, Ends (vs.dec cfg t)
  | .nil, _, _ => .panic
  | .cons tag s vs, h, t => by
    simp only [Variants.ends, Bool.and_eq_true] at h
    exact .ite (.map (s.ends_dec cfg h.1) _) (.map (vs.ends_dec cfg h.2 t) _)
theorem Fields.ends_dec (cfg : Cfg) : ∀ fs : Fields, fs.ends = true → Ends (fs.dec cfg)
  | .nil, _ => .pure _
  | .cons s fs, h => by
    simp only [Fields.ends, Bool.and_eq_true] at h
    exact .bind (s.ends_dec cfg h.1) fun _ => .bind (fs.ends_dec cfg h.2) fun _ => .pure _
end

end Verif
