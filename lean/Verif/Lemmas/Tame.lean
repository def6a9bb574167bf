import Verif.Spec.Tame
import Verif.Lemmas.Schema
/-
The pure decoder of a tame schema never gives up.
-/
namespace Verif

variable {α β : Type}

def Tame (d : D α) : Prop := ∀ v, d v ≠ .wild

namespace Tame

theorem pure (a : α) : Tame (Pure.pure a : D α) := fun _ => nofun
theorem throw (e : ParseError) : Tame (D.throw e : D α) := fun _ => nofun
theorem panic : Tame (D.panic : D α) := fun _ => nofun

theorem bind {d : D α} {f : α → D β} (h : Tame d) (hf : ∀ a, Tame (f a)) : Tame (d >>= f) := by
  intro v
  rw [D.bind_run]
  cases hd : d v with
  | ok a r => exact hf a r
  | wild => exact absurd hd (h v)
  | _ => nofun

theorem map {d : D α} (h : Tame d) (f : α → β) : Tame (f <$> d) := by
  intro v
  rw [D.map_run]
  cases hd : d v with
  | wild => exact absurd hd (h v)
  | _ => nofun

theorem take {n : Nat} (h : n ≤ isizeMax + 1) : Tame (D.take n) := by
  intro v
  unfold D.take D.short
  rw [if_pos h]
  split <;> nofun

theorem rest : Tame D.rest := fun _ => nofun

theorem byte : Tame D.byte := by
  intro v
  cases v <;> nofun

theorem ifEmpty {d e : D α} (h : Tame d) (h' : Tame e) : Tame (D.ifEmpty d e) := by
  intro v
  unfold D.ifEmpty
  split
  · exact h v
  · exact h' v

theorem window {n : Nat} (hn : n ≤ isizeMax + 1) {d : D α} (h : Tame d) : Tame (D.window n d) := by
  intro v
  unfold D.window D.short
  rw [if_pos hn]
  split
  · cases hd : d (v.take n) with
    | wild => exact absurd hd (h _)
    | ok a l => simp only [DecRes.bind_ok]; split <;> nofun
    | _ => nofun
  · nofun

theorem until_ (f : Byte → Bool) : Tame (D.until_ f) := by
  have : ∀ (v acc : Bytes), D.until' f acc v ≠ .wild := by
    intro v
    induction v with
    | nil => intro acc; nofun
    | cons b v ih => intro acc; unfold D.until'; split; nofun; exact ih _
  intro v
  exact this v []

theorem many {d : D α} (h : Tame d) (hr : ReadsPrefix d) : Tame (D.many d) := by
  intro v
  induction v using D.many.induct d with
  | case1 => rw [D.many]; simp
  | case2 v hv a rest hd hl ih =>
    rw [D.many, if_neg hv, hd]
    simp only [if_pos hl]
    unfold DecRes.map
    cases hm : D.many d rest with
    | wild => exact absurd hm ih
    | _ => nofun
  | case3 v hv a hd => rw [D.many, if_neg hv, hd]; simp
  | case4 v hv a rest hd hl hne =>
    obtain ⟨p, hp⟩ := hr _ _ _ hd
    have hp' := congrArg List.length hp
    simp only [List.length_append] at hp'
    have : p = [] := by apply List.length_eq_zero_iff.mp; omega
    subst this
    exact absurd hp.symm hne
  | case5 v hv e hd => rw [D.many, if_neg hv, hd]; simp
  | case6 v hv hd => rw [D.many, if_neg hv, hd]; simp
  | case7 v hv hd => rw [D.many, if_neg hv, hd]; simp
  | case8 v hv hd => exact absurd hd (h v)

theorem manyMax (e : ParseError) {d : D α} (h : Tame d) : ∀ n, Tame (D.manyMax e d n)
  | 0 => ifEmpty (pure _) (bind h fun _ => throw _)
  | n + 1 => ifEmpty (pure _) (bind h fun _ => bind (manyMax e h n) fun _ => pure _)

theorem upTo {d : D α} (h : Tame d) : ∀ n, Tame (D.upTo d n)
  | 0 => pure _
  | n + 1 => ifEmpty (pure _) (bind h fun _ => bind (upTo h n) fun _ => pure _)

theorem ite {c : Prop} [Decidable c] {d e : D α} (h : Tame d) (h' : Tame e) : Tame (if c then d else e) := by
  split
  · exact h
  · exact h'

theorem tag (w : TagWidth) (tags : List Nat) : Tame (Dec.tag w tags) :=
  bind (map (take (by cases w <;> decide)) _) fun _ => ite (pure _) (ite (throw _) (throw _))

theorem check {ε : Type} (r : Except ε α) (f : ε → ParseError) : Tame (Dec.check r f) := by
  unfold Dec.check
  cases r
  · exact throw _
  · exact pure _

theorem lenPref (S : LenPref) : Tame (Dec.lenPref S) :=
  bind (map (take (by cases S <;> decide)) _) fun _ => ite (pure _) (throw _)

theorem dynamic (S : LenPref) {d : D α} (h : Tame d) : Tame (Dec.dynamic S d) := by
  intro v
  unfold Dec.dynamic
  rw [D.bind_run]
  cases hd : Dec.lenPref S v with
  | ok n r =>
    refine window ?_ h r
    have : n ≤ S.maxLen := by
      unfold Dec.lenPref at hd
      rw [D.bind_run] at hd
      cases ht : (ofBe <$> D.take S.len : D Nat) v with
      | ok m r' =>
        rw [ht] at hd
        simp only [DecRes.bind_ok] at hd
        split at hd
        · cases hd; assumption
        · cases hd
      | _ => rw [ht] at hd; cases hd
    have hs : S.maxLen ≤ isizeMax + 1 := by cases S <;> decide
    omega
  | wild => exact absurd hd (lenPref S v)
  | _ => nofun

theorem byteArr {n : Nat} (h : n ≤ isizeMax + 1) : Tame (Dec.byteArr n) :=
  bind (take h) fun _ => by
    split
    · exact pure _
    · exact panic

theorem vpadded {cfg : Cfg} (hp : cfg.prof = .debug) {n : Nat} {d : D α} (h : Tame d) : Tame (Dec.vpadded cfg n d) := by
  intro v
  unfold Dec.vpadded
  split
  · unfold D.window
    rw [if_pos (by omega)]
    cases hd : d (v.take (v.length - n)) with
    | wild => exact absurd hd (h _)
    | ok a l => simp only [DecRes.bind_ok]; split <;> nofun
    | _ => nofun
  · rw [hp]; nofun

end Tame

mutual
theorem Schema.tame_dec (cfg : Cfg) : ∀ s : Schema, s.tame cfg.prof = true → Tame (s.dec cfg)
  | .unit, _ => .pure _
  | .bool, _ => by
    unfold Schema.dec Dec.bool
    refine .bind .byte fun _ => ?_
    exact .ite (.pure _) (.ite (.pure _) (.throw _))
  | .int t, _ => .map (.take (by cases t <;> decide)) _
  | .f64, _ => .map (.take (by decide)) _
  | .rangedInt t min max, _ => .bind (.map (.take (by cases t <;> decide)) _) fun _ => .check _ _
  | .rangedFloat min max, _ => .bind (.map (.take (by decide)) _) fun _ => .check _ _
  | .zarithN, _ => .map (.until_ _) _
  | .zarithZ, _ => .map (.until_ _) _
  | .bytes, _ => .rest
  | .vecU8, _ => .rest
  | .string, _ => .map .rest _
  | .fixedBytes n, h => Tame.byteArr (of_decide_eq_true h)
  | .fixedString n, h => Tame.byteArr (of_decide_eq_true h)
  | .option s, h => .bind (.tag _ _) fun _ => .ite (.map (s.tame_dec cfg h) _) (.pure _)
  | .nullable s, h => .ifEmpty (.pure _) (.map (s.tame_dec cfg h) _)
  | .dynamic S s, h => .dynamic S (s.tame_dec cfg h)
  | .vpadded n s, h => by
    simp only [Schema.tame, Bool.and_eq_true, decide_eq_true_eq] at h
    exact .vpadded h.1 (s.tame_dec cfg h.2)
  | .padded n s, h => by
    simp only [Schema.tame, Bool.and_eq_true, decide_eq_true_eq] at h
    exact .bind (s.tame_dec cfg h.2) fun _ => .bind (.take h.1) fun _ => .ite (.throw _) (.pure _)
  | .seq s, h => .many (s.tame_dec cfg h) (s.readsPrefix cfg)
  | .fixSeq n s, h => .bind (.upTo (s.tame_dec cfg h) n) fun _ => .ite (.pure _) (.throw _)
  | .limSeq n s, h => .manyMax _ (s.tame_dec cfg h) n
  | .autobox s, h => s.tame_dec cfg h
  | .hole _, _ => fun _ h => by cases h
  | .cstyle w tags, _ => .bind (.tag w tags) fun t => by
      split
      · exact .pure _
      · exact .panic
  | .data w vs, h => .bind (.tag w vs.tags) fun t => vs.tame_dec cfg h t
  | .record fs, h => fs.tame_dec cfg h
theorem Variants.tame_dec (cfg : Cfg) : ∀ (vs : Variants), vs.tame cfg.prof = true → ∀ t, Tame (vs.dec cfg t)
  | .nil, _, _ => .panic
  | .cons tag s vs, h, t => by
    simp only [Variants.tame, Bool.and_eq_true] at h
    exact .ite (.map (s.tame_dec cfg h.1) _) (.map (vs.tame_dec cfg h.2 t) _)
theorem Fields.tame_dec (cfg : Cfg) : ∀ fs : Fields, fs.tame cfg.prof = true → Tame (fs.dec cfg)
  | .nil, _ => .pure _
  | .cons s fs, h => by
    simp only [Fields.tame, Bool.and_eq_true] at h
    exact .bind (s.tame_dec cfg h.1) fun _ => .bind (fs.tame_dec cfg h.2) fun _ => .pure _
end

end Verif
