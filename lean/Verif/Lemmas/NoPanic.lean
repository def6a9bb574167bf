import Verif.Lemmas.Schema
import Verif.Lemmas.Tame
/-
The pure decoder of release builds never panics.
-/
namespace Verif

variable {α β : Type}

def NoPanic (d : D α) : Prop := ∀ v, d v ≠ .panic

namespace NoPanic

theorem pure (a : α) : NoPanic (Pure.pure a : D α) := fun _ => nofun
theorem throw (e : ParseError) : NoPanic (D.throw e : D α) := fun _ => nofun

/-- What comes next may rely on the result. -/
theorem bind' {d : D α} {f : α → D β} (h : NoPanic d) (hf : ∀ v a r, d v = .ok a r → NoPanic (f a)) : NoPanic (d >>= f) := by
  intro v
  rw [D.bind_run]
  cases hd : d v with
  | ok a r => exact hf v a r hd r
  | panic => exact absurd hd (h v)
  | _ => nofun

theorem bind {d : D α} {f : α → D β} (h : NoPanic d) (hf : ∀ a, NoPanic (f a)) : NoPanic (d >>= f) :=
  bind' h fun _ a _ _ => hf a

theorem map {d : D α} (h : NoPanic d) (f : α → β) : NoPanic (f <$> d) := by
  intro v
  rw [D.map_run]
  cases hd : d v with
  | panic => exact absurd hd (h v)
  | _ => nofun

theorem ite {c : Prop} [Decidable c] {d e : D α} (h : NoPanic d) (h' : NoPanic e) : NoPanic (if c then d else e) := by
  split
  · exact h
  · exact h'

theorem short (n : Nat) (e : ParseError) : (D.short e n : DecRes α) ≠ .panic := by
  unfold D.short
  split <;> nofun

theorem take (n : Nat) : NoPanic (D.take n) := by
  intro v
  unfold D.take
  split
  · nofun
  · exact short n _

theorem rest : NoPanic D.rest := fun _ => nofun

theorem byte : NoPanic D.byte := by
  intro v
  cases v <;> nofun

theorem ifEmpty {d e : D α} (h : NoPanic d) (h' : NoPanic e) : NoPanic (D.ifEmpty d e) := by
  intro v
  unfold D.ifEmpty
  split
  · exact h v
  · exact h' v

theorem window (n : Nat) {d : D α} (h : NoPanic d) : NoPanic (D.window n d) := by
  intro v
  unfold D.window
  split
  · cases hd : d (v.take n) with
    | panic => exact absurd hd (h _)
    | ok a l => simp only [DecRes.bind_ok]; split <;> nofun
    | _ => nofun
  · exact short n _

theorem until_ (f : Byte → Bool) : NoPanic (D.until_ f) := by
  have : ∀ (v acc : Bytes), D.until' f acc v ≠ .panic := by
    intro v
    induction v with
    | nil => intro acc; nofun
    | cons b v ih => intro acc; unfold D.until'; split; nofun; exact ih _
  intro v
  exact this v []

theorem many {d : D α} (h : NoPanic d) : NoPanic (D.many d) := by
  intro v
  induction v using D.many.induct d with
  | case1 => rw [D.many]; simp
  | case2 v hv a rest hd hl ih =>
    rw [D.many, if_neg hv, hd]
    simp only [if_pos hl]
    unfold DecRes.map
    cases hm : D.many d rest with
    | panic => exact absurd hm ih
    | _ => nofun
  | case3 v hv a hd => rw [D.many, if_neg hv, hd]; simp
  | case4 v hv a rest hd hl hne => rw [D.many, if_neg hv, hd]; simp [hl, hne]
  | case5 v hv e hd => rw [D.many, if_neg hv, hd]; simp
  | case6 v hv hd => exact absurd hd (h v)
  | case7 v hv hd => rw [D.many, if_neg hv, hd]; simp
  | case8 v hv hd => rw [D.many, if_neg hv, hd]; simp

theorem manyMax (e : ParseError) {d : D α} (h : NoPanic d) : ∀ n, NoPanic (D.manyMax e d n)
  | 0 => ifEmpty (pure _) (bind h fun _ => throw _)
  | n + 1 => ifEmpty (pure _) (bind h fun _ => bind (manyMax e h n) fun _ => pure _)

theorem upTo {d : D α} (h : NoPanic d) : ∀ n, NoPanic (D.upTo d n)
  | 0 => pure _
  | n + 1 => ifEmpty (pure _) (bind h fun _ => bind (upTo h n) fun _ => pure _)

theorem tag (w : TagWidth) (tags : List Nat) : NoPanic (Dec.tag w tags) :=
  bind (map (take _) _) fun _ => ite (pure _) (ite (throw _) (throw _))

theorem check {ε : Type} (r : Except ε α) (f : ε → ParseError) : NoPanic (Dec.check r f) := by
  unfold Dec.check
  cases r
  · exact throw _
  · exact pure _

theorem dynamic (S : LenPref) {d : D α} (h : NoPanic d) : NoPanic (Dec.dynamic S d) :=
  bind (bind (map (take _) _) fun _ => ite (pure _) (throw _)) fun n => window n h

theorem byteArr (n : Nat) : NoPanic (Dec.byteArr n) :=
  bind' (take n) fun v bs r h => by
    have hl : bs.length = n := by
      unfold D.take at h
      split at h
      · cases h; simp; omega
      · unfold D.short at h
        split at h <;> cases h
    rw [dif_pos hl]
    exact pure _

theorem vpadded {cfg : Cfg} (hp : cfg.prof = .release) {n : Nat} {d : D α} (h : NoPanic d) : NoPanic (Dec.vpadded cfg n d) := by
  intro v
  unfold Dec.vpadded
  split
  · exact window _ h v
  · rw [hp]; nofun

end NoPanic

mutual
theorem Schema.noPanic (cfg : Cfg) (hp : cfg.prof = .release) : ∀ s : Schema, NoPanic (s.dec cfg)
  | .unit => .pure _
  | .bool => by
    unfold Schema.dec Dec.bool
    refine .bind .byte fun _ => ?_
    exact .ite (.pure _) (.ite (.pure _) (.throw _))
  | .int t => .map (.take _) _
  | .f64 => .map (.take _) _
  | .rangedInt t min max => .bind (.map (.take _) _) fun _ => .check _ _
  | .rangedFloat min max => .bind (.map (.take _) _) fun _ => .check _ _
  | .zarithN => .map (.until_ _) _
  | .zarithZ => .map (.until_ _) _
  | .bytes => .rest
  | .vecU8 => .rest
  | .string => .map .rest _
  | .fixedBytes n => .byteArr n
  | .fixedString n => .byteArr n
  | .option s => .bind (.tag _ _) fun _ => .ite (.map (s.noPanic cfg hp) _) (.pure _)
  | .nullable s => .ifEmpty (.pure _) (.map (s.noPanic cfg hp) _)
  | .dynamic S s => .dynamic S (s.noPanic cfg hp)
  | .vpadded n s => .vpadded hp (s.noPanic cfg hp)
  | .padded n s => .bind (s.noPanic cfg hp) fun _ => .bind (.take n) fun _ => .ite (.throw _) (.pure _)
  | .seq s => .many (s.noPanic cfg hp)
  | .fixSeq n s => .bind (.upTo (s.noPanic cfg hp) n) fun _ => .ite (.pure _) (.throw _)
  | .limSeq n s => .manyMax _ (s.noPanic cfg hp) n
  | .autobox s => s.noPanic cfg hp
  | .hole _ => fun _ h => by cases h
  | .cstyle w tags => .bind' (.tag w tags) fun v t r h => by
      split
      · exact .pure _
      · rename_i hn
        exact absurd (Dec.tag_mem h).1 hn
  | .data w vs => .bind' (.tag w vs.tags) fun v t r h => vs.noPanic cfg hp t (Dec.tag_mem h).1
  | .record fs => fs.noPanic cfg hp
theorem Variants.noPanic (cfg : Cfg) (hp : cfg.prof = .release) : ∀ (vs : Variants) (t : Nat), t ∈ vs.tags → NoPanic (vs.dec cfg t)
  | .nil, _, h => nomatch h
  | .cons tag s vs, t, h => by
    unfold Variants.dec Dec.vcons
    split
    · exact .map (s.noPanic cfg hp) _
    · rename_i ht
      exact .map (vs.noPanic cfg hp t ((List.mem_cons.mp h).resolve_left ht)) _
theorem Fields.noPanic (cfg : Cfg) (hp : cfg.prof = .release) : ∀ fs : Fields, NoPanic (fs.dec cfg)
  | .nil => .pure _
  | .cons s fs => .bind (s.noPanic cfg hp) fun _ => .bind (fs.noPanic cfg hp) fun _ => .pure _
end

end Verif
