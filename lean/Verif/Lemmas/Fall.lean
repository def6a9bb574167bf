import Verif.Refine.Sinks
import Verif.Lemmas.Schema
import Verif.Lemmas.Sound
/-
Release builds beyond the promises of the wire format: every decoder on a parser with windows that end before the cursor.
-/
namespace Verif

section

variable {σ α β : Type} {P : ParserOps σ} {pan pan' : Prop} {R : Bytes → List Bytes → σ → Prop} {l : Nat}
  {Z : Nat → Nat → σ → Prop}

/-- How parser code ends; if it returns then where it began. -/
def EndsAs (s : σ) (out : Out σ ParseError α) : Fate → Prop
  | .ok => ∃ a, out = .ok a s
  | .err => ∃ e s', out = .err e s'
  | .panic => out = .panic
  | .ub => out = .ub
  | .diverge => out = .diverge

/-- What parser code does in windows that end before the cursor. -/
def Stuck (Z : Nat → Nat → σ → Prop) (f : PM σ α) (g : Nat → Nat → Fate) : Prop :=
  ∀ o d s, Z o d s → EndsAs s (f s) (g o d)

namespace Stuck

theorem pure (a : α) : Stuck Z (Pure.pure a) fun _ _ => .ok := fun _ _ _ _ => ⟨a, rfl⟩

theorem bind {f : PM σ α} {g : α → PM σ β} {x y : Nat → Nat → Fate} (hf : Stuck Z f x) (hg : ∀ a, Stuck Z (g a) y) :
    Stuck Z (f >>= g) fun o d => (x o d).next (y o d) := by
  intro o d s hz
  have h := hf o d s hz
  rw [M.bind_run]
  show EndsAs s _ ((x o d).next (y o d))
  revert h
  cases x o d with
  | ok => rintro ⟨a, h⟩; rw [h]; exact hg a o d s hz
  | err => rintro ⟨e, s', h⟩; rw [h]; exact ⟨e, s', rfl⟩
  | panic => intro h; rw [show f s = .panic from h]; rfl
  | ub => intro h; rw [show f s = .ub from h]; rfl
  | diverge => intro h; rw [show f s = .diverge from h]; rfl

theorem congr {f : PM σ α} {x y : Nat → Nat → Fate} (h : Stuck Z f x) (e : ∀ o d, x o d = y o d) : Stuck Z f y :=
  fun o d s hz => e o d ▸ h o d s hz

theorem halt {r : Fate} {f : PM σ α} {g : α → PM σ β} (hf : Stuck Z f fun _ _ => r) (hr : r ≠ .ok) :
    Stuck Z (f >>= g) fun _ _ => r := by
  intro o d s hz
  have h := hf o d s hz
  rw [M.bind_run]
  revert h
  cases r with
  | ok => exact (hr rfl).elim
  | err => rintro ⟨e, s', h⟩; rw [h]; exact ⟨e, s', rfl⟩
  | panic => intro h; rw [show f s = .panic from h]; rfl
  | ub => intro h; rw [show f s = .ub from h]; rfl
  | diverge => intro h; rw [show f s = .diverge from h]; rfl

theorem stop {f : PM σ α} {g : α → PM σ β} (hf : Stuck Z f fun _ _ => .err) : Stuck Z (f >>= g) fun _ _ => .err :=
  halt hf nofun

theorem ret {f : PM σ α} {g : α → β} {x : Nat → Nat → Fate} (hf : Stuck Z f x) :
    Stuck Z (f >>= fun a => Pure.pure (g a)) x :=
  (bind hf fun a => pure (g a)).congr fun o d => by cases x o d <;> rfl

variable (S : Sinks P R l Z)
include S

theorem remainder {f : Nat → PM σ α} {x : Nat → Nat → Fate}
    (hf : ∀ o d s, Z o d s → EndsAs s (f (usizeMod - d) s) (x o d)) : Stuck Z (P.remainder >>= f) x := by
  intro o d s hz
  rw [M.bind_run, S.remainder hz]
  exact hf o d s hz

theorem take {n : Nat} (hn : n ≤ isizeMax + 1) : Stuck Z (P.consume n) fun _ _ => .err := fun _ _ _ hz => S.consume hz hn
theorem takeFixed {n : Nat} (hn : n ≤ isizeMax + 1) : Stuck Z (P.takeFixed n) fun _ _ => .err := stop (take S hn)

theorem tag (w : TagWidth) (tags : List Nat) : Stuck Z (ParserOps.takeTagword w (w.parse P) tags) fun _ _ => .err := by
  refine stop (stop (takeFixed S ?_))
  have := isizeMax_cases
  cases w <;> simp only [TagWidth.len] <;> omega

theorem int (t : IntTy) : Stuck Z ((Codec.int t).parse P) fun _ _ => .err := by
  refine stop (takeFixed S ?_)
  have := isizeMax_cases
  cases t <;> simp only [IntTy.len] <;> omega

theorem lenPref (p : LenPref) : Stuck Z (p.parse P) fun _ _ => .err := by
  cases p
  · exact stop (int S .u8)
  · exact stop (int S .u16)
  · exact stop (stop (int S .u32))

theorem selfTerminating (f : Byte → Bool) : Stuck Z (P.takeSelfTerminating f) fun _ _ => .panic :=
  remainder S fun o d s hz => by
    have := S.bound hz
    have hm := usizeMod_eq
    rw [if_pos (by omega)]
    rfl

theorem takeRest : Stuck Z (P.remainder >>= fun n => P.takeDynamic n) fun _ _ => .ub :=
  remainder S fun _ _ _ hz => S.take hz

theorem left {d o : Nat} {s : σ} (hz : Z o d s) : usizeMod - d ≠ 0 := by
  have := S.bound hz
  have hm := usizeMod_eq
  omega

theorem vpadded {cfg : Cfg} (hp : cfg.prof = .release) {n : Nat} (hn : n ≤ isizeMax + 1) {c : Codec α} {x : Nat → Nat → Fate}
    (hf : Stuck Z (c.parse P) x) :
    Stuck Z ((Codec.vpadded cfg n c).parse P) fun o d => if d + n ≤ o then (x o (d + n)).closed else .err :=
  remainder S fun o d s hz => by
    have hb := S.bound hz
    have hm := usizeMod_eq
    have h := S.setFit hz hn
    rw [if_neg (by rw [hp]; simp), hp, usub_of_le (by omega)]
    show EndsAs s ((P.setFit (usizeMod - d - n) >>= fun _ => _) s) _
    rw [M.bind_run]
    show EndsAs s _ (if d + n ≤ o then (x o (d + n)).closed else .err)
    revert h
    split
    · rintro ⟨s', h1, h2⟩
      rw [h1, Out.bind_ok, M.bind_run]
      have := hf o (d + n) s' h2
      revert this
      cases x o (d + n) with
      | ok =>
        rintro ⟨a, h⟩
        obtain ⟨e, s2, h3⟩ := S.enforce h2
        rw [h, Out.bind_ok, M.bind_run, h3]
        exact ⟨e, s2, rfl⟩
      | err => rintro ⟨e, s', h⟩; rw [h]; exact ⟨e, s', rfl⟩
      | panic => intro h; rw [show c.parse P s' = .panic from h]; rfl
      | ub => intro h; rw [show c.parse P s' = .ub from h]; rfl
      | diverge => intro h; rw [show c.parse P s' = .diverge from h]; rfl
    · rintro ⟨e, s', h1⟩
      rw [h1]
      exact ⟨e, s', rfl⟩

theorem seq {f : PM σ α} {x : Nat → Nat → Fate} (hf : Stuck Z f x) :
    Stuck Z (iterM (Codec.seqBody P f) []) fun o d => (x o d).forever := by
  intro o d s hz
  have hl := left S hz
  have h1 : ∀ acc, Codec.seqBody P f acc s = (f s).bind fun a s' => .ok (.inl (acc ++ [a])) s' := by
    intro acc
    simp only [Codec.seqBody, M.bind_run, S.remainder hz, Out.bind_ok, ne_eq, hl, not_false_eq_true, if_true]
    rfl
  have h := hf o d s hz
  show EndsAs s _ (x o d).forever
  revert h
  cases x o d with
  | ok =>
    rintro ⟨a, h⟩
    show iterM (Codec.seqBody P f) [] s = .diverge
    exact iterM_diverge_of_inv (fun _ st => st = s) (by rintro acc st rfl; rw [h1, h]; exact ⟨_, _, rfl, rfl⟩) rfl
  | err => rintro ⟨e, s', h⟩; rw [iterM_unfold, h1, h]; exact ⟨e, s', rfl⟩
  | panic => intro h; rw [iterM_unfold, h1, show f s = .panic from h]; rfl
  | ub => intro h; rw [iterM_unfold, h1, show f s = .ub from h]; rfl
  | diverge => intro h; rw [iterM_unfold, h1, show f s = .diverge from h]; rfl

theorem fix {f : PM σ α} {x : Nat → Nat → Fate} (hf : Stuck Z f x) (n : Nat) {s : σ} {o d : Nat} (hz : Z o d s) :
    ∀ (k : Nat) (acc : List α), acc.length + k = n →
      if k = 0 ∨ x o d = .ok then ∃ xs, xs.length = n ∧ iterM (Codec.fixBody n P f) acc s = .ok xs s
      else EndsAs s (iterM (Codec.fixBody n P f) acc s) (x o d)
  | 0, acc, hk => by
    rw [if_pos (.inl rfl)]
    refine ⟨acc, hk, ?_⟩
    rw [iterM_unfold]
    simp only [Codec.fixBody, M.bind_run, S.remainder hz, Out.bind_ok]
    rw [if_neg (by omega)]
    rfl
  | k + 1, acc, hk => by
    have hl := left S hz
    have hlt : acc.length < n := by omega
    have h1 : Codec.fixBody n P f acc s = (f s).bind fun a s' => .ok (.inl (acc ++ [a])) s' := by
      simp only [Codec.fixBody, M.bind_run, S.remainder hz, Out.bind_ok, ne_eq, hl, not_false_eq_true, hlt, and_self, if_true,
        Codec.tryPush, M.pure_run]
    have h := hf o d s hz
    rw [iterM_unfold, h1]
    revert h
    cases hx : x o d with
    | ok =>
      rintro ⟨a, h⟩
      rw [if_pos (.inr rfl), h]
      have := fix hf n hz k (acc ++ [a]) (by simp; omega)
      rw [hx, if_pos (.inr rfl)] at this
      exact this
    | err => rintro ⟨e, s', h⟩; rw [if_neg (by simp), h]; exact ⟨e, s', rfl⟩
    | panic => intro h; rw [if_neg (by simp), show f s = .panic from h]; rfl
    | ub => intro h; rw [if_neg (by simp), show f s = .ub from h]; rfl
    | diverge => intro h; rw [if_neg (by simp), show f s = .diverge from h]; rfl

theorem lim {f : PM σ α} {x : Nat → Nat → Fate} (hf : Stuck Z f x) (n : Nat) {s : σ} {o d : Nat} (hz : Z o d s) :
    ∀ (k : Nat) (acc : List α), acc.length + k = n → EndsAs s (iterM (Codec.limBody n P f) acc s) (x o d).closed := by
  intro k acc hk
  have hl := left S hz
  have h1 : Codec.limBody n P f acc s = (f s).bind fun a s' =>
      ((Codec.tryPush n acc a >>= fun acc => Pure.pure (.inl acc) : PM σ (List α ⊕ List α))) s' := by
    simp only [Codec.limBody, M.bind_run, S.remainder hz, Out.bind_ok, ne_eq, hl, not_false_eq_true, if_true]
  have h := hf o d s hz
  rw [iterM_unfold, h1]
  revert h
  cases hx : x o d with
  | ok =>
    rintro ⟨a, h⟩
    rw [h, Out.bind_ok, M.bind_run]
    unfold Codec.tryPush
    cases k with
    | zero =>
      rw [if_neg (by omega)]
      exact ⟨_, _, rfl⟩
    | succ k =>
      rw [if_pos (by omega)]
      have := lim hf n hz k (acc ++ [a]) (by simp; omega)
      rw [hx] at this
      exact this
  | err => rintro ⟨e, s', h⟩; rw [h]; exact ⟨e, s', rfl⟩
  | panic => intro h; rw [show f s = .panic from h]; rfl
  | ub => intro h; rw [show f s = .ub from h]; rfl
  | diverge => intro h; rw [show f s = .diverge from h]; rfl

theorem fixSeq (n : Nat) {c : Codec α} {x : Nat → Nat → Fate} (hf : Stuck Z (c.parse P) x) :
    Stuck Z ((Codec.fixSeq n c).parse P) fun o d => if n = 0 then .ok else x o d := by
  intro o d st hz
  have := Stuck.fix S hf n hz n [] (by simp)
  show EndsAs st ((iterM (Codec.fixBody n P (c.parse P)) [] >>= fun seq => _) st) (if n = 0 then .ok else x o d)
  rw [M.bind_run]
  revert this
  by_cases h0 : n = 0
  · rw [if_pos (.inl h0), if_pos h0]
    rintro ⟨xs, h1, h2⟩
    rw [h2, Out.bind_ok, if_pos h1]
    exact ⟨_, rfl⟩
  · rw [if_neg h0]
    cases hx : x o d with
    | ok =>
      rw [if_pos (.inr rfl)]
      rintro ⟨xs, h1, h2⟩
      rw [h2, Out.bind_ok, if_pos h1]
      exact ⟨_, rfl⟩
    | err => rw [if_neg (by simp [h0])]; rintro ⟨e, s', h⟩; rw [h]; exact ⟨e, s', rfl⟩
    | panic => rw [if_neg (by simp [h0])]; intro h; rw [show iterM _ _ st = .panic from h]; rfl
    | ub => rw [if_neg (by simp [h0])]; intro h; rw [show iterM _ _ st = .ub from h]; rfl
    | diverge => rw [if_neg (by simp [h0])]; intro h; rw [show iterM _ _ st = .diverge from h]; rfl

end Stuck

variable (S : Sinks P R l Z) (cfg : Cfg) (hp : cfg.prof = .release)
include S hp

mutual
/-- Decoders in windows that end before the cursor. -/
theorem Schema.stuck : ∀ s : Schema, s.narrow = true → Stuck Z ((s.codec cfg).parse P) fun o d => s.fate o d
  | .unit, _ => .pure ()
  | .bool, _ => .stop fun _ _ _ hz => S.consumeByte hz
  | .int t, _ => .int S t
  | .f64, _ => .stop (.takeFixed S (by have := isizeMax_cases; show 8 ≤ _; omega))
  | .rangedInt t _ _, _ => .stop (.int S t)
  | .rangedFloat _ _, _ => .stop (.stop (.takeFixed S (by have := isizeMax_cases; show 8 ≤ _; omega)))
  | .zarithN, _ => .halt (.selfTerminating S _) nofun
  | .zarithZ, _ => .halt (.selfTerminating S _) nofun
  | .bytes, _ => .takeRest S
  | .vecU8, _ => .takeRest S
  | .string, _ => .remainder S fun _ _ _ hz => by
    rw [M.bind_run, ParserOps.takeDynamic, S.take hz]
    rfl
  | .fixedBytes n, h => .stop (.takeFixed S (of_decide_eq_true h))
  | .fixedString n, h => .stop (.takeFixed S (of_decide_eq_true h))
  | .cstyle w tags, _ => .stop (.tag S w tags)
  | .option s, _ => .stop (.tag S _ _)
  | .nullable s, h => .remainder S fun o d st hz => by
    rw [if_pos (Stuck.left S hz)]
    exact Stuck.ret (s.stuck h) o d st hz
  | .dynamic p s, _ => .stop (.lenPref S p)
  | .vpadded n s, h => by
    simp only [Schema.narrow, Bool.and_eq_true, decide_eq_true_eq] at h
    exact .vpadded S hp h.1 (s.stuck h.2)
  | .padded n s, h => by
    simp only [Schema.narrow, Bool.and_eq_true, decide_eq_true_eq] at h
    refine ((s.stuck h.2).bind fun _ => Stuck.stop (Stuck.take S h.1)).congr fun o d => ?_
    show _ = (s.fate o d).closed
    cases s.fate o d <;> rfl
  | .seq s, h => .seq S (s.stuck h)
  | .fixSeq n s, h => .fixSeq S n (s.stuck h)
  | .limSeq n s, h => fun o d st hz => Stuck.lim S (s.stuck h) n hz n [] (by simp)
  | .autobox s, h => s.stuck h
  | .hole i, _ => fun _ _ _ _ => rfl
  | .data w vs, _ => .stop (.tag S w _)
  | .record fs, h => fs.stuck h
theorem Fields.stuck : ∀ fs : Fields, fs.narrow = true → Stuck Z ((fs.codec cfg).parse P) fun o d => fs.fate o d
  | .nil, _ => .pure _
  | .cons s fs, h => by
    simp only [Fields.narrow, Bool.and_eq_true] at h
    exact (s.stuck h.1).bind fun _ => (fs.stuck h.2).ret
end

end

section

variable {σ α β : Type} {P : ParserOps σ} {pan pan' : Prop} {R : Bytes → List Bytes → σ → Prop} {l : Nat}
  {Z : Nat → Nat → σ → Prop}

/-! ### where promises end -/

/-- What parser code does where the pure decoder promises nothing: it does not return. -/
def Falls (R : Bytes → List Bytes → σ → Prop) (f : PM σ α) (d : D α) (g : Nat → Bytes → Fate) : Prop :=
  ∀ v vs s, R v vs s → d v = .wild → g vs.flatten.length v ≠ .ok ∧ ∀ s', EndsAs s' (f s) (g vs.flatten.length v)

theorem EndsAs.halt {f : PM σ α} {g : α → PM σ β} {s₀ : σ} {r : Fate} (hr : r ≠ .ok) (h : ∀ s', EndsAs s' (f s₀) r) (s' : σ) :
    EndsAs s' ((f >>= g) s₀) r := by
  have h := h s'
  rw [M.bind_run]
  revert h
  cases r with
  | ok => exact (hr rfl).elim
  | err => rintro ⟨e, s', h⟩; rw [h]; exact ⟨e, s', rfl⟩
  | panic => intro h; rw [show f s₀ = .panic from h]; rfl
  | ub => intro h; rw [show f s₀ = .ub from h]; rfl
  | diverge => intro h; rw [show f s₀ = .diverge from h]; rfl

theorem EndsAs.closed {s s' : σ} {out : Out σ ParseError α} {r : Fate} (hr : r ≠ .ok) (h : EndsAs s out r) : EndsAs s' out r := by
  cases r with
  | ok => exact (hr rfl).elim
  | _ => exact h

theorem Fate.closed_ne (r : Fate) : r.closed ≠ .ok := by cases r <;> nofun

theorem EndsAs.iter {body : β → PM σ (β ⊕ α)} {b : β} {s₀ : σ} {r : Fate} (hr : r ≠ .ok) (h : ∀ s', EndsAs s' (body b s₀) r)
    (s' : σ) : EndsAs s' (iterM body b s₀) r := by
  have h := h s'
  rw [iterM_unfold]
  revert h
  cases r with
  | ok => exact (hr rfl).elim
  | err => rintro ⟨e, s', h⟩; rw [h]; exact ⟨e, s', rfl⟩
  | panic => intro h; rw [show body b s₀ = .panic from h]; rfl
  | ub => intro h; rw [show body b s₀ = .ub from h]; rfl
  | diverge => intro h; rw [show body b s₀ = .diverge from h]; rfl

namespace Falls

theorem of_tame {f : PM σ α} {d : D α} {g : Nat → Bytes → Fate} (h : Tame d) : Falls R f d g :=
  fun v _ _ _ hw => (h v hw).elim

theorem congr {f : PM σ α} {d : D α} {g g' : Nat → Bytes → Fate} (h : Falls R f d g) (e : ∀ b v, d v = .wild → g b v = g' b v) :
    Falls R f d g' := fun v vs s hr hw => e _ v hw ▸ h v vs s hr hw

theorem bind {f : PM σ α} {k : α → PM σ β} {d : D α} {e : α → D β} {g : Nat → Bytes → Fate} {g' : α → Nat → Bytes → Fate}
    (hr : Refines pan' R f d) (hf : Falls R f d g) (hk : ∀ a, Falls R (k a) (e a) (g' a)) :
    Falls R (f >>= k) (d >>= e) fun b v => match d v with
      | .ok a rest => g' a b rest
      | _ => g b v := by
  intro v vs s h hw
  have h1 := hr v vs s h
  rw [D.bind_run] at hw
  dsimp only
  cases hd : d v with
  | ok a rest =>
    rw [hd] at h1 hw
    obtain ⟨s', h2, h3⟩ := h1
    rw [M.bind_run, h2]
    exact hk a rest vs s' h3 hw
  | wild =>
    obtain ⟨h2, h3⟩ := hf v vs s h hd
    exact ⟨h2, EndsAs.halt h2 h3⟩
  | _ => rw [hd] at hw; cases hw

theorem map (h : α → β) {f : PM σ α} {d : D α} {g : Nat → Bytes → Fate} (hf : Falls R f d g) : Falls R (h <$> f) (h <$> d) g := by
  intro v vs s hr hw
  have hd : d v = .wild := by
    rw [D.map_run] at hw
    cases hd : d v with
    | wild => rfl
    | _ => rw [hd] at hw; cases hw
  obtain ⟨h2, h3⟩ := hf v vs s hr hd
  exact ⟨h2, EndsAs.halt h2 h3⟩

theorem pure (a : α) {g : Nat → Bytes → Fate} : Falls R (Pure.pure a : PM σ α) (Pure.pure a) g := fun _ _ _ _ h => nomatch h
theorem panic {f : PM σ α} {g : Nat → Bytes → Fate} : Falls R f D.panic g := fun _ _ _ _ h => nomatch h
theorem throw {f : PM σ α} {e : ParseError} {g : Nat → Bytes → Fate} : Falls R f (D.throw e) g := fun _ _ _ _ h => nomatch h

theorem ite {c : Prop} [Decidable c] {f f' : PM σ α} {d d' : D α} {g g' : Nat → Bytes → Fate} (h : Falls R f d g)
    (h' : Falls R f' d' g') : Falls R (if c then f else f') (if c then d else d') fun b v => if c then g b v else g' b v := by
  split
  · exact h
  · exact h'

/-- Reading fixed numbers of bytes and whatever follows. -/
theorem take {f : PM σ Bytes} {n : Nat} (hn : n ≤ isizeMax + 1) {g : Nat → Bytes → Fate} : Falls R f (D.take n) g :=
  of_tame fun v => by
    unfold D.take D.short
    split
    · nofun
    · nofun

variable (L : Lawful P pan R)
include L

theorem ifEmpty {f f' : PM σ α} {d d' : D α} {g : Nat → Bytes → Fate} (hf : Falls R f d g) (hd : Tame d') :
    Falls R (P.remainder >>= fun n => if n ≠ 0 then f else f') (D.ifEmpty d' d) g := by
  intro v vs s hr hw
  obtain ⟨s', h1, h2⟩ := L.remainder hr
  rw [M.bind_run, h1, Out.bind_ok]
  unfold D.ifEmpty at hw
  split at hw
  · exact (hd _ hw).elim
  · rename_i hv
    rw [if_pos (fun h => hv (List.eq_nil_of_length_eq_zero h))]
    exact hf v vs s' h2 hw

theorem window {n : Nat} (hn : n ≤ isizeMax + 1) {f : PM σ α} {d : D α} {g : Nat → Bytes → Fate} (hf : Falls R f d g) :
    Falls R (do P.setFit n; let a ← f; P.enforceTarget; Pure.pure a) (D.window n d) fun b v => g (v.length - n + b) (v.take n) := by
  intro v vs s hr hw
  unfold D.window at hw
  split at hw
  · rename_i hl
    obtain ⟨s1, h1, r1⟩ := L.setFit_ok n hr hl
    have hd : d (v.take n) = .wild := by
      cases hd : d (v.take n) with
      | wild => rfl
      | ok a r =>
        rw [hd] at hw
        simp only [DecRes.bind_ok] at hw
        split at hw <;> cases hw
      | _ => rw [hd] at hw; cases hw
    obtain ⟨h2, h3⟩ := hf _ _ _ r1 hd
    have e : (v.drop n :: vs).flatten.length = v.length - n + vs.flatten.length := by simp
    rw [e] at h2 h3
    refine ⟨h2, fun s' => ?_⟩
    rw [M.bind_run, h1, Out.bind_ok]
    exact EndsAs.halt h2 h3 s'
  · rw [D.short, if_pos hn] at hw
    cases hw

theorem vpadded (S : Sinks P R l Z) {cfg : Cfg} (hp : cfg.prof = .release) {n : Nat} (hn : n ≤ isizeMax + 1) {c : Codec α}
    {d : D α} {g : Nat → Bytes → Fate} {x : Nat → Nat → Fate} (hf : Falls R (c.parse P) d g) (hz : Stuck Z (c.parse P) x) :
    Falls R ((Codec.vpadded cfg n c).parse P) (Dec.vpadded cfg n d) fun b v =>
      if n ≤ v.length then g (n + b) (v.take (v.length - n))
      else if n - v.length ≤ l - (v.length + b) then (x (l - (v.length + b)) (n - v.length)).closed
      else .err := by
  intro v vs s hr hw
  obtain ⟨s1, h1, r1⟩ := L.remainder hr
  have hs := L.small hr
  have hm := usizeMod_eq
  have e : (Codec.vpadded cfg n c).parse P s = (match usub cfg.prof v.length n with
      | none => M.panic
      | some k => do P.setFit k; let ret ← c.parse P; P.enforceTarget; Pure.pure ret : PM σ α) s1 := by
    simp only [Codec.vpadded, M.bind_run, h1, Out.bind_ok]
    rw [if_neg (by rw [hp]; simp)]
    cases usub cfg.prof v.length n <;> rfl
  dsimp only
  unfold Dec.vpadded at hw
  by_cases hl : n ≤ v.length
  · rw [if_pos hl] at hw ⊢
    have := window L (n := v.length - n) (by omega) hf v vs s1 r1 hw
    dsimp only at this
    rw [show v.length - (v.length - n) = n by omega] at this
    rw [e, usub_of_le hl]
    exact this
  · rw [if_neg hl]
    have hu : usub .release v.length n = some (v.length + usizeMod - n) := by
      simp only [usub]
      rw [if_neg hl]
      simp only [Option.some.injEq]
      exact Nat.mod_eq_of_lt (by omega)
    rw [e, hp, hu]
    have h := S.sink r1 (Nat.lt_of_not_le hl) hn
    revert h
    split
    · rintro ⟨s2, h2, z2⟩
      refine ⟨Fate.closed_ne _, fun s' => ?_⟩
      show EndsAs s' ((P.setFit (v.length + usizeMod - n) >>= fun _ => _) s1) _
      rw [M.bind_run, h2, Out.bind_ok]
      have := hz _ _ _ z2
      revert this
      cases hx : x (l - (v.length + vs.flatten.length)) (n - v.length) with
      | ok =>
        rintro ⟨a, h⟩
        obtain ⟨e, s3, h3⟩ := S.enforce z2
        rw [M.bind_run, h, Out.bind_ok, M.bind_run, h3]
        exact ⟨e, s3, rfl⟩
      | err => exact fun h => EndsAs.halt (r := .err) nofun (fun _ => h) s'
      | panic => exact fun h => EndsAs.halt (r := .panic) nofun (fun _ => h) s'
      | ub => exact fun h => EndsAs.halt (r := .ub) nofun (fun _ => h) s'
      | diverge => exact fun h => EndsAs.halt (r := .diverge) nofun (fun _ => h) s'
    · rintro ⟨e, s2, h2⟩
      refine ⟨nofun, fun s' => ⟨e, s2, ?_⟩⟩
      show (P.setFit (v.length + usizeMod - n) >>= fun _ => _) s1 = _
      rw [M.bind_run, h2]
      rfl

theorem many {f : PM σ α} {d : D α} {g : Nat → Bytes → Fate} (hr : Refines pan' R f d) (hf : Falls R f d g) (hp : ReadsPrefix d)
    (k : Nat) : ∀ (acc : List α) (v : Bytes) (vs : List Bytes) (s : σ), v.length ≤ k → R v vs s → D.many d v = .wild →
      Fate.first d (g vs.flatten.length) k v ≠ .ok ∧
        ∀ s', EndsAs s' (iterM (Codec.seqBody P f) acc s) (Fate.first d (g vs.flatten.length) k v) := by
  induction k with
  | zero =>
    intro acc v vs s hk h hw
    rw [List.eq_nil_of_length_eq_zero (Nat.le_zero.mp hk), D.many, if_pos rfl] at hw
    cases hw
  | succ k ih =>
    intro acc v vs s hk h hw
    obtain ⟨s1, h1, r1⟩ := L.remainder h
    have hv : v ≠ [] := by
      rintro rfl
      rw [D.many, if_pos rfl] at hw
      cases hw
    have hv' : v.length ≠ 0 := fun h0 => hv (List.eq_nil_of_length_eq_zero h0)
    have hb : Codec.seqBody P f acc s = (f >>= fun a => Pure.pure (.inl (acc ++ [a]))) s1 := by
      simp only [Codec.seqBody, M.bind_run, h1, Out.bind_ok, ne_eq, hv', not_false_eq_true, if_true]
    have hd := hr v vs s1 r1
    rw [D.many, if_neg hv] at hw
    cases hx : d v with
    | ok a rest =>
      rw [hx] at hw hd
      obtain ⟨s2, h2, r2⟩ := hd
      dsimp only at hw
      have hb' : iterM (Codec.seqBody P f) acc s = iterM (Codec.seqBody P f) (acc ++ [a]) s2 := by
        rw [iterM_unfold, hb, M.bind_run, h2]
        rfl
      rw [hb']
      simp only [Fate.first, hx]
      split at hw
      · rename_i hl
        refine ih (acc ++ [a]) rest vs s2 (by omega) r2 ?_
        cases hm : D.many d rest with
        | wild => rfl
        | _ => rw [hm] at hw; cases hw
      · rename_i hl
        obtain ⟨p, hpre⟩ := hp _ _ _ hx
        have hlen := congrArg List.length hpre
        simp only [List.length_append] at hlen
        have : p = [] := by apply List.length_eq_zero_iff.mp; omega
        subst this
        have : rest = v := hpre.symm
        rw [if_pos this] at hw
        cases hw
    | wild =>
      obtain ⟨h2, h3⟩ := hf v vs s1 r1 hx
      simp only [Fate.first, hx]
      refine ⟨h2, EndsAs.iter h2 fun s' => ?_⟩
      rw [hb]
      exact EndsAs.halt h2 h3 s'
    | _ => rw [hx] at hw; cases hw

theorem fixLoop {f : PM σ α} {d : D α} {g : Nat → Bytes → Fate} (hr : Refines pan' R f d) (hf : Falls R f d g) (n : Nat)
    (k : Nat) : ∀ (acc : List α), acc.length + k = n →
      Falls R (iterM (Codec.fixBody n P f) acc) (D.upTo d k) fun b v => Fate.first d (g b) k v := by
  induction k with
  | zero => intro acc _ v vs s h hw; cases hw
  | succ k ih =>
    intro acc hk v vs s h hw
    obtain ⟨s1, h1, r1⟩ := L.remainder h
    have hv : v ≠ [] := by
      rintro rfl
      simp [D.upTo, D.ifEmpty] at hw
    have hv' : v.length ≠ 0 := fun h0 => hv (List.eq_nil_of_length_eq_zero h0)
    have hlt : acc.length < n := by omega
    have hb : Codec.fixBody n P f acc s = (f >>= fun a => Pure.pure (.inl (acc ++ [a]))) s1 := by
      simp only [Codec.fixBody, M.bind_run, h1, Out.bind_ok, if_pos (And.intro hv' hlt), Codec.tryPush, if_pos hlt, M.pure_run]
    have hd := hr v vs s1 r1
    simp only [D.upTo, D.ifEmpty, if_neg hv, D.bind_run] at hw
    cases hx : d v with
    | ok a rest =>
      rw [hx] at hw hd
      obtain ⟨s2, h2, r2⟩ := hd
      have hb' : iterM (Codec.fixBody n P f) acc s = iterM (Codec.fixBody n P f) (acc ++ [a]) s2 := by
        rw [iterM_unfold, hb, M.bind_run, h2]
        rfl
      rw [hb']
      simp only [Fate.first, hx]
      refine ih (acc ++ [a]) (by simp; omega) rest vs s2 r2 ?_
      simp only [DecRes.bind_ok] at hw
      cases hm : D.upTo d k rest with
      | wild => rfl
      | _ => rw [hm] at hw; cases hw
    | wild =>
      obtain ⟨h2, h3⟩ := hf v vs s1 r1 hx
      simp only [Fate.first, hx]
      refine ⟨h2, EndsAs.iter h2 fun s' => ?_⟩
      rw [hb]
      exact EndsAs.halt h2 h3 s'
    | _ => rw [hx] at hw; cases hw

theorem limLoop {f : PM σ α} {d : D α} {g : Nat → Bytes → Fate} (hr : Refines pan' R f d) (hf : Falls R f d g) (n : Nat)
    (e : ParseError) (k : Nat) : ∀ (acc : List α), acc.length + k = n →
      Falls R (iterM (Codec.limBody n P f) acc) (D.manyMax e d k) fun b v => Fate.first d (g b) k v := by
  induction k with
  | zero =>
    intro acc hk v vs s h hw
    obtain ⟨s1, h1, r1⟩ := L.remainder h
    have hv : v ≠ [] := by
      rintro rfl
      simp [D.manyMax, D.ifEmpty] at hw
    have hv' : v.length ≠ 0 := fun h0 => hv (List.eq_nil_of_length_eq_zero h0)
    simp only [D.manyMax, D.ifEmpty, if_neg hv, D.bind_run] at hw
    cases hx : d v with
    | wild =>
      obtain ⟨h2, h3⟩ := hf v vs s1 r1 hx
      refine ⟨h2, EndsAs.iter h2 fun s' => ?_⟩
      simp only [Codec.limBody]
      rw [M.bind_run, h1, Out.bind_ok, if_pos hv']
      exact EndsAs.halt h2 h3 s'
    | _ => rw [hx] at hw; cases hw
  | succ k ih =>
    intro acc hk v vs s h hw
    obtain ⟨s1, h1, r1⟩ := L.remainder h
    have hv : v ≠ [] := by
      rintro rfl
      simp [D.manyMax, D.ifEmpty] at hw
    have hv' : v.length ≠ 0 := fun h0 => hv (List.eq_nil_of_length_eq_zero h0)
    have hlt : acc.length < n := by omega
    have hb : Codec.limBody n P f acc s = (f >>= fun a => Pure.pure (.inl (acc ++ [a]))) s1 := by
      simp only [Codec.limBody, M.bind_run, h1, Out.bind_ok, if_pos hv', Codec.tryPush, if_pos hlt, M.pure_run]
    have hd := hr v vs s1 r1
    simp only [D.manyMax, D.ifEmpty, if_neg hv, D.bind_run] at hw
    cases hx : d v with
    | ok a rest =>
      rw [hx] at hw hd
      obtain ⟨s2, h2, r2⟩ := hd
      have hb' : iterM (Codec.limBody n P f) acc s = iterM (Codec.limBody n P f) (acc ++ [a]) s2 := by
        rw [iterM_unfold, hb, M.bind_run, h2]
        rfl
      rw [hb']
      simp only [Fate.first, hx]
      refine ih (acc ++ [a]) (by simp; omega) rest vs s2 r2 ?_
      simp only [DecRes.bind_ok] at hw
      cases hm : D.manyMax e d k rest with
      | wild => rfl
      | _ => rw [hm] at hw; cases hw
    | wild =>
      obtain ⟨h2, h3⟩ := hf v vs s1 r1 hx
      simp only [Fate.first, hx]
      refine ⟨h2, EndsAs.iter h2 fun s' => ?_⟩
      rw [hb]
      exact EndsAs.halt h2 h3 s'
    | _ => rw [hx] at hw; cases hw

theorem seq {c : Codec α} {d : D α} {g : Nat → Bytes → Fate} (hr : Refines pan' R (c.parse P) d) (hf : Falls R (c.parse P) d g)
    (hp : ReadsPrefix d) : Falls R ((Codec.seq c).parse P) (Dec.seq d) fun b v => Fate.first d (g b) v.length v :=
  fun v vs s h hw => many L hr hf hp v.length [] v vs s (Nat.le_refl _) h hw

theorem fixSeq {c : Codec α} {d : D α} {g : Nat → Bytes → Fate} (hr : Refines pan' R (c.parse P) d) (hf : Falls R (c.parse P) d g)
    (n : Nat) : Falls R ((Codec.fixSeq n c).parse P) (Dec.fixSeq n d) fun b v => Fate.first d (g b) n v := by
  intro v vs s h hw
  have hd : D.upTo d n v = .wild := by
    simp only [Dec.fixSeq, D.bind_run] at hw
    cases hd : D.upTo d n v with
    | wild => rfl
    | ok a r => rw [hd] at hw; simp only [DecRes.bind_ok] at hw; split at hw <;> cases hw
    | _ => rw [hd] at hw; cases hw
  obtain ⟨h2, h3⟩ := fixLoop L hr hf n n [] (by simp) v vs s h hd
  exact ⟨h2, EndsAs.halt h2 h3⟩

theorem dynamic {cfg : Cfg} (lp : LenPref) {c : Codec α} {d : D α} {g : Nat → Bytes → Fate} (hf : Falls R (c.parse P) d g) :
    Falls R ((Codec.dynamic cfg lp c).parse P) (Dec.dynamic lp d) fun b v => match Dec.lenPref lp v with
      | .ok n rest => g (rest.length - n + b) (rest.take n)
      | _ => .err := by
  intro v vs s h hw
  have h1 := Refines.lenPref (pan' := pan) L lp v vs s h
  simp only [Dec.dynamic, D.bind_run] at hw
  dsimp only
  cases hx : Dec.lenPref lp v with
  | ok n rest =>
    rw [hx] at h1 hw
    obtain ⟨s1, h2, r1⟩ := h1
    have := Dec.lenPref_le hx
    have := lp.maxLen_small
    simp only [Codec.dynamic]
    rw [M.bind_run, h2]
    exact window L (by omega) hf rest vs s1 r1 hw
  | wild => exact (Tame.lenPref lp v hx).elim
  | _ => rw [hx] at hw; cases hw

omit L in
theorem padded {cfg : Cfg} {n : Nat} (hn : n ≤ isizeMax + 1) {c : Codec α} {d : D α} {g : Nat → Bytes → Fate}
    (hf : Falls R (c.parse P) d g) : Falls R ((Codec.padded cfg n c).parse P) (Dec.padded cfg n d) g := by
  intro v vs s h hw
  have hd : d v = .wild := by
    simp only [Dec.padded] at hw
    rw [D.bind_run] at hw
    cases hd : d v with
    | wild => rfl
    | ok a rest =>
      rw [hd] at hw
      refine absurd hw (Tame.bind (.take hn) (fun _ => ?_) rest)
      exact .ite (.throw _) (.pure _)
    | _ => rw [hd] at hw; cases hw
  obtain ⟨h2, h3⟩ := hf v vs s h hd
  exact ⟨h2, EndsAs.halt h2 h3⟩

theorem tagged {k : Nat → PM σ α} {e : Nat → D α} {g : Nat → Nat → Bytes → Fate} (w : TagWidth) (tags : List Nat)
    (hk : ∀ t, Falls R (k t) (e t) (g t)) :
    Falls R (ParserOps.takeTagword w (w.parse P) tags >>= k) (Dec.tag w tags >>= e) fun b v => match Dec.tag w tags v with
      | .ok t rest => g t b rest
      | _ => .err :=
  congr (bind (pan' := pan) (g := fun _ _ => .err) (Refines.tag L w tags) (of_tame (Tame.tag w tags)) hk) fun b v _ => by
    cases Dec.tag w tags v <;> rfl

theorem option {c : Codec α} {d : D α} {g : Nat → Bytes → Fate} (hf : Falls R (c.parse P) d g) :
    Falls R ((Codec.option c).parse P) (Dec.option d) fun b v => g b (v.drop 1) := by
  refine congr (tagged L .u8 [0, 0xff] (e := fun t => if t = 0xff then some <$> d else Pure.pure none) (g := fun _ => g) fun t => ?_) fun b v hw => ?_
  · by_cases h : t = 0xff
    · simp only [if_pos h]
      exact map some hf
    · simp only [if_neg h]
      exact fun _ _ _ _ ho => nomatch ho
  · simp only [Dec.option] at hw
    rw [D.bind_run] at hw
    cases hx : Dec.tag .u8 [0, 0xff] v with
    | ok t rest =>
      have : rest = v.drop 1 := by
        simp only [Dec.tag, D.bind_run, D.map_run, D.take, TagWidth.len] at hx
        by_cases hl : 1 ≤ v.length
        · rw [if_pos hl] at hx
          simp only [DecRes.bind_ok] at hx
          split at hx
          · cases hx; rfl
          · split at hx <;> cases hx
        · rw [if_neg hl, D.short, if_pos (by have := isizeMax_cases; omega)] at hx
          cases hx
      rw [this]
    | wild => exact (Tame.tag _ _ v hx).elim
    | _ => rw [hx] at hw; cases hw

omit L in
theorem fcons {c : Codec α} {d : D α} {g : Nat → Bytes → Fate} {f : FCodec β} {e : D β} {g' : Nat → Bytes → Fate} {x : Nat → Bytes → Fate}
    (hr : Refines pan' R (c.parse P) d) (hc : Falls R (c.parse P) d g) (hf : Falls R (f.parse P) e g')
    (hx : ∀ b v, x b v = match d v with | .ok _ rest => g' b rest | _ => g b v) :
    Falls R ((FCodec.cons c f).parse P) (Dec.fcons d e) x :=
  congr (bind hr hc fun a => map (fun b => (a, b)) hf) fun b v _ => by
    rw [hx]

end Falls

variable (L : Lawful P pan R) (S : Sinks P R l Z) (cfg : Cfg) (hp : cfg.prof = .release)
include L S hp
set_option linter.unusedSectionVars false

mutual
theorem Schema.falls : ∀ s : Schema, s.narrow = true → Falls R ((s.codec cfg).parse P) (s.dec cfg) (s.fall cfg l)
  | .unit, _ => .of_tame (Schema.tame_dec cfg .unit rfl)
  | .bool, _ => .of_tame (Schema.tame_dec cfg .bool rfl)
  | .int t, _ => .of_tame (Schema.tame_dec cfg (.int t) rfl)
  | .f64, _ => .of_tame (Schema.tame_dec cfg .f64 rfl)
  | .rangedInt t min max, _ => .of_tame (Schema.tame_dec cfg (.rangedInt t min max) rfl)
  | .rangedFloat min max, _ => .of_tame (Schema.tame_dec cfg (.rangedFloat min max) rfl)
  | .zarithN, _ => .of_tame (Schema.tame_dec cfg .zarithN rfl)
  | .zarithZ, _ => .of_tame (Schema.tame_dec cfg .zarithZ rfl)
  | .bytes, _ => .of_tame (Schema.tame_dec cfg .bytes rfl)
  | .vecU8, _ => .of_tame (Schema.tame_dec cfg .vecU8 rfl)
  | .string, _ => .of_tame (Schema.tame_dec cfg .string rfl)
  | .fixedBytes n, h => .of_tame (.byteArr (of_decide_eq_true h))
  | .fixedString n, h => .of_tame (.byteArr (of_decide_eq_true h))
  | .option s, h => .option L (s.falls h)
  | .nullable s, h => .ifEmpty L (.map some (s.falls h)) (.pure none)
  | .dynamic lp s, h => .dynamic L lp (s.falls h)
  | .vpadded n s, h => by
    simp only [Schema.narrow, Bool.and_eq_true, decide_eq_true_eq] at h
    exact .vpadded L S hp h.1 (s.falls h.2) (s.stuck S cfg hp h.2)
  | .padded n s, h => by
    simp only [Schema.narrow, Bool.and_eq_true, decide_eq_true_eq] at h
    exact .padded h.1 (s.falls h.2)
  | .seq s, h => .seq L (s.parses cfg L) (s.falls h) (s.readsPrefix cfg)
  | .fixSeq n s, h => .fixSeq L (s.parses cfg L) (s.falls h) n
  | .limSeq n s, h => .limLoop L (s.parses cfg L) (s.falls h) n _ n [] (by simp)
  | .autobox s, h => s.falls h
  | .hole _, _ => .of_tame fun _ => nofun
  | .cstyle w tags, _ => .of_tame (Schema.tame_dec cfg (.cstyle w tags) rfl)
  | .data w vs, h => by
    have := Falls.tagged L w (vs.codec cfg).tags fun t => vs.falls h t
    rw [Variants.codec_tags cfg vs] at this
    have e : (Schema.codec cfg (.data w vs)).parse P = ParserOps.takeTagword w (w.parse P) vs.tags >>= (vs.codec cfg).parse P := by
      rw [← Variants.codec_tags cfg vs]
      rfl
    rw [e]
    refine .congr this fun b v _ => ?_
    rw [Schema.fall]
    cases Dec.tag w vs.tags v <;> rfl
  | .record fs, h => fs.falls h
theorem Variants.falls : ∀ vs : Variants, vs.narrow = true → ∀ t, Falls R ((vs.codec cfg).parse P t) (vs.dec cfg t) (vs.fall cfg l t)
  | .nil, _, _ => .panic
  | .cons tag s vs, h, t => by
    simp only [Variants.narrow, Bool.and_eq_true] at h
    exact .ite (.map _ (s.falls h.1)) (.map _ (vs.falls h.2 t))
theorem Fields.falls : ∀ fs : Fields, fs.narrow = true → Falls R ((fs.codec cfg).parse P) (fs.dec cfg) (fs.fall cfg l)
  | .nil, _ => .pure _
  | .cons s fs, h => by
    simp only [Fields.narrow, Bool.and_eq_true] at h
    exact .fcons (s.parses cfg L) (s.falls h.1) (fs.falls h.2) fun b v => by rw [Fields.fall]; cases s.dec cfg v <;> rfl
end

end
end Verif
