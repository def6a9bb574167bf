import Verif.Spec.Meter
import Verif.Refine.Program
import Verif.Refine.Codec
/-
Counting calls changes nothing else.
-/
namespace Verif

/-- `f'` is `f` with calls counted. -/
def Erases {σ α : Type} (f' : PM (σ × Nat) α) (f : PM σ α) : Prop := ∀ s k, (f' (s, k)).unmetered = f s

namespace Erases

variable {σ α β : Type}

theorem metered (f : PM σ α) : Erases (M.metered f) f := by
  intro s k
  unfold M.metered
  dsimp only
  cases f s <;> rfl

theorem pure (a : α) : Erases (σ := σ) (Pure.pure a) (Pure.pure a) := fun _ _ => rfl
theorem throw (e : ParseError) : Erases (σ := σ) (α := α) (M.throw e) (M.throw e) := fun _ _ => rfl
theorem panic : Erases (σ := σ) (α := α) M.panic M.panic := fun _ _ => rfl
theorem diverge : Erases (σ := σ) (α := α) (fun _ => .diverge) (fun _ => .diverge) := fun _ _ => rfl

theorem bind {f' : PM (σ × Nat) α} {f : PM σ α} {g' : α → PM (σ × Nat) β} {g : α → PM σ β} (hf : Erases f' f)
    (hg : ∀ a, Erases (g' a) (g a)) : Erases (f' >>= g') (f >>= g) := by
  intro s k
  rw [M.bind_run, M.bind_run, ← hf s k]
  cases f' (s, k) with
  | ok a s' => exact hg a s'.1 s'.2
  | _ => rfl

theorem map (g : α → β) {f' : PM (σ × Nat) α} {f : PM σ α} (hf : Erases f' f) : Erases (g <$> f') (g <$> f) :=
  bind hf fun _ => pure _

theorem ite {c : Prop} [Decidable c] {f' g' : PM (σ × Nat) α} {f g : PM σ α} (hf : Erases f' f) (hg : Erases g' g) :
    Erases (if c then f' else g') (if c then f else g) := by
  split
  · exact hf
  · exact hg

theorem dite {c : Prop} [Decidable c] {f' : c → PM (σ × Nat) α} {g' : ¬ c → PM (σ × Nat) α} {f : c → PM σ α}
    {g : ¬ c → PM σ α} (hf : ∀ h, Erases (f' h) (f h)) (hg : ∀ h, Erases (g' h) (g h)) :
    Erases (if h : c then f' h else g' h) (if h : c then f h else g h) := by
  split
  · exact hf _
  · exact hg _

theorem iterN {body' : β → PM (σ × Nat) (β ⊕ α)} {body : β → PM σ (β ⊕ α)} (h : ∀ b, Erases (body' b) (body b)) :
    ∀ n b s k, (Verif.iterN body' n b (s, k)).map Out.unmetered = Verif.iterN body n b s
  | 0, _, _, _ => rfl
  | n + 1, b, s, k => by
    simp only [Verif.iterN, ← h b s k]
    cases body' b (s, k) with
    | ok r s' =>
      cases r with
      | inl b' => exact iterN h n b' s'.1 s'.2
      | inr a => rfl
    | _ => rfl

theorem loop {body' : β → PM (σ × Nat) (β ⊕ α)} {body : β → PM σ (β ⊕ α)} (h : ∀ b, Erases (body' b) (body b)) (b : β) :
    Erases (iterM body' b) (iterM body b) := by
  intro s k
  by_cases hex : ∃ n o, Verif.iterN body' n b (s, k) = some o
  · obtain ⟨n, o, hn⟩ := hex
    have h2 := iterN h n b s k
    rw [hn] at h2
    rw [iterM_of_iterN hn, iterM_of_iterN h2.symm]
  · have hn : ∀ n, Verif.iterN body' n b (s, k) = none := by
      intro n
      cases h : Verif.iterN body' n b (s, k) with
      | none => rfl
      | some o => exact absurd ⟨n, o, h⟩ hex
    have hn' : ∀ n, Verif.iterN body n b s = none := by
      intro n
      rw [← iterN h n b s k, hn n]; rfl
    rw [iterM_eq_diverge hn, iterM_eq_diverge hn']; rfl

variable (P : ParserOps σ)

theorem takeFixed (n : Nat) : Erases (P.metered.takeFixed n) (P.takeFixed n) :=
  bind (metered _) fun _ => ite (pure _) (throw _)

theorem ofExcept {ε : Type} (r : Except ε α) (f : ε → ParseError) : Erases (σ := σ) (M.ofExcept r f) (M.ofExcept r f) := by
  cases r
  · exact throw _
  · exact pure _

theorem ofOption (r : Option α) : Erases (σ := σ) (M.ofOption r) (M.ofOption r) := by
  cases r
  · exact panic
  · exact pure _

theorem selfTerm (f : Byte → Bool) (ret : Bytes) : Erases (P.metered.selfTermBody f ret) (P.selfTermBody f ret) := by
  intro s k
  have e : P.metered.consumeByte = M.metered P.consumeByte := rfl
  simp only [ParserOps.selfTermBody, e, M.metered]
  cases P.consumeByte s with
  | ok b s' => cases hb : f b <;> simp [hb, Out.unmetered]
  | _ => rfl

theorem selfTerminating (f : Byte → Bool) : Erases (P.metered.takeSelfTerminating f) (P.takeSelfTerminating f) :=
  bind (metered _) fun _ => ite panic (loop (selfTerm P f) _)

theorem tag (w : TagWidth) (tags : List Nat) :
    Erases (ParserOps.takeTagword w (w.parse P.metered) tags) (ParserOps.takeTagword w (w.parse P) tags) :=
  bind (map _ (takeFixed P _)) fun _ => ite (pure _) (ite (throw _) (throw _))

theorem rangedInt (t : IntTy) (min max : Int) :
    Erases ((Codec.rangedInt t min max).parse P.metered) ((Codec.rangedInt t min max).parse P) :=
  bind (map _ (takeFixed P _)) fun _ => ofExcept _ _

theorem lenPref (S : LenPref) : Erases (S.parse P.metered) (S.parse P) := by
  cases S
  · exact map _ (map _ (takeFixed P _))
  · exact map _ (map _ (takeFixed P _))
  · exact map _ (rangedInt P _ _ _)

theorem window (n : Nat) {f' : PM (σ × Nat) α} {f : PM σ α} (h : Erases f' f) :
    Erases (do P.metered.setFit n; let a ← f'; P.metered.enforceTarget; Pure.pure a)
      (do P.setFit n; let a ← f; P.enforceTarget; Pure.pure a) :=
  bind (metered _) fun _ => bind h fun _ => bind (metered _) fun _ => pure _

theorem takeRest : Erases (P.metered.remainder >>= fun n => P.metered.takeDynamic n) (P.remainder >>= fun n => P.takeDynamic n) :=
  bind (metered _) fun _ => metered _

theorem tryPush (n : Nat) (acc : List α) (x : α) : Erases (σ := σ) (Codec.tryPush n acc x) (Codec.tryPush n acc x) :=
  ite (pure _) (throw _)

theorem vpadded (cfg : Cfg) (n : Nat) {c : Codec α} (h : Erases (c.parse P.metered) (c.parse P)) :
    Erases ((Codec.vpadded cfg n c).parse P.metered) ((Codec.vpadded cfg n c).parse P) :=
  bind (metered _) fun r => ite panic (by
    cases usub cfg.prof r n with
    | none => exact panic
    | some k => exact window P k h)

mutual
/-- Decoders do the same whether or not their calls are counted. -/
theorem schema (cfg : Cfg) : ∀ s : Schema, Erases ((s.codec cfg).parse P.metered) ((s.codec cfg).parse P)
  | .unit => pure _
  | .bool => bind (metered _) fun _ => ite (pure _) (ite (pure _) (throw _))
  | .int _ => map _ (takeFixed P _)
  | .f64 => map _ (takeFixed P _)
  | .rangedInt t min max => rangedInt P t min max
  | .rangedFloat _ _ => bind (map _ (takeFixed P _)) fun _ => ofExcept _ _
  | .zarithN => bind (selfTerminating P _) fun _ => ofOption _
  | .zarithZ => bind (selfTerminating P _) fun _ => ofOption _
  | .bytes => takeRest P
  | .vecU8 => takeRest P
  | .string => bind (metered _) fun _ => bind (metered _) fun _ => pure _
  | .fixedBytes n => bind (takeFixed P n) fun _ => dite (fun _ => pure _) fun _ => panic
  | .fixedString n => bind (takeFixed P n) fun _ => dite (fun _ => pure _) fun _ => panic
  | .option s => bind (tag P _ _) fun _ => ite (bind (schema cfg s) fun _ => pure _) (ite (pure _) panic)
  | .nullable s => bind (metered _) fun _ => ite (bind (schema cfg s) fun _ => pure _) (pure _)
  | .dynamic S s => bind (lenPref P S) fun n => window P n (schema cfg s)
  | .vpadded n s => vpadded P cfg n (schema cfg s)
  | .padded n s => bind (schema cfg s) fun _ => bind (metered _) fun _ => ite (throw _) (pure _)
  | .seq s => loop (fun _ => bind (metered _) fun _ => ite (bind (schema cfg s) fun _ => pure _) (pure _)) _
  | .fixSeq _ s => bind (loop (fun _ => bind (metered _) fun _ =>
      ite (bind (schema cfg s) fun _ => bind (tryPush _ _ _) fun _ => pure _) (pure _)) _) fun _ => ite (pure _) (throw _)
  | .limSeq _ s => loop (fun _ => bind (metered _) fun _ =>
      ite (bind (schema cfg s) fun _ => bind (tryPush _ _ _) fun _ => pure _) (pure _)) _
  | .autobox s => schema cfg s
  | .hole _ => diverge
  | .cstyle w tags => bind (tag P w tags) fun _ => dite (fun _ => pure _) fun _ => panic
  | .data w vs => bind (tag P w _) fun t => variants cfg vs t
  | .record fs => fields cfg fs
theorem variants (cfg : Cfg) : ∀ (vs : Variants) (t : Nat), Erases ((vs.codec cfg).parse P.metered t) ((vs.codec cfg).parse P t)
  | .nil, _ => panic
  | .cons _ s vs, t => ite (bind (schema cfg s) fun _ => pure _) (bind (variants cfg vs t) fun _ => pure _)
theorem fields (cfg : Cfg) : ∀ fs : Fields, Erases ((fs.codec cfg).parse P.metered) ((fs.codec cfg).parse P)
  | .nil => pure _
  | .cons s fs => bind (schema cfg s) fun _ => bind (fields cfg fs) fun _ => pure _
end

end Erases

/-! ### the metered parser is as lawful as the parser -/

theorem M.metered_ok {σ ε α : Type} {f : M σ ε α} {s s' : σ} {a : α} (k : Nat) (h : f s = .ok a s') :
    M.metered f (s, k) = .ok a (s', k + 1) := by simp [M.metered, h]
theorem M.metered_err {σ ε α : Type} {f : M σ ε α} {s s' : σ} {e : ε} (k : Nat) (h : f s = .err e s') :
    M.metered f (s, k) = .err e (s', k + 1) := by simp [M.metered, h]

theorem Lawful.metered {σ : Type} {P : ParserOps σ} {pan : Prop} {R : Bytes → List Bytes → σ → Prop} (L : Lawful P pan R) :
    Lawful P.metered pan (fun v vs s => R v vs s.1) where
  small := fun h => L.small h
  remainder := fun h => let ⟨s', h1, h2⟩ := L.remainder h; ⟨_, M.metered_ok _ h1, h2⟩
  consumeByte_ok := fun h => let ⟨s', h1, h2⟩ := L.consumeByte_ok h; ⟨_, M.metered_ok _ h1, h2⟩
  consumeByte_err := fun h => let ⟨e, s', h1, hk, h2⟩ := L.consumeByte_err h; ⟨e, _, M.metered_err _ h1, hk, h2⟩
  consume_ok := fun n h hn => let ⟨s', h1, h2⟩ := L.consume_ok n h hn; ⟨_, M.metered_ok _ h1, h2⟩
  consume_err := fun n h hn hs =>
    let ⟨e, s', h1, hk, h2⟩ := L.consume_err n h hn hs; ⟨e, _, M.metered_err _ h1, hk, h2⟩
  setFit_ok := fun n h hn => let ⟨s', h1, h2⟩ := L.setFit_ok n h hn; ⟨_, M.metered_ok _ h1, h2⟩
  setFit_err := fun n h hn hs => (L.setFit_err n h hn hs).imp
    (fun ⟨e, s', h1, hk, h2⟩ => ⟨e, _, M.metered_err _ h1, hk, h2⟩)
    (fun ⟨hp, h1⟩ => ⟨hp, by show M.metered _ _ = _; simp [M.metered, h1]⟩)
  testTarget := fun h => let ⟨s', h1, h2⟩ := L.testTarget h; ⟨_, M.metered_ok _ h1, h2⟩
  enforce_ok := fun h => let ⟨s', h1, h2⟩ := L.enforce_ok h; ⟨_, M.metered_ok _ h1, h2⟩
  enforce_err := fun h hv => let ⟨s', h1⟩ := L.enforce_err h hv; ⟨_, M.metered_err _ h1⟩
  skip := fun n h => let ⟨s', h1, h2⟩ := L.skip n h; ⟨_, M.metered_ok _ h1, h2⟩
  skipExactly_ok := fun n h hn => let ⟨s', h1, h2⟩ := L.skipExactly_ok n h hn; ⟨_, M.metered_ok _ h1, h2⟩
  skipExactly_err := fun n h hn hs =>
    let ⟨e, s', h1, hk, h2⟩ := L.skipExactly_err n h hn hs; ⟨e, _, M.metered_err _ h1, hk, h2⟩

/-- How much is readable is determined by the state. -/
theorem Lawful.length_unique {σ : Type} {P : ParserOps σ} {pan : Prop} {R : Bytes → List Bytes → σ → Prop} (L : Lawful P pan R)
    {v v' : Bytes} {vs vs' : List Bytes} {s : σ} (h : R v vs s) (h' : R v' vs' s) : v.length = v'.length := by
  obtain ⟨_, h1, _⟩ := L.remainder h
  obtain ⟨_, h2, _⟩ := L.remainder h'
  rw [h1] at h2
  exact (Out.ok.inj h2).1

end Verif
