import Verif.Refine.Reading
import Verif.Spec.Decode
import Verif.Codec.Comb
/-
Parser code over any lawful parser refines pure decoders.
-/
namespace Verif

/-- The outcome of running parser code agrees with the outcome of a pure decoder.  Errors agree up to
`kind`; where the pure decoder fails, parsers with `pan` (ByteParser and MemoParser in debug builds) may
panic instead (they do when a window larger than the whole buffer is requested). -/
def Meets {σ α : Type} (pan : Prop) (R : Bytes → List Bytes → σ → Prop) (vs : List Bytes)
    (o : Out σ ParseError α) : DecRes α → Prop
  | .ok a rest => ∃ s', o = .ok a s' ∧ R rest vs s'
  | .err e => (∃ e' s', o = .err e' s' ∧ e'.kind = e) ∨ (pan ∧ o = .panic)
  | .panic => o = .panic
  | .diverge => o = .diverge
  | .wild => True

/-- Parser code `f` refines the pure decoder `d`. -/
def Refines {σ α : Type} (pan : Prop) (R : Bytes → List Bytes → σ → Prop) (f : PM σ α) (d : D α) : Prop :=
  ∀ v vs s, R v vs s → Meets pan R vs (f s) (d v)

section

variable {σ α β : Type} {P : ParserOps σ} {pan pan' : Prop} {R : Bytes → List Bytes → σ → Prop} {vs : List Bytes}

theorem Meets.mono {o : Out σ ParseError α} {r : DecRes α} (hp : pan → pan') (h : Meets pan R vs o r) :
    Meets pan' R vs o r := by
  cases r with
  | err e => exact h.imp id fun ⟨h1, h2⟩ => ⟨hp h1, h2⟩
  | _ => exact h

theorem Refines.mono {f : PM σ α} {d : D α} (h : Refines pan R f d) (hp : pan → pan') : Refines pan' R f d :=
  fun v vs s hr => (h v vs s hr).mono hp

theorem Meets.bind {o : Out σ ParseError α} {r : DecRes α} {g : α → σ → Out σ ParseError β}
    {h : α → Bytes → DecRes β} (ho : Meets pan' R vs o r)
    (hg : ∀ a v s, R v vs s → Meets pan' R vs (g a s) (h a v)) : Meets pan' R vs (o.bind g) (r.bind h) := by
  cases r with
  | ok a rest =>
    obtain ⟨s', rfl, hr⟩ := ho
    exact hg _ _ _ hr
  | err e =>
    rcases ho with ⟨e', s', rfl, hk⟩ | ⟨hp, rfl⟩
    · exact .inl ⟨e', s', rfl, hk⟩
    · exact .inr ⟨hp, rfl⟩
  | panic => cases (show o = _ from ho); rfl
  | diverge => cases (show o = _ from ho); rfl
  | wild => trivial

theorem Refines.pure (a : α) : Refines pan' R (pure a : PM σ α) (pure a) :=
  fun _ _ s h => ⟨s, rfl, h⟩

theorem Refines.bind {f : PM σ α} {d : D α} {g : α → PM σ β} {e : α → D β} (hf : Refines pan' R f d)
    (hg : ∀ a, Refines pan' R (g a) (e a)) : Refines pan' R (f >>= g) (d >>= e) :=
  fun v vs s h => Meets.bind (hf v vs s h) (fun a v s h => hg a v vs s h)

theorem Refines.map {f : PM σ α} {d : D α} (g : α → β) (hf : Refines pan' R f d) :
    Refines pan' R (g <$> f) (g <$> d) :=
  fun v vs s h => Meets.bind (hf v vs s h) (fun _ _ s h => ⟨s, rfl, h⟩)

theorem Refines.throw {e : ParseError} (he : e.kind = e) : Refines pan' R (M.throw e : PM σ α) (D.throw e) :=
  fun _ _ s _ => .inl ⟨e, s, rfl, he⟩

theorem Refines.panic : Refines pan' R (M.panic : PM σ α) D.panic := fun _ _ _ _ => rfl

theorem Refines.ite {c : Prop} [Decidable c] {f g : PM σ α} {d e : D α} (hf : Refines pan' R f d)
    (hg : Refines pan' R g e) : Refines pan' R (if c then f else g) (if c then d else e) := by
  split
  · exact hf
  · exact hg

theorem Refines.dite {c : Prop} [Decidable c] {f : c → PM σ α} {g : ¬ c → PM σ α} {d : c → D α} {e : ¬ c → D α}
    (hf : ∀ h, Refines pan' R (f h) (d h)) (hg : ∀ h, Refines pan' R (g h) (e h)) :
    Refines pan' R (if h : c then f h else g h) (if h : c then d h else e h) := by
  split
  · exact hf _
  · exact hg _

theorem Refines.consume (L : Lawful P pan R) (n : Nat) : Refines pan' R (P.consume n) (D.take n) := by
  intro v vs s h
  simp only [D.take]
  split
  · rename_i hn
    obtain ⟨s', h1, h2⟩ := L.consume_ok n h hn
    exact ⟨s', h1, h2⟩
  · rename_i hn
    simp only [D.short]
    split
    · rename_i hs
      obtain ⟨e, s', h1, h2, _⟩ := L.consume_err n h (Nat.lt_of_not_le hn) hs
      exact .inl ⟨e, s', h1, h2⟩
    · trivial

theorem Refines.consumeArr (L : Lawful P pan R) (n : Nat) : Refines pan' R (P.consumeArr n) (D.take n) := by
  intro v vs s h
  simp only [D.take]
  split
  · rename_i hn
    obtain ⟨s', h1, h2⟩ := L.consumeArr_ok n h hn
    exact ⟨s', h1, h2⟩
  · rename_i hn
    simp only [D.short]
    split
    · rename_i hs
      obtain ⟨e, s', h1, h2, _⟩ := L.consumeArr_err n h (Nat.lt_of_not_le hn) hs
      exact .inl ⟨e, s', h1, h2⟩
    · trivial

theorem Refines.consumeByte (L : Lawful P pan R) : Refines pan' R P.consumeByte D.byte := by
  intro v vs s h
  cases v with
  | nil =>
    obtain ⟨e, s', h1, h2, _⟩ := L.consumeByte_err h
    exact .inl ⟨e, s', h1, h2⟩
  | cons b v =>
    obtain ⟨s', h1, h2⟩ := L.consumeByte_ok h
    exact ⟨s', h1, h2⟩

/-- Code that begins by asking for the number of remaining bytes. -/
theorem Refines.remainder (L : Lawful P pan R) {f : Nat → PM σ α} {d : D α}
    (hf : ∀ v vs s, R v vs s → Meets pan' R vs (f v.length s) (d v)) : Refines pan' R (P.remainder >>= f) d := by
  intro v vs s h
  obtain ⟨s', h1, h2⟩ := L.remainder h
  simp only [M.bind_run, h1, Out.bind_ok]
  exact hf v vs s' h2

/-- `p.consume(p.remainder())`. -/
theorem Refines.takeRest (L : Lawful P pan R) :
    Refines pan' R (P.remainder >>= fun n => P.takeDynamic n) D.rest := by
  refine Refines.remainder L fun v vs s h => ?_
  have := Refines.consume (pan' := pan') L v.length v vs s h
  simpa [D.take, D.rest, ParserOps.takeDynamic] using this

theorem Refines.ifEmpty (L : Lawful P pan R) {f g : PM σ α} {d e : D α} (hf : Refines pan' R f d)
    (hg : Refines pan' R g e) :
    Refines pan' R (P.remainder >>= fun n => if n ≠ 0 then f else g) (D.ifEmpty e d) := by
  refine Refines.remainder L fun v vs s h => ?_
  simp only [D.ifEmpty]
  cases v with
  | nil => simpa using hg _ _ _ h
  | cons b v => simpa using hf _ _ _ h

theorem Meets.window (L : Lawful P pan R) {n : Nat} {f : PM σ α} {d : D α} (hf : Refines pan' R f d) {v : Bytes}
    {s : σ} (h : R v vs s) (hn : n ≤ v.length) :
    Meets pan' R vs ((do P.setFit n; let a ← f; P.enforceTarget; Pure.pure a : PM σ α) s) (D.window n d v) := by
  simp only [D.window, if_pos hn]
  obtain ⟨s1, h1, r1⟩ := L.setFit_ok n h hn
  simp only [M.bind_run, h1, Out.bind_ok]
  have h2 := hf _ _ _ r1
  generalize hd : d (v.take n) = r at h2
  generalize ho : f s1 = o at h2
  cases r with
  | ok a left =>
    obtain ⟨s2, rfl, r2⟩ := h2
    simp only [Out.bind_ok, DecRes.bind_ok]
    by_cases hl : left = []
    · subst hl
      obtain ⟨s3, h3, r3⟩ := L.enforce_ok r2
      simp only [h3, Out.bind_ok, M.pure_run, if_pos]
      exact ⟨s3, rfl, r3⟩
    · obtain ⟨s3, h3⟩ := L.enforce_err r2 hl
      simp only [h3, Out.bind_err, if_neg hl]
      exact .inl ⟨_, s3, rfl, rfl⟩
  | err e =>
    rcases h2 with ⟨e', s', rfl, hk⟩ | ⟨hp, rfl⟩
    · exact .inl ⟨e', s', rfl, hk⟩
    · exact .inr ⟨hp, rfl⟩
  | panic => cases (show o = _ from h2); rfl
  | diverge => cases (show o = _ from h2); rfl
  | wild => trivial

theorem Refines.window (L : Lawful P pan R) (hp : pan → pan') (n : Nat) {f : PM σ α} {d : D α}
    (hf : Refines pan' R f d) :
    Refines pan' R (do P.setFit n; let a ← f; P.enforceTarget; Pure.pure a) (D.window n d) := by
  intro v vs s h
  by_cases hn : n ≤ v.length
  · exact Meets.window L hf h hn
  · simp only [D.window, if_neg hn, D.short]
    split
    · rename_i hs
      rcases L.setFit_err n h (Nat.lt_of_not_le hn) hs with ⟨e, s', h1, h2, _⟩ | ⟨h0, h1⟩
      · exact .inl ⟨e, s', by simp [M.bind_run, h1], h2⟩
      · exact .inr ⟨hp h0, by simp [M.bind_run, h1]⟩
    · trivial

/-! ### the shortest terminated prefix -/

theorem D.until'_none {f : Byte → Bool} : ∀ {v : Bytes} (acc : Bytes), (∀ b ∈ v, f b = false) →
    D.until' f acc v = .err (.token (.nonTerminating (acc ++ v)))
  | [], acc, _ => by simp [D.until']
  | b :: v, acc, h => by
    have hb := h b List.mem_cons_self
    simp only [D.until', hb, Bool.false_eq_true, if_false]
    rw [D.until'_none _ fun x hx => h x (List.mem_cons_of_mem _ hx)]
    simp

theorem D.until'_some {f : Byte → Bool} {last : Byte} {rest : Bytes} : ∀ {init : Bytes} (acc : Bytes),
    (∀ b ∈ init, f b = false) → f last = true →
    D.until' f acc (init ++ last :: rest) = .ok (acc ++ init ++ [last]) rest
  | [], acc, _, hl => by simp [D.until', hl]
  | b :: v, acc, h, hl => by
    have hb := h b List.mem_cons_self
    simp only [List.cons_append, D.until', hb, Bool.false_eq_true, if_false]
    rw [D.until'_some _ (fun x hx => h x (List.mem_cons_of_mem _ hx)) hl]
    simp

theorem split_first (f : Byte → Bool) : ∀ v : Bytes, (∀ b ∈ v, f b = false) ∨
    ∃ init last rest, v = init ++ last :: rest ∧ (∀ b ∈ init, f b = false) ∧ f last = true
  | [] => .inl (by simp)
  | b :: v => by
    by_cases hb : f b = true
    · exact .inr ⟨[], b, v, rfl, by simp, hb⟩
    · rcases split_first f v with h | ⟨init, last, rest, rfl, h1, h2⟩
      · exact .inl (by simpa [hb] using h)
      · exact .inr ⟨b :: init, last, rest, rfl, by simpa [hb] using h1, h2⟩

theorem Refines.selfTerm (L : Lawful P pan R) (f : Byte → Bool) :
    Refines pan' R (P.takeSelfTerminating f) (D.until_ f) := by
  intro v vs s h
  rcases split_first f v with hn | ⟨init, last, rest, rfl, h1, h2⟩
  · obtain ⟨s', he, _⟩ := selfTerm_none L f h hn
    rw [D.until_, D.until'_none _ hn]
    exact .inl ⟨_, s', he, rfl⟩
  · obtain ⟨s', he, hr⟩ := selfTerm_some L f h h1 h2
    rw [D.until_, D.until'_some _ h1 h2]
    exact ⟨s', he, hr⟩

/-! ### loops -/

theorem Meets.mapCons {o : Out σ ParseError (List α)} {r : DecRes (List α)} {acc : List α} {a : α}
    (h : Meets pan' R vs o (r.map ((acc ++ [a]) ++ ·))) : Meets pan' R vs o ((r.map (a :: ·)).map (acc ++ ·)) := by
  cases r <;> simp_all [DecRes.map, Meets]

theorem Refines.many (L : Lawful P pan R) {f : PM σ α} {d : D α} (hf : Refines pan' R f d) (acc : List α) :
    Refines pan' R (iterM (Codec.seqBody P f) acc) (fun v => (D.many d v).map (acc ++ ·)) := by
  intro v
  induction hl : v.length using Nat.strongRecOn generalizing v acc with
  | _ n ih =>
    intro vs s h
    obtain ⟨s1, h1, r1⟩ := L.remainder h
    rw [iterM_unfold]
    unfold D.many
    by_cases hv : v = []
    · subst hv
      simp only [Codec.seqBody, M.bind_run, h1, Out.bind_ok, if_pos]
      simp only [List.length_nil, ne_eq, not_true_eq_false, if_false, M.pure_run, Out.bind_ok, DecRes.map,
        DecRes.bind_ok, List.append_nil]
      exact ⟨s1, rfl, r1⟩
    · have hv' : v.length ≠ 0 := fun h0 => hv (List.eq_nil_of_length_eq_zero h0)
      have h2 := hf _ _ _ r1
      simp only [Codec.seqBody, M.bind_run, h1, Out.bind_ok, if_neg hv, ne_eq, hv', not_false_eq_true, if_true]
      generalize hd : d v = r at h2
      generalize ho : f s1 = o at h2
      cases r with
      | ok a rest =>
        obtain ⟨s2, rfl, r2⟩ := h2
        simp only [Out.bind_ok, M.pure_run]
        split
        · rename_i hlt
          exact Meets.mapCons (ih _ (hl ▸ hlt) (acc ++ [a]) rest rfl vs s2 r2)
        · split
          · rename_i hlt heq
            subst heq
            show _ = _
            refine iterM_diverge_of_inv (fun _ s => R rest vs s) (fun b s hs => ?_) r2
            obtain ⟨t1, g1, q1⟩ := L.remainder hs
            have g2 := hf _ _ _ q1
            rw [hd] at g2
            obtain ⟨t2, g2, q2⟩ := g2
            exact ⟨b ++ [a], t2, by simp [Codec.seqBody, M.bind_run, g1, hv', g2], q2⟩
          · trivial
      | err e =>
        rcases h2 with ⟨e', s', rfl, hk⟩ | ⟨hp, rfl⟩
        · exact .inl ⟨e', s', rfl, hk⟩
        · exact .inr ⟨hp, rfl⟩
      | panic => cases (show o = _ from h2); rfl
      | diverge => cases (show o = _ from h2); rfl
      | wild => trivial

end

end Verif
