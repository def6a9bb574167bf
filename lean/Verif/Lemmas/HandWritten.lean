import Verif.HandWritten
import Verif.Refine.Backend
import Verif.Lemmas.Tame
/-
Hand-written decoders mean the same with every parser; and those of the library's types could have been written by hand.
-/
namespace Verif

variable {α β : Type}

/-! ### loops of decoders -/

/-- A loop, for `n` rounds at most. -/
def D.iterN (body : β → D (β ⊕ α)) : Nat → β → Bytes → Option (DecRes α)
  | 0, _, _ => none
  | n + 1, b, v => match body b v with
    | .ok (.inl b') rest => D.iterN body n b' rest
    | .ok (.inr a) rest => some (.ok a rest)
    | .err e => some (.err e)
    | .panic => some .panic
    | .diverge => some .diverge
    | .wild => some .wild

open Classical in
noncomputable def D.iter (body : β → D (β ⊕ α)) (b : β) : D α := fun v =>
  if h : ∃ n r, D.iterN body n b v = some r then h.choose_spec.choose else .diverge

theorem D.iter_cases (body : β → D (β ⊕ α)) (b : β) (v : Bytes) :
    (∃ n, D.iterN body n b v = some (D.iter body b v)) ∨ ((∀ n, D.iterN body n b v = none) ∧ D.iter body b v = .diverge) := by
  unfold D.iter
  split
  · rename_i h
    exact .inl ⟨_, h.choose_spec.choose_spec⟩
  · rename_i h
    refine .inr ⟨fun n => ?_, rfl⟩
    cases hn : D.iterN body n b v with
    | none => rfl
    | some r => exact absurd ⟨n, r, hn⟩ h

theorem Meets.iterN {σ : Type} {pan : Prop} {R : Bytes → List Bytes → σ → Prop} {f : β → PM σ (β ⊕ α)} {body : β → D (β ⊕ α)}
    (hf : ∀ b, Refines pan R (f b) (body b)) {vs : List Bytes} : ∀ (n : Nat) {b : β} {v : Bytes} {s : σ} {r : DecRes α},
    R v vs s → D.iterN body n b v = some r → Meets pan R vs (iterM f b s) r
  | 0, _, _, _, _, _, h => by cases h
  | n + 1, b, v, s, r, hr, h => by
    have hm := hf b v vs s hr
    rw [iterM_unfold]
    simp only [D.iterN] at h
    cases hb : body b v with
    | ok x rest =>
      rw [hb] at hm h
      obtain ⟨s', e, hr'⟩ := hm
      rw [e]
      cases x with
      | inl b' => exact Meets.iterN hf n hr' h
      | inr a => cases h; exact ⟨s', rfl, hr'⟩
    | err e =>
      rw [hb] at hm h
      cases h
      rcases hm with ⟨e', s', h1, h2⟩ | ⟨h1, h2⟩
      · exact .inl ⟨e', s', by rw [h1]; rfl, h2⟩
      · exact .inr ⟨h1, by rw [h2]; rfl⟩
    | panic =>
      rw [hb] at hm h
      cases h
      have hm : f b s = _ := hm
      rw [hm]
      rfl
    | diverge =>
      rw [hb] at hm h
      cases h
      have hm : f b s = _ := hm
      rw [hm]
      rfl
    | wild =>
      rw [hb] at h
      cases h
      trivial

theorem Refines.iter {σ : Type} {pan : Prop} {R : Bytes → List Bytes → σ → Prop} {f : β → PM σ (β ⊕ α)} {body : β → D (β ⊕ α)}
    (hf : ∀ b, Refines pan R (f b) (body b)) (b : β) : Refines pan R (iterM f b) (D.iter body b) := by
  intro v vs s hr
  rcases D.iter_cases body b v with ⟨n, hn⟩ | ⟨hn, hd⟩
  · exact Meets.iterN hf n hr hn
  · rw [hd]
    refine iterM_diverge_of_inv (fun b s => ∃ v, R v vs s ∧ ∀ n, D.iterN body n b v = none) ?_ ⟨v, hr, hn⟩
    rintro b s ⟨v, hr, hn⟩
    have hm := hf b v vs s hr
    have h1 := hn 1
    simp only [D.iterN] at h1
    cases hb : body b v with
    | ok x rest =>
      rw [hb] at hm h1
      obtain ⟨s', e, hr'⟩ := hm
      cases x with
      | inl b' =>
        refine ⟨b', s', e, rest, hr', fun n => ?_⟩
        have := hn (n + 1)
        simp only [D.iterN, hb] at this
        exact this
      | inr a => cases h1
    | _ => rw [hb] at h1; cases h1

/-! ### recursion -/

theorem recM_deeper {σ : Type} {f : Nat → PM σ α} (hs : ∀ n s, f n s = .diverge ∨ f (n + 1) s = f n s) {n : Nat} {s : σ}
    (h : f n s ≠ .diverge) : ∀ k, f (n + k) s = f n s
  | 0 => rfl
  | k + 1 => by
    have ih := recM_deeper hs h k
    rcases hs (n + k) s with h' | h'
    · rw [ih] at h'; exact absurd h' h
    · exact h'.trans ih

theorem recM_eq {σ : Type} {f : Nat → PM σ α} (hs : ∀ n s, f n s = .diverge ∨ f (n + 1) s = f n s) {n : Nat} {s : σ}
    (h : f n s ≠ .diverge) : recM f s = f n s := by
  have hex : ∃ n, f n s ≠ .diverge := ⟨n, h⟩
  have e : recM f s = f hex.choose s := dif_pos hex
  rw [e]
  rcases Nat.le_total hex.choose n with hl | hl
  · have := recM_deeper hs hex.choose_spec (n - hex.choose)
    rw [Nat.add_sub_cancel' hl] at this
    exact this.symm
  · have := recM_deeper hs h (hex.choose - n)
    rw [Nat.add_sub_cancel' hl] at this
    exact this

theorem recM_cases {σ : Type} {f : Nat → PM σ α} (hs : ∀ n s, f n s = .diverge ∨ f (n + 1) s = f n s) (s : σ) :
    (∃ n, f n s ≠ .diverge ∧ recM f s = f n s) ∨ ((∀ n, f n s = .diverge) ∧ recM f s = .diverge) := by
  by_cases h : ∃ n, f n s ≠ .diverge
  · obtain ⟨n, h⟩ := h
    exact .inl ⟨n, h, recM_eq hs h⟩
  · exact .inr ⟨fun n => Classical.byContradiction fun h' => h ⟨n, h'⟩, dif_neg h⟩

/-- A chain: more depth changes nothing where there was enough. -/
def Deeper {σ : Type} (f : Nat → PM σ α) : Prop := ∀ n s, f n s = .diverge ∨ f (n + 1) s = f n s

theorem Deeper.le {σ : Type} {f : Nat → PM σ α} (hs : Deeper f) {n m : Nat} {s : σ} (h : f n s ≠ .diverge) (hl : n ≤ m) :
    f m s = f n s := by
  have := recM_deeper hs h (m - n)
  rwa [Nat.add_sub_cancel' hl] at this

theorem Deeper.bind {σ : Type} {m : Nat → PM σ α} {f : Nat → α → PM σ β} (hm : Deeper m) (hf : ∀ a, Deeper fun n => f n a) :
    Deeper fun n => m n >>= f n := by
  intro n s
  show (m n s).bind _ = _ ∨ (m (n + 1) s).bind _ = (m n s).bind _
  rcases hm n s with h | h
  · rw [h]; exact .inl rfl
  · rw [h]
    cases m n s with
    | ok a s' => exact hf a n s'
    | _ => exact .inr rfl

/-- Recursive calls in sequence. -/
theorem recM_bind {σ : Type} {m : Nat → PM σ α} {f : Nat → α → PM σ β} (hm : Deeper m) (hf : ∀ a, Deeper fun n => f n a) :
    recM (fun n => m n >>= f n) = recM m >>= fun a => recM fun n => f n a := by
  funext s
  show _ = (recM m s).bind fun a s => recM (fun n => f n a) s
  rcases recM_cases hm s with ⟨n, h1, h2⟩ | ⟨h1, h2⟩
  · rw [h2]
    cases ho : m n s with
    | ok a s' =>
      show _ = recM (fun n => f n a) s'
      have run : ∀ j, n ≤ j → (m j >>= f j) s = f j a s' := by
        intro j hj
        show (m j s).bind _ = _
        rw [hm.le h1 hj, ho]
        rfl
      rcases recM_cases (hf a) s' with ⟨k, h3, h4⟩ | ⟨h3, h4⟩
      · rw [h4, recM_eq (hm.bind hf) (n := max n k)]
        · rw [run _ (Nat.le_max_left ..)]
          exact (hf a).le h3 (Nat.le_max_right ..)
        · rw [run _ (Nat.le_max_left ..), show f (max n k) a s' = f k a s' from (hf a).le h3 (Nat.le_max_right ..)]
          exact h3
      · rw [h4]
        rcases recM_cases (hm.bind hf) s with ⟨j, h5, _⟩ | ⟨_, h5⟩
        · refine absurd ?_ h5
          by_cases hj : n ≤ j
          · rw [run j hj]; exact h3 j
          · rcases (hm.bind hf) j s with h | _
            · exact h
            · have := (hm.bind hf).le h5 (m := n) (by omega)
              rw [run n (Nat.le_refl _), h3 n] at this
              exact this.symm
        · exact h5
    | diverge => exact absurd ho h1
    | _ =>
      rw [recM_eq (hm.bind hf) (n := n) (by show (m n s).bind _ ≠ _; rw [ho]; nofun)]
      show (m n s).bind _ = _
      rw [ho]
      rfl
  · rw [h2]
    rcases recM_cases (hm.bind hf) s with ⟨n, h3, _⟩ | ⟨_, h3⟩
    · refine absurd ?_ h3
      show (m n s).bind _ = _
      rw [h1 n]
      rfl
    · exact h3

theorem recM_const {σ : Type} (m : PM σ α) : recM (fun _ => m) = m := by
  funext s
  rcases recM_cases (f := fun _ => m) (fun _ _ => .inr rfl) s with ⟨_, _, h⟩ | ⟨h1, h⟩
  · exact h
  · rw [h, h1 0]

theorem recM_succ {σ : Type} {f : Nat → PM σ α} (hf : Deeper f) : recM (fun n => f (n + 1)) = recM f := by
  funext s
  have hg : Deeper fun n => f (n + 1) := fun n => hf (n + 1)
  rcases recM_cases hf s with ⟨n, h1, h2⟩ | ⟨h1, h2⟩
  · have e : f (n + 1) s = f n s := hf.le h1 (Nat.le_succ n)
    rw [h2, recM_eq hg (n := n) (by rw [e]; exact h1), e]
  · rw [h2]
    rcases recM_cases hg s with ⟨n, h3, _⟩ | ⟨_, h3⟩
    · exact absurd (h1 (n + 1)) h3
    · exact h3

open Classical in
/-- The same for what the code does to the bytes. -/
noncomputable def D.recur (d : Nat → D α) : D α := fun v =>
  if h : ∃ n, d n v ≠ .diverge then d h.choose v else .diverge

/-! ### meanings -/

/-- `d` is what `f` does, with every parser that keeps to the cursor laws. -/
structure Means (f : ParseFn α) (Q : α → Prop) (d : D α) : Prop where
  refines : ∀ {σ : Type} {P : ParserOps σ} {pan : Prop} {R : Bytes → List Bytes → σ → Prop}, Lawful P pan R →
    Refines pan R (f σ P) d
  tame : ∀ v, v.length ≤ isizeMax → d v ≠ .wild
  back : ∀ v a rest, v.length ≤ isizeMax → d v = .ok a rest → Q a ∧ ∃ p, v = p ++ rest

theorem Means.small {f : ParseFn α} {Q : α → Prop} {d : D α} (h : Means f Q d) {v rest : Bytes} {a : α}
    (hv : v.length ≤ isizeMax) (e : d v = .ok a rest) : Q a ∧ rest.length ≤ isizeMax ∧ ∃ p, v = p ++ rest := by
  obtain ⟨h1, p, rfl⟩ := h.back v a rest hv e
  rw [List.length_append] at hv
  exact ⟨h1, by omega, p, rfl⟩

theorem Means.bind {f : ParseFn α} {Q : α → Prop} {d : D α} {g : α → ParseFn β} {Q' : β → Prop} {e : α → D β}
    (hf : Means f Q d) (hg : ∀ a, Q a → Means (g a) Q' (e a)) (hw : ∀ a, ¬ Q a → e a = fun _ => .wild) :
    Means (fun σ P => f σ P >>= fun a => g a σ P) Q' (d >>= e) where
  refines L := Refines.bind (hf.refines L) fun a => by
    by_cases ha : Q a
    · exact (hg a ha).refines L
    · rw [hw a ha]
      exact fun _ _ _ _ => trivial
  tame v hv := by
    show (d v).bind _ ≠ _
    cases hd : d v with
    | ok a rest =>
      obtain ⟨h1, h2, _⟩ := hf.small hv hd
      exact (hg a h1).tame rest h2
    | wild => exact absurd hd (hf.tame v hv)
    | _ => nofun
  back v b rest hv h := by
    rw [D.bind_run] at h
    cases hd : d v with
    | ok a rest' =>
      rw [hd] at h
      obtain ⟨h1, h2, p, hp⟩ := hf.small hv hd
      obtain ⟨h3, q, hq⟩ := (hg a h1).back _ _ _ h2 h
      exact ⟨h3, p ++ q, by rw [hp, hq, List.append_assoc]⟩
    | _ => rw [hd] at h; cases h

theorem D.iterN_keeps {body : β → D (β ⊕ α)} {I : β → Prop} {Q : α → Prop}
    (ht : ∀ b, I b → ∀ v, v.length ≤ isizeMax → body b v ≠ .wild)
    (hb : ∀ b, I b → ∀ v x rest, v.length ≤ isizeMax → body b v = .ok x rest → Sum.elim I Q x ∧ ∃ p, v = p ++ rest) :
    ∀ (n : Nat) {b : β} {v : Bytes} {r : DecRes α}, I b → v.length ≤ isizeMax → D.iterN body n b v = some r →
      r ≠ .wild ∧ ∀ a rest, r = .ok a rest → Q a ∧ ∃ p, v = p ++ rest
  | 0, _, _, _, _, _, h => by cases h
  | n + 1, b, v, r, hi, hv, h => by
    simp only [D.iterN] at h
    cases hx : body b v with
    | ok x rest =>
      rw [hx] at h
      obtain ⟨h1, p, rfl⟩ := hb b hi v x rest hv hx
      cases x with
      | inl b' =>
        rw [List.length_append] at hv
        obtain ⟨h2, h3⟩ := D.iterN_keeps ht hb n h1 (show rest.length ≤ isizeMax by omega) h
        refine ⟨h2, fun a r e => ?_⟩
        obtain ⟨h4, q, rfl⟩ := h3 a r e
        exact ⟨h4, p ++ q, by simp⟩
      | inr a =>
        cases h
        refine ⟨nofun, fun a r e => ?_⟩
        cases e
        exact ⟨h1, p, rfl⟩
    | wild => exact absurd hx (ht b hi v hv)
    | _ => rw [hx] at h; cases h; exact ⟨nofun, nofun⟩

theorem Means.iter {I : β → Prop} {Q : α → Prop} {body : β → ParseFn (β ⊕ α)} {d : β → D (β ⊕ α)} {b : β} (hb : I b)
    (h : ∀ b, I b → Means (body b) (Sum.elim I Q) (d b)) (hw : ∀ b, ¬ I b → d b = fun _ => .wild) :
    Means (fun σ P => iterM (fun b => body b σ P) b) Q (D.iter d b) where
  refines L := Refines.iter (fun b => by
    by_cases hi : I b
    · exact (h b hi).refines L
    · rw [hw b hi]
      exact fun _ _ _ _ => trivial) b
  tame v hv := by
    rcases D.iter_cases d b v with ⟨n, hn⟩ | ⟨_, hn⟩
    · exact (D.iterN_keeps (fun b hi => (h b hi).tame) (fun b hi => (h b hi).back) n hb hv hn).1
    · rw [hn]; nofun
  back v a rest hv e := by
    rcases D.iter_cases d b v with ⟨n, hn⟩ | ⟨_, hn⟩
    · exact (D.iterN_keeps (fun b hi => (h b hi).tame) (fun b hi => (h b hi).back) n hb hv hn).2 a rest e
    · rw [hn] at e; cases e

theorem Means.recur {Q : α → Prop} {f : Nat → ParseFn α} {d : Nat → D α} (h : ∀ n, Means (f n) Q (d n))
    (hs : ∀ n σ P s, f n σ P s = .diverge ∨ f (n + 1) σ P s = f n σ P s) :
    Means (fun σ P => recM fun n => f n σ P) Q (D.recur d) where
  refines {σ P pan R} L v vs s hr := by
    unfold D.recur
    split
    · rename_i hex
      have hm := (h hex.choose).refines L v vs s hr
      have hn := hex.choose_spec
      have ht := (h hex.choose).tame v (L.small hr)
      have hne : f hex.choose σ P s ≠ .diverge := by
        intro e
        rw [e] at hm
        revert hm hn ht
        generalize d hex.choose v = r
        intro hm hn ht
        cases r with
        | ok a rest => obtain ⟨_, e, _⟩ := hm; cases e
        | err e => rcases hm with ⟨_, _, e, _⟩ | ⟨_, e⟩ <;> cases e
        | panic => cases hm
        | diverge => exact hn rfl
        | wild => exact ht rfl
      rw [recM_eq (f := fun n => f n σ P) (fun n s => hs n σ P s) hne]
      exact hm
    · rename_i hex
      rcases recM_cases (f := fun n => f n σ P) (fun n s => hs n σ P s) s with ⟨n, hn, _⟩ | ⟨_, e⟩
      · refine absurd ?_ hn
        have hm := (h n).refines L v vs s hr
        rw [show d n v = .diverge from Classical.byContradiction fun h' => hex ⟨n, h'⟩] at hm
        exact hm
      · exact e
  tame v hv := by
    unfold D.recur
    split
    · exact (h _).tame v hv
    · nofun
  back v a rest hv e := by
    unfold D.recur at e
    split at e
    · exact (h _).back v a rest hv e
    · cases e

/-- What `remainder()` answers. -/
def D.count : D Nat := fun v => .ok v.length v
/-- What `next()` answers. -/
def D.next : D (Option Byte) := fun v => match v with
  | [] => .ok none []
  | b :: rest => .ok (some b) rest
/-- What `consume(n).ok()` answers. -/
def D.takeCaught (n : Nat) : D (Option Bytes) := fun v =>
  if n ≤ v.length then .ok (some (v.take n)) (v.drop n) else .ok none v
def D.skip (n : Nat) : D Nat := fun v => .ok (min v.length n) (v.drop n)
def D.skipExactly (n : Nat) : D Unit := fun v =>
  if n ≤ v.length then .ok () (v.drop n) else D.short (D.shortErr n v.length) n

/-- What `skip_exactly(n).ok()` answers. -/
def D.skipCaught (n : Nat) : D (Option Unit) := fun v =>
  if n ≤ v.length then .ok (some ()) (v.drop n) else .ok none v

/-- Whatever is written by hand has a meaning. -/
theorem Composed.means {E : ParseError → Prop} {f : ParseFn α} {Q : α → Prop} (h : Composed E f Q) : ∃ d, Means f Q d := by
  classical
  induction h with
  | pure a h => exact ⟨Pure.pure a, fun _ => Refines.pure a, fun _ _ => nofun, fun v a rest _ e => by cases e; exact ⟨h, [], rfl⟩⟩
  | @bind α β Q Q' f g hf hg ihf ihg =>
    obtain ⟨d, hd⟩ := ihf
    refine ⟨d >>= fun a => if ha : Q a then (ihg a ha).choose else fun _ => .wild, Means.bind hd (fun a ha => ?_) fun a ha => dif_neg ha⟩
    have := (ihg a ha).choose_spec
    exact (congrArg (Means (g a) Q') (dif_pos ha)).mpr this
  | weaken h _ ih =>
    obtain ⟨d, hd⟩ := ih
    exact ⟨d, hd.refines, hd.tame, fun v a rest hv e => ⟨h a (hd.back v a rest hv e).1, (hd.back v a rest hv e).2⟩⟩
  | throw e _ =>
    exact ⟨D.throw e.kind, fun _ _ _ s _ => .inl ⟨e, s, rfl, rfl⟩, fun _ _ => nofun, fun v a rest _ e => by cases e⟩
  | panic => exact ⟨D.panic, fun _ => Refines.panic, fun _ _ => nofun, fun v a rest _ e => by cases e⟩
  | @loop α β I Q body b hb hbody ih =>
    refine ⟨D.iter (fun b => if hi : I b then (ih b hi).choose else fun _ => .wild) b, Means.iter hb (fun b hi => ?_) fun b hi => dif_neg hi⟩
    have := (ih b hi).choose_spec
    exact (congrArg (Means (body b) (Sum.elim I Q)) (dif_pos hi)).mpr this
  | recur _ hs ih => exact ⟨_, Means.recur (fun n => (ih n).choose_spec) hs⟩
  | remainder =>
    exact ⟨D.count, fun L v vs s hr => L.remainder hr, fun _ _ => nofun,
      fun v a rest hv e => by cases e; exact ⟨hv, [], rfl⟩⟩
  | consumeByte =>
    refine ⟨D.byte, fun L => Refines.consumeByte L, fun v _ => Tame.byte v, fun v a rest _ e => ⟨trivial, ?_⟩⟩
    exact ReadsPrefix.byte v a rest e
  | next =>
    refine ⟨D.next, fun L v vs s hr => ?_, fun v _ => by cases v <;> nofun, fun v a rest _ e => ⟨trivial, ?_⟩⟩
    · cases v with
      | nil =>
        obtain ⟨e, s', h1, _, h2⟩ := L.consumeByte_err hr
        exact ⟨s', by simp [ParserOps.iterNext, h1], h2⟩
      | cons b v =>
        obtain ⟨s', h1, h2⟩ := L.consumeByte_ok hr
        exact ⟨s', by simp [ParserOps.iterNext, h1], h2⟩
    · cases v with
      | nil => cases e; exact ⟨[], rfl⟩
      | cons b v => cases e; exact ⟨[b], rfl⟩
  | consume n h =>
    refine ⟨D.take n, fun L => Refines.consume L n, fun v _ => Tame.take h v, fun v a rest _ e => ⟨?_, ReadsPrefix.take n v a rest e⟩⟩
    simp only [D.take, D.short] at e
    split at e
    · cases e; rw [List.length_take]; omega
    · cases e
  | caught h =>
    cases h with
    | remainder =>
      refine ⟨fun v => .ok (some v.length) v, fun L v vs s hr => ?_, fun _ _ => nofun, fun v a rest hv e => ?_⟩
      · obtain ⟨s', h1, h2⟩ := L.remainder hr
        exact ⟨s', by simp [M.caught, h1], h2⟩
      · cases e
        exact ⟨fun a h => by cases h; exact hv, [], rfl⟩
    | consumeByte =>
      refine ⟨D.next, fun L v vs s hr => ?_, fun v _ => by cases v <;> nofun, fun v a rest _ e => ⟨fun _ _ => trivial, ?_⟩⟩
      · cases v with
        | nil =>
          obtain ⟨e, s', h1, _, h2⟩ := L.consumeByte_err hr
          exact ⟨s', by simp [M.caught, h1], h2⟩
        | cons b v =>
          obtain ⟨s', h1, h2⟩ := L.consumeByte_ok hr
          exact ⟨s', by simp [M.caught, h1], h2⟩
      · cases v with
        | nil => cases e; exact ⟨[], rfl⟩
        | cons b v => cases e; exact ⟨[b], rfl⟩
    | skip n =>
      refine ⟨fun v => .ok (some (min v.length n)) (v.drop n), fun L v vs s hr => ?_, fun _ _ => nofun, fun v a rest hv e => ?_⟩
      · obtain ⟨s', h1, h2⟩ := L.skip n hr
        exact ⟨s', by simp [M.caught, h1], h2⟩
      · cases e
        exact ⟨fun a h => by cases h; exact ⟨by omega, by omega⟩, v.take n, (List.take_append_drop n v).symm⟩
    | consume n h =>
      refine ⟨D.takeCaught n, fun L v vs s hr => ?_, fun v _ => ?_, fun v a rest hv e => ?_⟩
      · simp only [D.takeCaught]
        split
        · obtain ⟨s', h1, h2⟩ := L.consume_ok n hr ‹_›
          exact ⟨s', by simp [M.caught, h1], h2⟩
        · obtain ⟨e, s', h1, _, h2⟩ := L.consume_err n hr (by omega) h
          exact ⟨s', by simp [M.caught, h1], h2⟩
      · simp only [D.takeCaught]
        split <;> nofun
      · simp only [D.takeCaught] at e
        split at e
        · cases e
          refine ⟨fun bs hb => ?_, v.take n, (List.take_append_drop n v).symm⟩
          cases hb
          rw [List.length_take]; omega
        · cases e; exact ⟨nofun, [], rfl⟩
    | skipExactly n h =>
      refine ⟨D.skipCaught n, fun L v vs s hr => ?_, fun v _ => ?_, fun v a rest hv e => ?_⟩
      · simp only [D.skipCaught]
        split
        · obtain ⟨s', h1, h2⟩ := L.skipExactly_ok n hr ‹_›
          exact ⟨s', by simp [M.caught, h1], h2⟩
        · obtain ⟨e, s', h1, _, h2⟩ := L.skipExactly_err n hr (by omega) h
          exact ⟨s', by simp [M.caught, h1], h2⟩
      · simp only [D.skipCaught]
        split <;> nofun
      · simp only [D.skipCaught] at e
        split at e
        · cases e; exact ⟨fun _ _ => trivial, v.take n, (List.take_append_drop n v).symm⟩
        · cases e; exact ⟨nofun, [], rfl⟩
  | selfTerminating f =>
    exact ⟨D.until_ f, fun L => Refines.selfTerm L f, fun v _ => Tame.until_ f v, fun v a rest _ e => ⟨trivial, ReadsPrefix.until_ f v a rest e⟩⟩
  | skip n =>
    refine ⟨D.skip n, fun L v vs s hr => L.skip n hr, fun _ _ => nofun, fun v a rest hv e => ?_⟩
    cases e
    exact ⟨⟨by omega, by omega⟩, v.take n, (List.take_append_drop n v).symm⟩
  | skipExactly n h =>
    refine ⟨D.skipExactly n, fun L v vs s hr => ?_, fun v _ => ?_, fun v a rest hv e => ⟨trivial, ?_⟩⟩
    · simp only [D.skipExactly]
      split
      · exact L.skipExactly_ok n hr ‹_›
      · rw [D.short, if_pos h]
        obtain ⟨e, s', h1, h2, _⟩ := L.skipExactly_err n hr (by omega) h
        exact .inl ⟨e, s', h1, h2⟩
    · simp only [D.skipExactly]
      split
      · nofun
      · rw [D.short, if_pos h]; nofun
    · simp only [D.skipExactly] at e
      split at e
      · cases e; exact ⟨v.take n, (List.take_append_drop n v).symm⟩
      · rw [D.short, if_pos h] at e; cases e
  | @window α Q f n h hf ih =>
    obtain ⟨d, hd⟩ := ih
    refine ⟨D.window n d, fun L => Refines.window L id n (hd.refines L), fun v hv => ?_, fun v a rest hv e => ?_⟩
    · simp only [D.window]
      split
      · have := hd.tame (v.take n) (by rw [List.length_take]; omega)
        cases hx : d (v.take n) with
        | ok a left => simp only [DecRes.bind_ok]; split <;> nofun
        | wild => exact absurd hx this
        | _ => nofun
      · rw [D.short, if_pos h]; nofun
    · simp only [D.window] at e
      split at e
      · cases hx : d (v.take n) with
        | ok x left =>
          rw [hx, DecRes.bind_ok] at e
          have := hd.back (v.take n) x left (by rw [List.length_take]; omega) hx
          split at e
          · cases e; exact ⟨this.1, v.take n, (List.take_append_drop n v).symm⟩
          · cases e
        | _ => rw [hx] at e; cases e
      · rw [D.short, if_pos h] at e; cases e

/-! ### the library's own decoders -/

/-- A `parse` that may return anything. -/
abbrev Codec.Composed (E : ParseError → Prop) (c : Codec α) : Prop := Verif.Composed E (fun _ P => c.parse P) fun _ => True
abbrev Codec.Written (c : Codec α) : Prop := c.Composed fun _ => True

/-- The errors the library's types come up with are allowed. -/
class Allows (E : ParseError → Prop) : Prop where
  own : ∀ e : ParseError, e.isWindow = false → E e
instance : Allows fun _ => True := ⟨fun _ _ => trivial⟩
instance : Allows fun e => e.isWindow = false := ⟨fun _ h => h⟩

variable {E : ParseError → Prop} [Allows E]

namespace Composed

theorem fail {Q : α → Prop} (e : ParseError) (h : e.isWindow = false) : Composed E (fun _ _ => M.throw e) Q := throw e (Allows.own e h)

theorem ite {Q : α → Prop} {c : Prop} [Decidable c] {f g : ParseFn α} (hf : c → Composed E f Q) (hg : ¬ c → Composed E g Q) :
    Composed E (fun σ P => if c then f σ P else g σ P) Q := by
  by_cases h : c
  · simp only [if_pos h]
    exact hf h
  · simp only [if_neg h]
    exact hg h

theorem dite {Q : α → Prop} {c : Prop} [Decidable c] {f : c → ParseFn α} {g : ¬ c → ParseFn α} (hf : ∀ h, Composed E (f h) Q)
    (hg : ∀ h, Composed E (g h) Q) : Composed E (fun σ P => if h : c then f h σ P else g h σ P) Q := by
  by_cases h : c
  · simp only [dif_pos h]
    exact hf h
  · simp only [dif_neg h]
    exact hg h

theorem any {f : ParseFn α} {Q : α → Prop} (h : Composed E f Q) : Composed E f fun _ => True := weaken (fun _ _ => trivial) h

theorem map {f : ParseFn α} {Q : α → Prop} {Q' : β → Prop} (g : α → β) (h : Composed E f Q) (hq : ∀ a, Q a → Q' (g a)) :
    Composed E (fun σ P => g <$> f σ P) Q' := bind h fun a ha => pure (g a) (hq a ha)

theorem takeFixed (n : Nat) (h : n ≤ isizeMax + 1) : Composed E (fun _ P => P.takeFixed n) fun bs => bs.length = n :=
  bind (consume n h) fun _ hb => ite (fun _ => pure _ hb) fun _ => fail _ rfl

theorem ofExcept {ε : Type} {Q : α → Prop} (r : Except ε α) (f : ε → ParseError) (hf : ∀ e, (f e).isWindow = false)
    (h : ∀ a, r = .ok a → Q a) :
    Composed E (fun _ _ => M.ofExcept r f) Q := by
  cases r with
  | error e => exact fail _ (hf e)
  | ok a => exact pure a (h a rfl)

theorem ofOption (r : Option α) : Composed E (fun _ _ => M.ofOption r) fun _ => True := by
  cases r with
  | none => exact panic
  | some a => exact pure a trivial

theorem tag (w : TagWidth) (tags : List Nat) :
    Composed E (fun _ P => ParserOps.takeTagword w (w.parse P) tags) fun _ => True :=
  bind (map (Q' := fun _ => True) _ (takeFixed _ w.len_le) fun _ _ => trivial) fun _ _ =>
    ite (fun _ => pure _ trivial) fun _ => ite (fun _ => fail _ rfl) fun _ => fail _ rfl

theorem int (t : IntTy) : (Codec.int t).Composed E := map _ (takeFixed _ t.len_le) fun _ _ => trivial

theorem rangedInt (t : IntTy) (min max : Int) :
    Composed E (fun _ P => (Codec.rangedInt t min max).parse P) fun x => Enc.inRange min max (t.toInt x) :=
  bind (int t) fun x _ => ofExcept _ _ (fun _ => rfl) fun a h => by
    rw [RangedInt.tryFromUnderlying_eq] at h
    cases hr : restrict (t.toInt x) min max with
    | error e => rw [hr] at h; cases h
    | ok u =>
      rw [hr] at h
      cases h
      exact restrict_ok_iff.mp hr

theorem lenPref (S : LenPref) : Composed E (fun _ P => S.parse P) (· ≤ S.maxLen) := by
  cases S with
  | u8 => exact map _ (int .u8) fun a _ => Nat.le_of_lt_succ (BitVec.isLt a)
  | u16 => exact map _ (int .u16) fun a _ => Nat.le_of_lt_succ (BitVec.isLt a)
  | u30 => exact map _ (rangedInt .u32 0 LenPref.u30Max) fun a h => Int.ofNat_le.mp (show Enc.inRange 0 LenPref.u30Max (IntTy.toInt .u32 a) from h).2

theorem takeRest : Composed E (fun _ P => P.remainder >>= fun n => P.takeDynamic n) fun _ => True :=
  bind remainder fun n hn => any (consume n (by omega))

theorem diverge {Q : α → Prop} : Composed E (fun _ _ _ => .diverge) Q := by
  have h : Composed E (fun σ (_ : ParserOps σ) => iterM (fun _ : Unit => (Pure.pure (.inl ()) : PM σ (Unit ⊕ α))) ()) Q :=
    loop (I := fun _ => True) () trivial fun _ _ => pure _ trivial
  have e : (fun σ (_ : ParserOps σ) => iterM (fun _ : Unit => (Pure.pure (.inl ()) : PM σ (Unit ⊕ α))) ()) =
      (fun _ _ _ => .diverge : ParseFn α) := by
    funext σ _ s
    exact iterM_diverge_of_inv (fun _ _ => True) (fun _ s _ => ⟨(), s, rfl, trivial⟩) trivial
  exact e ▸ h

variable {c : Codec α}

theorem option (h : c.Composed E) : (Codec.option c).Composed E :=
  bind (tag _ _) fun _ _ => ite (fun _ => bind h fun _ _ => pure _ trivial) fun _ => ite (fun _ => pure _ trivial) fun _ => panic

theorem nullable (h : c.Composed E) : (Codec.nullable c).Composed E :=
  bind remainder fun _ _ => ite (fun _ => bind h fun _ _ => pure _ trivial) fun _ => pure _ trivial

theorem dynamic (cfg : Cfg) (S : LenPref) (h : c.Composed E) : (Codec.dynamic cfg S c).Composed E :=
  bind (lenPref S) fun n hn => window n (Nat.le_trans hn S.maxLen_le) h

theorem vpadded {cfg : Cfg} (hp : cfg.prof = .debug) (n : Nat) (h : c.Composed E) : (Codec.vpadded cfg n c).Composed E :=
  bind remainder fun r hr => ite (fun _ => panic) fun hc => by
    have hn : n ≤ r := by
      refine Nat.le_of_not_lt fun hl => hc ⟨hp, by omega⟩
    have e : usub cfg.prof r n = some (r - n) := usub_of_le hn
    simp only [e]
    exact window (r - n) (by omega) h

theorem padded (cfg : Cfg) {n : Nat} (hn : n ≤ isizeMax + 1) (h : c.Composed E) : (Codec.padded cfg n c).Composed E :=
  bind h fun _ _ => bind (consume n hn) fun _ _ => ite (fun _ => fail _ rfl) fun _ => pure _ trivial

theorem seq (h : c.Composed E) : (Codec.seq c).Composed E :=
  loop (I := fun _ => True) _ trivial fun _ _ => bind remainder fun _ _ =>
    ite (fun _ => bind h fun _ _ => pure _ trivial) fun _ => pure _ trivial

theorem tryPush (n : Nat) (acc : List α) (x : α) : Composed E (fun _ _ => Codec.tryPush n acc x) fun _ => True :=
  ite (fun _ => pure _ trivial) fun _ => fail _ rfl

theorem fixSeq (n : Nat) (h : c.Composed E) : (Codec.fixSeq n c).Composed E :=
  bind (Q := fun _ => True) (loop (I := fun _ => True) _ trivial fun _ _ => bind remainder fun _ _ =>
    ite (fun _ => bind h fun _ _ => bind (tryPush n _ _) fun _ _ => pure _ trivial) fun _ => pure _ trivial) fun _ _ =>
    ite (fun _ => pure _ trivial) fun _ => fail _ rfl

theorem limSeq (n : Nat) (h : c.Composed E) : (Codec.limSeq n c).Composed E :=
  loop (I := fun _ => True) _ trivial fun _ _ => bind remainder fun _ _ =>
    ite (fun _ => bind h fun _ _ => bind (tryPush n _ _) fun _ _ => pure _ trivial) fun _ => pure _ trivial

theorem autobox (h : c.Composed E) : (Codec.autobox c).Composed E := h

end Composed

/-- The arms of an enum. -/
abbrev VCodec.Composed (E : ParseError → Prop) (v : VCodec β) : Prop := ∀ t, Verif.Composed E (fun _ P => v.parse P t) fun _ => True
abbrev VCodec.Written (v : VCodec β) : Prop := v.Composed fun _ => True
/-- The fields of a record. -/
abbrev FCodec.Composed (E : ParseError → Prop) (f : FCodec β) : Prop := Verif.Composed E (fun _ P => f.parse P) fun _ => True
abbrev FCodec.Written (f : FCodec β) : Prop := f.Composed fun _ => True

namespace Composed

theorem vnil : VCodec.nil.Composed E := fun _ => panic
theorem vcons {c : Codec α} {v : VCodec β} (tag : Nat) (h : c.Composed E) (hv : v.Composed E) : (VCodec.cons tag c v).Composed E := fun t =>
  ite (fun _ => bind h fun _ _ => pure _ trivial) fun _ => bind (hv t) fun _ _ => pure _ trivial
theorem data {v : VCodec β} (w : TagWidth) (hv : v.Composed E) : (Codec.data w v).Composed E := bind (tag w _) fun t _ => hv t
theorem fnil : FCodec.nil.Composed E := pure _ trivial
theorem fcons {c : Codec α} {f : FCodec β} (h : c.Composed E) (hf : f.Composed E) : (FCodec.cons c f).Composed E :=
  bind h fun _ _ => bind hf fun _ _ => pure _ trivial
theorem record {f : FCodec β} (hf : f.Composed E) : (Codec.record f).Composed E := hf

end Composed

open Composed in
mutual
/-- The decoders of the library's types. -/
theorem Schema.composed (cfg : Cfg) : ∀ s : Schema, s.tame cfg.prof = true → (s.codec cfg).Composed E
  | .unit, _ => pure _ trivial
  | .bool, _ => bind consumeByte fun _ _ => ite (fun _ => pure _ trivial) fun _ => ite (fun _ => pure _ trivial) fun _ => fail _ rfl
  | .int t, _ => int t
  | .f64, _ => map _ (takeFixed 8 (IntTy.len_le .u64)) fun _ _ => trivial
  | .rangedInt t min max, _ => any (rangedInt t min max)
  | .rangedFloat _ _, _ => bind (map (Q' := fun _ => True) _ (takeFixed 8 (IntTy.len_le .u64)) fun _ _ => trivial) fun _ _ =>
      ofExcept _ _ (fun _ => rfl) fun _ _ => trivial
  | .zarithN, _ => bind (selfTerminating _) fun _ _ => ofOption _
  | .zarithZ, _ => bind (selfTerminating _) fun _ _ => ofOption _
  | .bytes, _ => takeRest
  | .vecU8, _ => takeRest
  | .string, _ => bind remainder fun n hn => bind (consume n (by omega)) fun _ _ => pure _ trivial
  | .fixedBytes n, h => bind (takeFixed n (of_decide_eq_true h)) fun _ _ => dite (fun _ => pure _ trivial) fun _ => panic
  | .fixedString n, h => bind (takeFixed n (of_decide_eq_true h)) fun _ _ => dite (fun _ => pure _ trivial) fun _ => panic
  | .option s, h => option (s.composed cfg h)
  | .nullable s, h => nullable (s.composed cfg h)
  | .dynamic S s, h => dynamic cfg S (s.composed cfg h)
  | .vpadded n s, h => by
    simp only [Schema.tame, Bool.and_eq_true, decide_eq_true_eq] at h
    exact vpadded h.1 n (s.composed cfg h.2)
  | .padded n s, h => by
    simp only [Schema.tame, Bool.and_eq_true, decide_eq_true_eq] at h
    exact padded cfg h.1 (s.composed cfg h.2)
  | .seq s, h => seq (s.composed cfg h)
  | .fixSeq n s, h => fixSeq n (s.composed cfg h)
  | .limSeq n s, h => limSeq n (s.composed cfg h)
  | .autobox s, h => autobox (s.composed cfg h)
  | .hole _, _ => diverge
  | .cstyle w tags, _ => bind (tag w tags) fun _ _ => dite (fun _ => pure _ trivial) fun _ => panic
  | .data w vs, h => data w (vs.composed cfg h)
  | .record fs, h => record (fs.composed cfg h)
theorem Variants.composed (cfg : Cfg) : ∀ vs : Variants, vs.tame cfg.prof = true → (vs.codec cfg).Composed E
  | .nil, _ => vnil
  | .cons tag s vs, h => by
    simp only [Variants.tame, Bool.and_eq_true] at h
    exact vcons tag (s.composed cfg h.1) (vs.composed cfg h.2)
theorem Fields.composed (cfg : Cfg) : ∀ fs : Fields, fs.tame cfg.prof = true → (fs.codec cfg).Composed E
  | .nil, _ => fnil
  | .cons s fs, h => by
    simp only [Fields.tame, Bool.and_eq_true] at h
    exact fcons (s.composed cfg h.1) (fs.composed cfg h.2)
end

theorem Schema.written (cfg : Cfg) (s : Schema) (h : s.tame cfg.prof = true) : (s.codec cfg).Written := s.composed cfg h

/-! ### writing -/

/-- What is pushed is the same on every target. -/
theorem Pushed.appends {f : WriteFn} (h : Pushed f) : ∃ e, ∀ {τ : Type} {T : TargetOps τ} {R : Bytes → τ → Prop},
    LawfulTarget T R → Appends R (f τ T) e := by
  induction h with
  | zero => exact ⟨_, fun _ => Appends.zero⟩
  | add _ _ ih1 ih2 =>
    obtain ⟨e1, h1⟩ := ih1
    obtain ⟨e2, h2⟩ := ih2
    exact ⟨_, fun L => (h1 L).add (h2 L)⟩
  | pushOne b => exact ⟨_, fun L => Appends.pushOne L b⟩
  | pushMany a => exact ⟨_, fun L => Appends.pushMany L a⟩
  | pushAll a => exact ⟨_, fun L => Appends.pushAll L a⟩
  | resolveZero => exact ⟨_, fun L => Appends.resolveZero L⟩
  | panic => exact ⟨none, fun _ => Appends.panic⟩
  | anticipate n _ ih =>
    obtain ⟨e, h⟩ := ih
    exact ⟨e, fun L w t hr => h L w _ (L.anticipate n hr)⟩

/-- Every value is written with pushes. -/
def Codec.Pushes (c : Codec α) : Prop := ∀ x, Pushed fun _ T => c.write T x
def VCodec.Pushes (v : VCodec β) : Prop := ∀ w x, Pushed fun _ T => v.write w T x
def FCodec.Pushes (f : FCodec β) : Prop := ∀ x, Pushed fun _ T => f.write T x

theorem Codec.Pushes.writes {c : Codec α} (h : c.Pushes) : c.Writes c.toBytes := by
  have : c.Writes fun x => (h x).appends.choose := fun L x => (h x).appends.choose_spec L
  exact fun {_ _ _} L x => Codec.Writes.appending this L x

namespace Pushed

theorem done {f : WriteFn} (h : Pushed f) : Pushed fun τ T => W.add (f τ T) (W.resolveZero T) := add h resolveZero

variable {c : Codec α}

theorem int (t : IntTy) : (Codec.int t).Pushes := fun _ => done (pushAll _)

theorem rangedInt (t : IntTy) (min max : Int) : (Codec.rangedInt t min max).Pushes := fun x => by
  show Pushed fun _ T => (Codec.rangedInt t min max).write T x
  simp only [Codec.rangedInt]
  cases RangedInt.toUnderlying t min max x with
  | none => exact panic
  | some y => exact done (int t y)

theorem tag (w : TagWidth) (t : Nat) : Pushed fun _ T => w.write T t := done (pushAll _)

theorem lenPref (S : LenPref) (l : Nat) : Pushed fun _ T => S.write T l := by
  cases S with
  | u8 =>
    simp only [LenPref.write]
    cases IntTy.tryFrom .u8 l with
    | none => exact panic
    | some x => exact int .u8 x
  | u16 =>
    simp only [LenPref.write]
    cases IntTy.tryFrom .u16 l with
    | none => exact panic
    | some x => exact int .u16 x
  | u30 =>
    simp only [LenPref.write]
    cases restrict l 0 LenPref.u30Max with
    | error _ => exact panic
    | ok _ =>
      cases IntTy.tryFrom .u32 l with
      | none => exact panic
      | some x => exact rangedInt .u32 0 LenPref.u30Max x

theorem option (h : c.Pushes) : (Codec.option c).Pushes
  | none => done (pushOne _)
  | some x => done (add (pushOne _) (h x))

theorem nullable (h : c.Pushes) : (Codec.nullable c).Pushes
  | none => resolveZero
  | some x => done (h x)

theorem dynamic (cfg : Cfg) (S : LenPref) (h : c.Pushes) : (Codec.dynamic cfg S c).Pushes := fun x => by
  simp only [Codec.dynamic]
  cases c.encLen cfg x with
  | none => exact panic
  | some l =>
    by_cases hl : l ≤ S.maxLen
    · simp only [if_pos hl]
      exact anticipate (l + S.len) (add (lenPref S l) (done (h x)))
    · simp only [if_neg hl]
      exact panic

theorem vpadded (cfg : Cfg) (n : Nat) (h : c.Pushes) : (Codec.vpadded cfg n c).Pushes := fun x => h x
theorem padded (cfg : Cfg) (n : Nat) (h : c.Pushes) : (Codec.padded cfg n c).Pushes := fun x => done (add (h x) (pushMany _))

theorem list (h : c.Pushes) : ∀ xs, Pushed fun _ T => c.writeList T xs
  | [] => zero
  | x :: xs => add (h x) (list h xs)

theorem seq (h : c.Pushes) : (Codec.seq c).Pushes := fun xs => done (list h xs)
theorem fixSeq (n : Nat) (h : c.Pushes) : (Codec.fixSeq n c).Pushes := fun xs => done (list h xs)
theorem limSeq (n : Nat) (h : c.Pushes) : (Codec.limSeq n c).Pushes := fun xs => done (list h xs)
theorem autobox (h : c.Pushes) : (Codec.autobox c).Pushes := h

theorem vnil : VCodec.nil.Pushes := fun _ x => nomatch x
theorem vcons {v : VCodec β} (t : Nat) (h : c.Pushes) (hv : v.Pushes) : (VCodec.cons t c v).Pushes
  | w, .inl x => add (tag w t) (done (h x))
  | w, .inr y => hv w y
theorem data {v : VCodec β} (w : TagWidth) (hv : v.Pushes) : (Codec.data w v).Pushes := fun x => hv w x
theorem fnil : FCodec.nil.Pushes := fun _ => zero
theorem fcons {f : FCodec β} (h : c.Pushes) (hf : f.Pushes) : (FCodec.cons c f).Pushes := fun x => add (h x.1) (hf x.2)
theorem record {f : FCodec β} (hf : f.Pushes) : (Codec.record f).Pushes := fun x => done (hf x)

end Pushed

open Pushed in
mutual
/-- The encoders of the library's types. -/
theorem Schema.pushes (cfg : Cfg) : ∀ s : Schema, (s.codec cfg).Pushes
  | .unit => fun _ => zero
  | .bool => fun _ => done (pushOne _)
  | .int t => int t
  | .f64 => int .u64
  | .rangedInt t min max => rangedInt t min max
  | .rangedFloat _ _ => int .u64
  | .zarithN => fun _ => done (pushAll _)
  | .zarithZ => fun _ => done (pushAll _)
  | .bytes => fun _ => done (pushAll _)
  | .vecU8 => fun _ => done (pushAll _)
  | .string => fun _ => done (pushAll _)
  | .fixedBytes _ => fun _ => done (pushMany _)
  | .fixedString _ => fun _ => done (pushAll _)
  | .option s => option (s.pushes cfg)
  | .nullable s => nullable (s.pushes cfg)
  | .dynamic S s => dynamic cfg S (s.pushes cfg)
  | .vpadded n s => vpadded cfg n (s.pushes cfg)
  | .padded n s => padded cfg n (s.pushes cfg)
  | .seq s => seq (s.pushes cfg)
  | .fixSeq n s => fixSeq n (s.pushes cfg)
  | .limSeq n s => limSeq n (s.pushes cfg)
  | .autobox s => autobox (s.pushes cfg)
  | .hole _ => fun x => nomatch x
  | .cstyle w _ => fun x => tag w x.1
  | .data w vs => data w (vs.pushes cfg)
  | .record fs => record (fs.pushes cfg)
theorem Variants.pushes (cfg : Cfg) : ∀ vs : Variants, (vs.codec cfg).Pushes
  | .nil => vnil
  | .cons t s vs => vcons t (s.pushes cfg) (vs.pushes cfg)
theorem Fields.pushes (cfg : Cfg) : ∀ fs : Fields, (fs.codec cfg).Pushes
  | .nil => fnil
  | .cons s fs => fcons (s.pushes cfg) (fs.pushes cfg)
end

end Verif
