import Verif.Refine.Program
import Verif.Refine.Backend
import Verif.Lemmas.Tame
/-
A decoder that returns a value returns the one the wire format gives, also where the refinement to the pure
decoder promises nothing: a window whose size wrapped around ends before the cursor, the cursor never moves
back, so the window can never be closed and the value never be returned.
-/
namespace Verif

/-- A lawful parser on which overlong requests cannot succeed.  `I k s`: one of the `k` innermost windows of `s`
can no longer be closed. -/
structure Sturdy {σ : Type} (P : ParserOps σ) (pan : Prop) (R : Bytes → List Bytes → σ → Prop)
    (I : Nat → σ → Prop) : Prop where
  lawful : Lawful P pan R
  zero : ∀ s, ¬ I 0 s
  openOver : ∀ {v vs s} {n : Nat} {u s'}, R v vs s → v.length < n → n < usizeMod → P.setFit n s = .ok u s' → I 1 s'
  consumeOver : ∀ {v vs s} {n : Nat} {a s'}, R v vs s → v.length < n → n < usizeMod → P.consume n s ≠ .ok a s'
  remainder : Keeps I P.remainder
  consumeByte : Keeps I P.consumeByte
  consume : ∀ n, Keeps I (P.consume n)
  setFit : ∀ n k s a s', I k s → P.setFit n s = .ok a s' → I (k + 1) s'
  enforce : ∀ k s a s', I (k + 1) s → P.enforceTarget s = .ok a s' → I k s'

theorem Sturdy.closed {σ : Type} {P : ParserOps σ} {pan : Prop} {R : Bytes → List Bytes → σ → Prop}
    {I : Nat → σ → Prop} (S : Sturdy P pan R I) : Closed P (fun _ f => Keeps I f) :=
  Keeps.closed S.remainder S.consumeByte S.consume S.setFit S.enforce

/-- What parser code returns the pure decoder returns. -/
def Sound {σ α : Type} (R : Bytes → List Bytes → σ → Prop) (f : PM σ α) (d : D α) : Prop :=
  ∀ v vs s a s', R v vs s → f s = .ok a s' → ∃ rest, d v = .ok a rest ∧ R rest vs s'

section

variable {σ α β : Type} {P : ParserOps σ} {pan pan' : Prop} {R : Bytes → List Bytes → σ → Prop} {I : Nat → σ → Prop}

namespace Sound

theorem of_refines {f : PM σ α} {d : D α} (h : Refines pan' R f d) (ht : Tame d) : Sound R f d := by
  intro v vs s a s' hr ho
  have h1 := h v vs s hr
  rw [ho] at h1
  cases hd : d v with
  | ok b rest =>
    rw [hd] at h1
    obtain ⟨s2, h1, h2⟩ := h1
    cases h1
    exact ⟨rest, rfl, h2⟩
  | err e => rw [hd] at h1; rcases h1 with ⟨_, _, h1, _⟩ | ⟨_, h1⟩ <;> cases h1
  | panic => rw [hd] at h1; cases h1
  | diverge => rw [hd] at h1; cases h1
  | wild => exact (ht v hd).elim

theorem congr {f : PM σ α} {d d' : D α} (h : Sound R f d) (he : ∀ v, d v = d' v) : Sound R f d' :=
  fun v vs s a s' hr ho => he v ▸ h v vs s a s' hr ho

theorem pure (a : α) : Sound R (Pure.pure a : PM σ α) (Pure.pure a) :=
  fun v _ _ _ _ hr ho => by cases ho; exact ⟨v, rfl, hr⟩

theorem throw (e e' : ParseError) : Sound R (M.throw e : PM σ α) (D.throw e') := fun _ _ _ _ _ _ ho => nomatch ho

theorem panic : Sound R (M.panic : PM σ α) D.panic := fun _ _ _ _ _ _ ho => nomatch ho

theorem bind {f : PM σ α} {d : D α} {g : α → PM σ β} {e : α → D β} (hf : Sound R f d)
    (hg : ∀ a, Sound R (g a) (e a)) : Sound R (f >>= g) (d >>= e) := by
  intro v vs s b s' hr ho
  rw [M.bind_run] at ho
  cases h : f s with
  | ok a s1 =>
    rw [h] at ho
    obtain ⟨r1, h1, q1⟩ := hf v vs s a s1 hr h
    rw [D.bind_run, h1]
    exact hg a r1 vs s1 b s' q1 ho
  | _ => rw [h] at ho; cases ho

theorem map (g : α → β) {f : PM σ α} {d : D α} (hf : Sound R f d) : Sound R (g <$> f) (g <$> d) :=
  bind hf fun a => pure (g a)

theorem ite {c : Prop} [Decidable c] {f g : PM σ α} {d e : D α} (hf : Sound R f d) (hg : Sound R g e) :
    Sound R (if c then f else g) (if c then d else e) := by
  split
  · exact hf
  · exact hg

theorem dite {c : Prop} [Decidable c] {f : c → PM σ α} {g : ¬ c → PM σ α} {d : c → D α} {e : ¬ c → D α}
    (hf : ∀ h, Sound R (f h) (d h)) (hg : ∀ h, Sound R (g h) (e h)) :
    Sound R (if h : c then f h else g h) (if h : c then d h else e h) := by
  split
  · exact hf _
  · exact hg _

theorem consume (S : Sturdy P pan R I) {n : Nat} (hn : n < usizeMod) : Sound R (P.consume n) (D.take n) := by
  intro v vs s a s' hr ho
  by_cases h : n ≤ v.length
  · obtain ⟨s1, h1, h2⟩ := S.lawful.consume_ok n hr h
    rw [ho] at h1
    cases h1
    exact ⟨v.drop n, if_pos h, h2⟩
  · exact (S.consumeOver hr (by omega) hn ho).elim

theorem takeFixed (S : Sturdy P pan R I) {n : Nat} (hn : n < usizeMod) : Sound R (P.takeFixed n) (D.take n) := by
  refine congr (d := D.take n >>= fun bs => Pure.pure bs) ?_ fun v => ?_
  · refine bind (consume S hn) fun bs => ?_
    split
    · exact pure _
    · exact fun _ _ _ _ _ _ ho => nomatch ho
  · rw [D.bind_run]
    cases D.take n v <;> rfl

theorem remainder (L : Lawful P pan R) {f : Nat → PM σ α} {d : D α}
    (hf : ∀ v vs s a s', R v vs s → f v.length s = .ok a s' → ∃ rest, d v = .ok a rest ∧ R rest vs s') :
    Sound R (P.remainder >>= f) d := by
  intro v vs s a s' hr ho
  obtain ⟨s1, h1, r1⟩ := L.remainder hr
  rw [M.bind_run, h1, Out.bind_ok] at ho
  exact hf v vs s1 a s' r1 ho

theorem ifEmpty (L : Lawful P pan R) {f g : PM σ α} {d e : D α} (hf : Sound R f d) (hg : Sound R g e) :
    Sound R (P.remainder >>= fun n => if n ≠ 0 then f else g) (D.ifEmpty e d) := by
  refine remainder L fun v vs s a s' hr ho => ?_
  simp only [D.ifEmpty]
  cases v with
  | nil => simpa using hg _ _ _ _ _ hr (by simpa using ho)
  | cons b v => simpa using hf _ _ _ _ _ hr (by simpa using ho)

/-- The only way to return from a window is to have opened one that fits. -/
theorem window (S : Sturdy P pan R I) {n : Nat} (hn : n < usizeMod) {f : PM σ α} {d : D α} (hf : Sound R f d)
    (hk : Keeps I f) : Sound R (do P.setFit n; let a ← f; P.enforceTarget; Pure.pure a) (D.window n d) := by
  intro v vs s a s' hr ho
  simp only [M.bind_run] at ho
  cases hc : P.setFit n s with
  | ok u s1 =>
    rw [hc, Out.bind_ok] at ho
    cases hx : f s1 with
    | ok b s2 =>
      rw [hx, Out.bind_ok] at ho
      cases he : P.enforceTarget s2 with
      | ok u s3 =>
        rw [he, Out.bind_ok] at ho
        cases ho
        by_cases h : n ≤ v.length
        · obtain ⟨t1, h1, r1⟩ := S.lawful.setFit_ok n hr h
          rw [hc] at h1
          cases h1
          obtain ⟨left, h2, r2⟩ := hf _ _ _ _ _ r1 hx
          by_cases hl : left = []
          · subst hl
            obtain ⟨t3, h3, r3⟩ := S.lawful.enforce_ok r2
            rw [he] at h3
            cases h3
            exact ⟨v.drop n, by simp [D.window, if_pos h, h2], r3⟩
          · obtain ⟨t3, h3⟩ := S.lawful.enforce_err r2 hl
            rw [he] at h3
            cases h3
        · exact (S.zero _ (S.enforce _ _ _ _ (hk _ _ _ _ (S.openOver hr (by omega) hn hc) hx) he)).elim
      | _ => rw [he] at ho; cases ho
    | _ => rw [hx] at ho; cases ho
  | _ => rw [hc] at ho; cases ho

theorem vpadded (S : Sturdy P pan R I) (cfg : Cfg) {n : Nat} (hn : n < usizeMod) {c : Codec α} {d : D α}
    (hf : Sound R (c.parse P) d) (hk : Keeps I (c.parse P)) :
    Sound R ((Codec.vpadded cfg n c).parse P) (Dec.vpadded cfg n d) := by
  refine remainder S.lawful fun v vs s a s' hr ho => ?_
  have hm := usizeMod_eq
  have hs : v.length < isizeMax + 1 := by
    have := S.lawful.small hr
    omega
  simp only [Dec.vpadded]
  by_cases h : n ≤ v.length
  · rw [if_neg (by omega), usub_of_le h] at ho
    rw [if_pos h]
    exact window S (by omega) hf hk v vs s a s' hr ho
  · exfalso
    cases hp : cfg.prof with
    | debug => rw [if_pos ⟨hp, by omega⟩] at ho; cases ho
    | release =>
      rw [if_neg (by rw [hp]; simp), hp] at ho
      have hu : usub .release v.length n = some (v.length + usizeMod - n) := by
        simp only [usub]
        rw [if_neg h]
        simp only [Option.some.injEq]
        exact Nat.mod_eq_of_lt (by omega)
      rw [hu] at ho
      obtain ⟨rest, h1, _⟩ := window S (n := v.length + usizeMod - n) (by omega) hf hk v vs s a s' hr ho
      simp only [D.window] at h1
      rw [if_neg (by omega), D.short] at h1
      split at h1 <;> cases h1

theorem many (L : Lawful P pan R) {f : PM σ α} {d : D α} (hf : Sound R f d) (hp : ReadsPrefix d) (acc : List α) :
    Sound R (iterM (Codec.seqBody P f) acc) (fun v => (D.many d v).map (acc ++ ·)) := by
  intro v vs s l s' hr ho
  obtain ⟨n, hn⟩ := iterM_ok_iterN ho nofun
  clear ho
  induction n generalizing v s acc with
  | zero => simp [iterN] at hn
  | succ n ih =>
    obtain ⟨s1, h1, r1⟩ := L.remainder hr
    by_cases hv : v = []
    · subst hv
      have : Codec.seqBody P f acc s = .ok (.inr acc) s1 := by simp [Codec.seqBody, M.bind_run, h1]
      simp only [iterN, this] at hn
      cases hn
      exact ⟨[], by simp [D.many, DecRes.map], r1⟩
    · have hv' : v.length ≠ 0 := fun h0 => hv (List.eq_nil_of_length_eq_zero h0)
      cases hx : f s1 with
      | ok a s2 =>
        have : Codec.seqBody P f acc s = .ok (.inl (acc ++ [a])) s2 := by
          simp [Codec.seqBody, M.bind_run, h1, hv', hx]
        simp only [iterN, this] at hn
        obtain ⟨r2, h2, q2⟩ := hf v vs s1 a s2 r1 hx
        obtain ⟨rest, h3, q3⟩ := ih (acc ++ [a]) r2 s2 q2 hn
        refine ⟨rest, ?_, q3⟩
        obtain ⟨p, hpre⟩ := hp _ _ _ h2
        dsimp only at h3 ⊢
        by_cases hl : r2.length < v.length
        · rw [D.many, if_neg hv, h2]
          simp only [if_pos hl]
          cases hm : D.many d r2 with
          | ok l r => rw [hm] at h3; simpa [DecRes.map] using h3
          | _ => rw [hm] at h3; cases h3
        · have hlen := congrArg List.length hpre
          simp only [List.length_append] at hlen
          have : p = [] := by apply List.length_eq_zero_iff.mp; omega
          subst this
          have : r2 = v := hpre.symm
          subst this
          rw [D.many, if_neg hv, h2] at h3
          simp only [Nat.lt_irrefl, if_false, if_true] at h3
          cases h3
      | err e s2 =>
        have : Codec.seqBody P f acc s = .err e s2 := by simp [Codec.seqBody, M.bind_run, h1, hv', hx]
        simp only [iterN, this] at hn
        cases hn
      | panic =>
        have : Codec.seqBody P f acc s = .panic := by simp [Codec.seqBody, M.bind_run, h1, hv', hx]
        simp only [iterN, this] at hn
        cases hn
      | ub =>
        have : Codec.seqBody P f acc s = .ub := by simp [Codec.seqBody, M.bind_run, h1, hv', hx]
        simp only [iterN, this] at hn
        cases hn
      | diverge =>
        have : Codec.seqBody P f acc s = .diverge := by simp [Codec.seqBody, M.bind_run, h1, hv', hx]
        simp only [iterN, this] at hn
        cases hn

theorem fixLoop (L : Lawful P pan R) {f : PM σ α} {d : D α} (hf : Sound R f d) (n : Nat) :
    ∀ (k : Nat) (acc : List α), acc.length + k = n →
      Sound R (iterM (Codec.fixBody n P f) acc) ((acc ++ ·) <$> D.upTo d k) := by
  intro k
  induction k with
  | zero =>
    intro acc hk v vs s l s' hr ho
    obtain ⟨s1, h1, r1⟩ := L.remainder hr
    rw [iterM_unfold] at ho
    simp only [Codec.fixBody, M.bind_run, h1, Out.bind_ok] at ho
    rw [if_neg (by omega)] at ho
    cases ho
    exact ⟨v, by simp [D.upTo], r1⟩
  | succ k ih =>
    intro acc hk v vs s l s' hr ho
    obtain ⟨s1, h1, r1⟩ := L.remainder hr
    rw [iterM_unfold] at ho
    simp only [Codec.fixBody, M.bind_run, h1, Out.bind_ok] at ho
    by_cases hv : v = []
    · subst hv
      rw [if_neg (by simp)] at ho
      cases ho
      exact ⟨[], by simp [D.upTo, D.ifEmpty], r1⟩
    · have hv' : v.length ≠ 0 := fun h0 => hv (List.eq_nil_of_length_eq_zero h0)
      rw [if_pos ⟨hv', by omega⟩] at ho
      simp only [M.bind_run] at ho
      cases hx : f s1 with
      | ok a s2 =>
        obtain ⟨r2, h2, q2⟩ := hf v vs s1 a s2 r1 hx
        have hlt : acc.length < n := by omega
        simp only [hx, Out.bind_ok, Codec.tryPush, if_pos hlt, M.pure_run] at ho
        obtain ⟨rest, h3, q3⟩ := ih (acc ++ [a]) (by simp; omega) r2 vs s2 l s' q2 ho
        refine ⟨rest, ?_, q3⟩
        rw [D.map_append_cons] at h3
        simp only [D.upTo, D.map_run, D.ifEmpty, if_neg hv, D.bind_run, h2, DecRes.bind_ok]
        exact h3
      | _ => rw [hx] at ho; cases ho

theorem limLoop (L : Lawful P pan R) {f : PM σ α} {d : D α} (hf : Sound R f d) (n : Nat) (e : ParseError) :
    ∀ (k : Nat) (acc : List α), acc.length + k = n →
      Sound R (iterM (Codec.limBody n P f) acc) ((acc ++ ·) <$> D.manyMax e d k) := by
  intro k
  induction k with
  | zero =>
    intro acc hk v vs s l s' hr ho
    obtain ⟨s1, h1, r1⟩ := L.remainder hr
    rw [iterM_unfold] at ho
    simp only [Codec.limBody, M.bind_run, h1, Out.bind_ok] at ho
    by_cases hv : v = []
    · subst hv
      rw [if_neg (by simp)] at ho
      cases ho
      exact ⟨[], by simp [D.manyMax, D.ifEmpty], r1⟩
    · have hv' : v.length ≠ 0 := fun h0 => hv (List.eq_nil_of_length_eq_zero h0)
      rw [if_pos hv'] at ho
      simp only [M.bind_run] at ho
      cases hx : f s1 with
      | ok a s2 =>
        have hlt : ¬ acc.length < n := by omega
        simp only [hx, Out.bind_ok, Codec.tryPush, if_neg hlt] at ho
        cases ho
      | _ => rw [hx] at ho; cases ho
  | succ k ih =>
    intro acc hk v vs s l s' hr ho
    obtain ⟨s1, h1, r1⟩ := L.remainder hr
    rw [iterM_unfold] at ho
    simp only [Codec.limBody, M.bind_run, h1, Out.bind_ok] at ho
    by_cases hv : v = []
    · subst hv
      rw [if_neg (by simp)] at ho
      cases ho
      exact ⟨[], by simp [D.manyMax, D.ifEmpty], r1⟩
    · have hv' : v.length ≠ 0 := fun h0 => hv (List.eq_nil_of_length_eq_zero h0)
      rw [if_pos hv'] at ho
      simp only [M.bind_run] at ho
      cases hx : f s1 with
      | ok a s2 =>
        obtain ⟨r2, h2, q2⟩ := hf v vs s1 a s2 r1 hx
        have hlt : acc.length < n := by omega
        simp only [hx, Out.bind_ok, Codec.tryPush, if_pos hlt, M.pure_run] at ho
        obtain ⟨rest, h3, q3⟩ := ih (acc ++ [a]) (by simp; omega) r2 vs s2 l s' q2 ho
        refine ⟨rest, ?_, q3⟩
        rw [D.map_append_cons] at h3
        simp only [D.manyMax, D.map_run, D.ifEmpty, if_neg hv, D.bind_run, h2, DecRes.bind_ok]
        exact h3
      | _ => rw [hx] at ho; cases ho

end Sound

end

/-! ### the three parsers -/

theorem sliceSturdy : Sturdy SliceParser.ops False SliceR (fun _ _ => False) where
  lawful := sliceLawful
  zero _ := id
  openOver := by
    rintro v vs s n u s' ⟨pos, hr, _⟩ hn - ho
    obtain ⟨views⟩ := s
    simp only [SliceRep] at hr
    subst hr
    simp only [SliceParser.ops, SliceParser.setFit] at ho
    rw [if_neg (by omega)] at ho
    cases ho
  consumeOver := by
    rintro v vs s n a s' ⟨pos, hr, _⟩ hn - ho
    obtain ⟨views⟩ := s
    simp only [SliceRep] at hr
    subst hr
    simp only [SliceParser.ops, SliceParser.consume] at ho
    rw [if_neg (by omega)] at ho
    cases ho
  remainder := fun _ _ _ _ h _ => h
  consumeByte := fun _ _ _ _ h _ => h
  consume _ := fun _ _ _ _ h _ => h
  setFit _ _ _ _ _ h _ := h
  enforce _ _ _ _ h _ := h

/-- One of the `k` innermost windows ends before the cursor. -/
def Wrecked (k : Nat) (buf : Bytes) (c : ContextOffset) : Prop :=
  buf.length ≤ isizeMax ∧ ∃ t ∈ c.frames.take k, t < c.cur

namespace ContextOffset

variable {p : Profile} {c c' : ContextOffset} {n k ix : Nat} {buf : Bytes}

theorem advance_some {adv : Bool} (h : c.advance p n = some ((ix, adv), c')) :
    ix = c.cur ∧ (adv = true → ∃ t, uadd p c.cur n = some t ∧ t ≤ c.limit ∧ c' = { c with cur := t }) := by
  unfold advance at h
  split at h
  · cases h
  · rename_i t ht
    split at h
    · rename_i hl; cases h; exact ⟨rfl, fun _ => ⟨t, ht, hl, rfl⟩⟩
    · cases h; exact ⟨rfl, nofun⟩

theorem uadd_le {p : Profile} {a b t : Nat} (h : uadd p a b = some t) : t = a + b ∨
    (usizeMod ≤ a + b ∧ t < usizeMod ∧ t + usizeMod ≤ a + b) := by
  unfold uadd at h
  by_cases hl : a + b < usizeMod
  · rw [if_pos hl] at h
    exact .inl (Option.some.inj h).symm
  · rw [if_neg hl] at h
    cases p with
    | debug => cases h
    | release =>
      have hg := usizeMod_ge
      have he := Option.some.inj h
      subst he
      have h1 := Nat.mod_lt (a + b) (y := usizeMod) (by omega)
      have h2 := Nat.mod_le (a + b - usizeMod) usizeMod
      rw [← Nat.mod_eq_sub_mod (by omega)] at h2
      exact .inr ⟨by omega, h1, by omega⟩

theorem setFit_open {u : Unit} (hi : OffInv buf c) (hn : (absCursor buf c).top.length < n) (hn' : n < usizeMod)
    (h : c.setFit p n = .ok u c') : Wrecked 1 buf c' := by
  have h1 := hi.cur_le_limit
  rw [hi.length_top] at hn
  have h2 := hi.limit_le
  have h3 := hi.small
  unfold setFit at h
  split at h
  · cases h
  · rename_i t ht
    split at h
    · split at h <;> cases h
    · rename_i habs
      unfold pushFrame at h
      split at h
      · rename_i hd
        cases h
        refine ⟨hi.small, t, by simp, ?_⟩
        simp only [index] at ht ⊢
        have hle : t ≤ c.limit := by
          unfold detectError at hd
          unfold limit
          cases hf : c.frames.head? with
          | none => simp; omega
          | some l =>
            rw [hf] at hd
            simp only at hd
            split at hd
            · cases hd
            · simp; omega
        rcases uadd_le ht with rfl | ⟨hw, _, _⟩
        · omega
        · omega
      · cases h

theorem setFit_keeps {u : Unit} (hi : Wrecked k buf c) (h : c.setFit p n = .ok u c') : Wrecked (k + 1) buf c' := by
  obtain ⟨hb, t, ht, hlt⟩ := hi
  unfold setFit at h
  split at h
  · cases h
  · split at h
    · split at h <;> cases h
    · unfold pushFrame at h
      split at h
      · cases h
        exact ⟨hb, t, by simp [List.take_succ_cons, ht], hlt⟩
      · cases h

theorem enforce_keeps {u : Unit} (hi : Wrecked (k + 1) buf c) (h : c.enforceTarget = .ok u c') : Wrecked k buf c' := by
  obtain ⟨hb, t, ht, hlt⟩ := hi
  unfold enforceTarget at h
  split at h
  · cases h
  · rename_i tgt fs hf
    split at h
    · rename_i he
      cases h
      rw [hf] at ht
      simp only [List.take_succ_cons, List.mem_cons] at ht
      simp only [index] at he
      rcases ht with rfl | ht
      · omega
      · exact ⟨hb, t, ht, hlt⟩
    · split at h <;> cases h

theorem wrecked_mono {t : Nat} (hi : Wrecked k buf c) (h : c.cur ≤ t) : Wrecked k buf { c with cur := t } := by
  obtain ⟨hb, u, hu, hlt⟩ := hi
  exact ⟨hb, u, hu, Nat.lt_of_lt_of_le hlt h⟩

end ContextOffset

namespace VecBuffer

theorem getSlice_val {p : Profile} {buf bs : Bytes} {ix n t : Nat} (h : getSliceUnchecked p buf ix n = .val bs)
    (ht : uadd p ix n = some t) : ix ≤ t := by
  unfold getSliceUnchecked at h
  rw [ht] at h
  simp only at h
  split at h
  · rename_i hc; exact hc.1
  · cases h

theorem getByte_val {buf : Bytes} {b : Byte} {ix : Nat} (h : getByte buf ix = .val b) : ix < buf.length := by
  unfold getByte at h
  split at h
  · unfold getByteUnchecked at h
    split at h
    · rename_i hb
      exact (List.getElem?_eq_some_iff.mp hb).1
    · cases h
  · cases h

end VecBuffer

theorem ByteParser.liftOff_ok {α : Type} {f : PM ContextOffset α} {s s' : ByteParser} {a : α}
    (h : ByteParser.liftOff f s = .ok a s') : ∃ o, f s.off = .ok a o ∧ s' = { s with off := o } := by
  unfold ByteParser.liftOff at h
  split at h <;> cases h
  exact ⟨_, by assumption, rfl⟩

theorem MemoParser.liftOff_ok {α : Type} {f : PM ContextOffset α} {s s' : MemoParser} {a : α}
    (h : MemoParser.liftOff f s = .ok a s') : ∃ o, f s.off = .ok a o ∧ s' = { s with off := o } := by
  unfold MemoParser.liftOff at h
  split at h <;> cases h
  exact ⟨_, by assumption, rfl⟩

theorem ByteParser.consume_some {p : Profile} {n : Nat} {s s' : ByteParser} {a : Bytes}
    (h : ByteParser.consume p n s = .ok a s') :
    ∃ t, uadd p s.off.cur n = some t ∧ s.off.cur ≤ t ∧ t ≤ s.off.limit ∧ s' = { s with off := { s.off with cur := t } } := by
  unfold ByteParser.consume at h
  split at h
  · cases h
  · rename_i ix adv o ho
    obtain ⟨rfl, h2⟩ := ContextOffset.advance_some ho
    dsimp only at h
    split at h
    · rename_i ha
      obtain ⟨t, ht, hl, rfl⟩ := h2 ha
      split at h <;> cases h
      exact ⟨t, ht, VecBuffer.getSlice_val (by assumption) ht, hl, rfl⟩
    · cases h

theorem ByteParser.consumeByte_some {p : Profile} {s s' : ByteParser} {a : Byte}
    (h : ByteParser.consumeByte p s = .ok a s') (hb : s.buffer.length ≤ isizeMax) :
    ∃ t, s.off.cur ≤ t ∧ s' = { s with off := { s.off with cur := t } } := by
  unfold ByteParser.consumeByte at h
  split at h
  · cases h
  · rename_i ix adv o ho
    obtain ⟨rfl, h2⟩ := ContextOffset.advance_some ho
    dsimp only at h
    split at h
    · rename_i ha
      obtain ⟨t, ht, hl, rfl⟩ := h2 ha
      split at h <;> cases h
      have h3 := VecBuffer.getByte_val (by assumption)
      refine ⟨t, ?_, rfl⟩
      have hm := usizeMod_eq
      rcases ContextOffset.uadd_le ht with rfl | ⟨hw, _, _⟩ <;> omega
    · cases h

theorem MemoParser.consume_some {p : Profile} {n : Nat} {s s' : MemoParser} {a : Bytes}
    (h : MemoParser.consume p n s = .ok a s') :
    ∃ t, uadd p s.off.cur n = some t ∧ s.off.cur ≤ t ∧ t ≤ s.off.limit ∧
      s' = { s with off := { s.off with cur := t }, munches := s.munches ++ [n] } := by
  unfold MemoParser.consume at h
  split at h
  · cases h
  · rename_i ix adv o ho
    obtain ⟨rfl, h2⟩ := ContextOffset.advance_some ho
    dsimp only at h
    split at h
    · rename_i ha
      obtain ⟨t, ht, hl, rfl⟩ := h2 ha
      split at h <;> cases h
      exact ⟨t, ht, VecBuffer.getSlice_val (by assumption) ht, hl, rfl⟩
    · unfold MemoParser.failDump at h
      split at h <;> cases h

theorem MemoParser.consumeByte_some {p : Profile} {s s' : MemoParser} {a : Byte}
    (h : MemoParser.consumeByte p s = .ok a s') (hb : s.buffer.length ≤ isizeMax) :
    ∃ t, s.off.cur ≤ t ∧ s' = { s with off := { s.off with cur := t }, munches := s.munches ++ [1] } := by
  unfold MemoParser.consumeByte at h
  split at h
  · cases h
  · rename_i ix adv o ho
    obtain ⟨rfl, h2⟩ := ContextOffset.advance_some ho
    dsimp only at h
    split at h
    · rename_i ha
      obtain ⟨t, ht, hl, rfl⟩ := h2 ha
      split at h <;> cases h
      have h3 := VecBuffer.getByte_val (by assumption)
      refine ⟨t, ?_, rfl⟩
      have hm := usizeMod_eq
      rcases ContextOffset.uadd_le ht with rfl | ⟨hw, _, _⟩ <;> omega
    · unfold MemoParser.failDump at h
      split at h <;> cases h

/-- An overlong request only passes the limit check by wrapping around. -/
theorem ContextOffset.over {p : Profile} {buf : Bytes} {c : ContextOffset} {n t : Nat} (hi : OffInv buf c)
    (hn : (absCursor buf c).top.length < n) (hn' : n < usizeMod) (ht : uadd p c.cur n = some t) (hl : t ≤ c.limit) :
    t < c.cur := by
  have h1 := hi.cur_le_limit
  rw [hi.length_top] at hn
  rcases ContextOffset.uadd_le ht with rfl | ⟨hw, _, _⟩ <;> omega

theorem byteSturdy (p : Profile) (buf : Bytes) :
    Sturdy (ByteParser.ops p) (p = .debug) (ByteR buf) (fun k s => Wrecked k s.buffer s.off) where
  lawful := byteLawful p buf
  zero s := by rintro ⟨_, t, ht, _⟩; simp at ht
  openOver := by
    rintro v vs s n u s' ⟨pos, rfl, hi, ha⟩ hn hn' ho
    obtain ⟨o, h1, rfl⟩ := ByteParser.liftOff_ok ho
    exact ContextOffset.setFit_open hi (by rw [ha]; exact hn) hn' h1
  consumeOver := by
    rintro v vs s n a s' ⟨pos, rfl, hi, ha⟩ hn hn' ho
    obtain ⟨t, h1, h2, h3, _⟩ := ByteParser.consume_some ho
    have := ContextOffset.over hi (by rw [ha]; exact hn) hn' h1 h3
    omega
  remainder := by
    intro k s a s' hi ho
    simp only [ByteParser.ops, ByteParser.remainder] at ho
    split at ho <;> cases ho
    exact hi
  consumeByte := by
    intro k s a s' hi ho
    obtain ⟨t, h1, rfl⟩ := ByteParser.consumeByte_some ho hi.1
    exact ContextOffset.wrecked_mono hi h1
  consume n := by
    intro k s a s' hi ho
    obtain ⟨t, _, h1, _, rfl⟩ := ByteParser.consume_some ho
    exact ContextOffset.wrecked_mono hi h1
  setFit := by
    intro n k s a s' hi ho
    obtain ⟨o, h1, rfl⟩ := ByteParser.liftOff_ok ho
    exact ContextOffset.setFit_keeps hi h1
  enforce := by
    intro k s a s' hi ho
    obtain ⟨o, h1, rfl⟩ := ByteParser.liftOff_ok ho
    exact ContextOffset.enforce_keeps hi h1

theorem memoSturdy (p : Profile) (buf : Bytes) :
    Sturdy (MemoParser.ops p) (p = .debug) (MemoR buf) (fun k s => Wrecked k s.buffer s.off) where
  lawful := memoLawful p buf
  zero s := by rintro ⟨_, t, ht, _⟩; simp at ht
  openOver := by
    rintro v vs s n u s' ⟨pos, hm, ha⟩ hn hn' ho
    have hi := hm.off
    obtain rfl := hm.buf_eq
    obtain ⟨o, h1, rfl⟩ := MemoParser.liftOff_ok ho
    exact ContextOffset.setFit_open hi (by rw [ha]; exact hn) hn' h1
  consumeOver := by
    rintro v vs s n a s' ⟨pos, hm, ha⟩ hn hn' ho
    have hi := hm.off
    obtain ⟨t, h1, h2, h3, _⟩ := MemoParser.consume_some ho
    have := ContextOffset.over hi (by rw [ha]; exact hn) hn' h1 h3
    omega
  remainder := by
    intro k s a s' hi ho
    simp only [MemoParser.ops, MemoParser.remainder] at ho
    split at ho <;> cases ho
    exact hi
  consumeByte := by
    intro k s a s' hi ho
    obtain ⟨t, h1, rfl⟩ := MemoParser.consumeByte_some ho hi.1
    exact ContextOffset.wrecked_mono hi h1
  consume n := by
    intro k s a s' hi ho
    obtain ⟨t, _, h1, _, rfl⟩ := MemoParser.consume_some ho
    exact ContextOffset.wrecked_mono hi h1
  setFit := by
    intro n k s a s' hi ho
    obtain ⟨o, h1, rfl⟩ := MemoParser.liftOff_ok ho
    exact ContextOffset.setFit_keeps hi h1
  enforce := by
    intro k s a s' hi ho
    obtain ⟨o, h1, rfl⟩ := MemoParser.liftOff_ok ho
    exact ContextOffset.enforce_keeps hi h1

theorem Sturdy.exists_ {σ ι : Type} {P : ParserOps σ} {pan : Prop} {R : ι → Bytes → List Bytes → σ → Prop}
    {I : Nat → σ → Prop} (h : ∀ i, Sturdy P pan (R i) I) (i₀ : ι) : Sturdy P pan (fun v vs s => ∃ i, R i v vs s) I where
  lawful := Lawful.exists_ fun i => (h i).lawful
  zero := (h i₀).zero
  openOver := fun ⟨i, r⟩ => (h i).openOver r
  consumeOver := fun ⟨i, r⟩ => (h i).consumeOver r
  remainder := (h i₀).remainder
  consumeByte := (h i₀).consumeByte
  consume := (h i₀).consume
  setFit := (h i₀).setFit
  enforce := (h i₀).enforce

theorem Backend.sturdy (p : Profile) : (k : Backend) → ∃ I, Sturdy (k.ops p) (k.panics p) k.Holds I
  | .byte => ⟨_, Sturdy.exists_ (fun buf => byteSturdy p buf) []⟩
  | .memo => ⟨_, Sturdy.exists_ (fun buf => memoSturdy p buf) []⟩
  | .slice => ⟨_, sliceSturdy⟩

end Verif
