import Verif.Refine.Program
import Verif.Refine.Backend
import Verif.Lemmas.Sound
/-
What a decoder leaves of the parser when it fails.
-/
namespace Verif

/-- A lawful parser with what is known of it after an attempt to close a window that has not been read to its end: the
window is gone.  With `big`, requests of any size that cannot be met are refused. -/
structure Stays {σ : Type} (P : ParserOps σ) (pan big : Prop) (R : Bytes → List Bytes → σ → Prop) : Prop where
  lawful : Lawful P pan R
  residue : ∀ {v w vs s}, R v (w :: vs) s → v ≠ [] →
    ∃ e s' u, P.enforceTarget s = .err e s' ∧ u <:+ v ++ w ∧ R u vs s'
  consume : big → ∀ {v vs s} (n : Nat), R v vs s → v.length < n → ∃ e s', P.consume n s = .err e s' ∧ R v vs s'
  setFit : big → ∀ {v vs s} (n : Nat), R v vs s → v.length < n → ∃ e s', P.setFit n s = .err e s' ∧ R v vs s'

/-- Where `v` is readable, `f` does nothing undefined, after success a suffix of `v` is readable in the same windows, and
after failure at most `n` more windows are open, with a suffix of `v` readable in them and the rest of it behind. -/
def LeavesAt {σ α : Type} (R : Bytes → List Bytes → σ → Prop) (n : Nat) (v : Bytes) (f : PM σ α) : Prop :=
  ∀ vs s, R v vs s → match f s with
  | .ok _ s' => ∃ v', v' <:+ v ∧ R v' vs s'
  | .err _ s' => ∃ v' us, v' ++ us.flatten <:+ v ∧ us.length ≤ n ∧ R v' (us ++ vs) s'
  | .ub => False
  | _ => True

def Leaves {σ α : Type} (R : Bytes → List Bytes → σ → Prop) (n : Nat) (f : PM σ α) : Prop := ∀ v, LeavesAt R n v f

section

variable {σ α β : Type} {P : ParserOps σ} {pan big : Prop} {R : Bytes → List Bytes → σ → Prop} {n m : Nat} {v : Bytes}

theorem LeavesAt.mono {f : PM σ α} (h : LeavesAt R n v f) (hn : n ≤ m) : LeavesAt R m v f := by
  intro vs s hr
  have := h vs s hr
  revert this
  cases f s with
  | err e s' => exact fun ⟨v', us, h1, h2, h3⟩ => ⟨v', us, h1, Nat.le_trans h2 hn, h3⟩
  | _ => exact id

theorem LeavesAt.bind {f : PM σ α} {g : α → PM σ β} (hf : LeavesAt R n v f)
    (hg : ∀ a v' vs s s', R v vs s → f s = .ok a s' → v' <:+ v → LeavesAt R n v' (g a)) : LeavesAt R n v (f >>= g) := by
  intro vs s hr
  have h := hf vs s hr
  rw [M.bind_run]
  cases ho : f s with
  | ok a s1 =>
    rw [ho] at h
    obtain ⟨v', hv, hr'⟩ := h
    have h2 := hg a v' vs s s1 hr ho hv vs s1 hr'
    rw [Out.bind_ok]
    revert h2
    cases g a s1 with
    | ok b s2 => exact fun ⟨v2, h1, h2⟩ => ⟨v2, h1.trans hv, h2⟩
    | err e s2 => exact fun ⟨v2, us, h1, h2⟩ => ⟨v2, us, h1.trans hv, h2⟩
    | _ => exact id
  | err e s1 => rw [ho] at h; exact h
  | panic => trivial
  | ub => rw [ho] at h; exact h
  | diverge => trivial

namespace Leaves

theorem mono {f : PM σ α} (h : Leaves R n f) (hn : n ≤ m) : Leaves R m f := fun v => (h v).mono hn

theorem bind {f : PM σ α} {g : α → PM σ β} (hf : Leaves R n f) (hg : ∀ a, Leaves R n (g a)) : Leaves R n (f >>= g) :=
  fun v => (hf v).bind fun a v' _ _ _ _ _ _ => hg a v'

theorem pure (a : α) : Leaves R n (Pure.pure a : PM σ α) := fun v _ _ h => ⟨v, List.suffix_refl _, h⟩

theorem map (g : α → β) {f : PM σ α} (h : Leaves R n f) : Leaves R n (g <$> f) := bind h fun _ => pure _

theorem throw (e : ParseError) : Leaves R n (M.throw e : PM σ α) :=
  fun v _ _ h => ⟨v, [], by simp, Nat.zero_le _, h⟩

theorem panic : Leaves R n (M.panic : PM σ α) := fun _ _ _ _ => trivial

theorem diverge : Leaves R n (fun _ => .diverge : PM σ α) := fun _ _ _ _ => trivial

theorem ite {c : Prop} [Decidable c] {f g : PM σ α} (hf : Leaves R n f) (hg : Leaves R n g) :
    Leaves R n (if c then f else g) := by
  split
  · exact hf
  · exact hg

theorem dite {c : Prop} [Decidable c] {f : c → PM σ α} {g : ¬ c → PM σ α} (hf : ∀ h, Leaves R n (f h))
    (hg : ∀ h, Leaves R n (g h)) : Leaves R n (if h : c then f h else g h) := by
  split
  · exact hf _
  · exact hg _

theorem ofExcept {ε : Type} (r : Except ε α) (f : ε → ParseError) : Leaves R n (M.ofExcept r f : PM σ α) := by
  cases r
  · exact throw _
  · exact pure _

theorem ofOption (r : Option α) : Leaves R n (M.ofOption r : PM σ α) := by
  cases r
  · exact panic
  · exact pure _

theorem loop {body : β → PM σ (β ⊕ α)} (h : ∀ b, Leaves R n (body b)) (b : β) : Leaves R n (iterM body b) := by
  intro v vs s hr
  by_cases hd : iterM body b s = .diverge
  · rw [hd]; trivial
  obtain ⟨k, hk⟩ := iterM_ok_iterN rfl hd
  clear hd
  generalize iterM body b s = o at hk
  induction k generalizing b s v with
  | zero => simp [iterN] at hk
  | succ k ih =>
    have h1 := h b v vs s hr
    simp only [iterN] at hk
    generalize body b s = r at h1 hk
    cases r with
    | ok r s1 =>
      obtain ⟨v', hv, hr'⟩ := h1
      cases r with
      | inl b' =>
        have := ih b' v' s1 hr' hk
        revert this
        cases o with
        | ok a s2 => exact fun ⟨v2, h1, h2⟩ => ⟨v2, h1.trans hv, h2⟩
        | err e s2 => exact fun ⟨v2, us, h1, h2⟩ => ⟨v2, us, h1.trans hv, h2⟩
        | _ => exact id
      | inr a => cases hk; exact ⟨v', hv, hr'⟩
    | err e s1 => cases hk; exact h1
    | panic => cases hk; trivial
    | ub => exact h1.elim
    | diverge => cases hk; trivial

/-- Code that begins by asking for the number of remaining bytes. -/
theorem remainder (S : Stays P pan big R) {f : Nat → PM σ α} (h : ∀ v, LeavesAt R n v (f v.length)) :
    Leaves R n (P.remainder >>= f) := by
  intro v vs s hr
  obtain ⟨s', h1, h2⟩ := S.lawful.remainder hr
  rw [M.bind_run, h1]
  exact h v vs s' h2

theorem consumeByte (S : Stays P pan big R) : Leaves R n P.consumeByte := by
  intro v vs s hr
  cases v with
  | nil =>
    obtain ⟨e, s', h1, _, h2⟩ := S.lawful.consumeByte_err hr
    rw [h1]
    exact ⟨[], [], by simp, Nat.zero_le _, h2⟩
  | cons b v =>
    obtain ⟨s', h1, h2⟩ := S.lawful.consumeByte_ok hr
    rw [h1]
    exact ⟨v, List.suffix_cons _ _, h2⟩

theorem consumeAt (S : Stays P pan big R) {k : Nat} (hk : big ∨ k ≤ isizeMax + 1) : LeavesAt R n v (P.consume k) := by
  intro vs s hr
  by_cases hl : k ≤ v.length
  · obtain ⟨s', h1, h2⟩ := S.lawful.consume_ok k hr hl
    rw [h1]
    exact ⟨v.drop k, List.drop_suffix _ _, h2⟩
  · rcases hk with hb | hk
    · obtain ⟨e, s', h1, h2⟩ := S.consume hb k hr (by omega)
      rw [h1]
      exact ⟨v, [], by simp, Nat.zero_le _, h2⟩
    · obtain ⟨e, s', h1, _, h2⟩ := S.lawful.consume_err k hr (by omega) hk
      rw [h1]
      exact ⟨v, [], by simp, Nat.zero_le _, h2⟩

theorem consume (S : Stays P pan big R) {k : Nat} (hk : big ∨ k ≤ isizeMax + 1) : Leaves R n (P.consume k) :=
  fun _ => consumeAt S hk

theorem takeFixed (S : Stays P pan big R) {k : Nat} (hk : big ∨ k ≤ isizeMax + 1) : Leaves R n (P.takeFixed k) :=
  bind (consume S hk) fun _ => ite (pure _) (throw _)

theorem takeRest (S : Stays P pan big R) : Leaves R n (P.remainder >>= fun n => P.takeDynamic n) :=
  remainder S fun v vs s hr => by
    have := S.lawful.small hr
    exact consumeAt S (.inr (by omega)) vs s hr

theorem selfTerminating (S : Stays P pan big R) (f : Byte → Bool) : Leaves R n (P.takeSelfTerminating f) :=
  remainder S fun v => (ite panic (loop (fun ret => by
    intro v vs s hr
    have := consumeByte (n := n) S v vs s hr
    unfold ParserOps.selfTermBody
    revert this
    cases P.consumeByte s with
    | ok b s1 => cases hb : f b <;> simp only [hb, if_true, Bool.false_eq_true, if_false] <;> exact id
    | _ => exact id) _)) v

/-- A window. -/
theorem windowAt (S : Stays P pan big R) {k : Nat} {f : PM σ α} (hf : Leaves R n f) (hk : big ∨ k ≤ isizeMax + 1) :
    LeavesAt R (n + 1) v (do P.setFit k; let a ← f; P.enforceTarget; Pure.pure a) := by
  intro vs s hr
  by_cases hl : k ≤ v.length
  · obtain ⟨s1, h1, r1⟩ := S.lawful.setFit_ok k hr hl
    have h2 := hf (v.take k) (v.drop k :: vs) s1 r1
    simp only [M.bind_run, h1, Out.bind_ok]
    revert h2
    cases ho : f s1 with
    | ok a s2 =>
      rintro ⟨v', hv, r2⟩
      simp only [Out.bind_ok]
      by_cases he : v' = []
      · subst he
        obtain ⟨s3, h3, r3⟩ := S.lawful.enforce_ok r2
        simp only [h3, Out.bind_ok]
        exact ⟨v.drop k, List.drop_suffix _ _, r3⟩
      · obtain ⟨e, s3, u, h3, hu, r3⟩ := S.residue r2 he
        simp only [h3, Out.bind]
        refine ⟨u, [], ?_, Nat.zero_le _, r3⟩
        simp only [List.flatten_nil, List.append_nil]
        refine hu.trans ?_
        obtain ⟨t, ht⟩ := hv
        exact ⟨t, by rw [← List.append_assoc, ht, List.take_append_drop]⟩
    | err e s2 =>
      rintro ⟨v', us, hv, hn, r2⟩
      refine ⟨v', us ++ [v.drop k], ?_, by simpa using hn, by simpa using r2⟩
      obtain ⟨t, ht⟩ := hv
      exact ⟨t, by rw [List.flatten_append, List.flatten_singleton, ← List.append_assoc, ← List.append_assoc,
        List.append_assoc t, ht, List.take_append_drop]⟩
    | panic => exact fun _ => trivial
    | ub => exact id
    | diverge => exact fun _ => trivial
  · have : (∃ e s', P.setFit k s = .err e s' ∧ R v vs s') ∨ P.setFit k s = .panic := by
      rcases hk with hb | hk
      · exact .inl (S.setFit hb k hr (by omega))
      · rcases S.lawful.setFit_err k hr (by omega) hk with ⟨e, s', h1, _, h2⟩ | ⟨_, h⟩
        · exact .inl ⟨e, s', h1, h2⟩
        · exact .inr h
    rcases this with ⟨e, s', h1, h2⟩ | h
    · simp only [M.bind_run, h1, Out.bind]
      exact ⟨v, [], by simp, Nat.zero_le _, h2⟩
    · simp only [M.bind_run, h, Out.bind]

theorem tag (S : Stays P pan big R) (w : TagWidth) (tags : List Nat) :
    Leaves R n (ParserOps.takeTagword w (w.parse P) tags) :=
  bind (map _ (takeFixed S (.inr (by cases w <;> decide)))) fun _ => ite (pure _) (ite (throw _) (throw _))

theorem rangedInt (S : Stays P pan big R) (t : IntTy) (min max : Int) :
    Leaves R n ((Codec.rangedInt t min max).parse P) :=
  bind (map _ (takeFixed S (.inr (by cases t <;> decide)))) fun _ => ofExcept _ _

theorem lenPref (S : Stays P pan big R) (l : LenPref) : Leaves R n (l.parse P) := by
  cases l
  · exact map _ (map _ (takeFixed S (.inr (by decide))))
  · exact map _ (map _ (takeFixed S (.inr (by decide))))
  · exact map _ (rangedInt S _ _ _)

theorem dynamic (S : Stays P pan big R) (l : LenPref) {f : PM σ α} (hf : Leaves R n f) :
    Leaves R (n + 1) (do let k ← l.parse P; P.setFit k; let a ← f; P.enforceTarget; Pure.pure a) := by
  refine fun v => (lenPref S l v).bind fun k v' vs s s' hr ho _ => windowAt S hf (.inr ?_)
  have hm := Refines.lenPref (pan' := pan) S.lawful l v vs s hr
  rw [ho] at hm
  have hm2 := l.maxLen_small
  cases hd : Dec.lenPref l v with
  | ok a r =>
    rw [hd] at hm
    obtain ⟨_, h, _⟩ := hm
    cases h
    have := Dec.lenPref_le hd
    omega
  | err => rw [hd] at hm; rcases hm with ⟨_, _, h, _⟩ | ⟨_, h⟩ <;> cases h
  | panic => rw [hd] at hm; cases hm
  | diverge => rw [hd] at hm; cases hm
  | wild => exact absurd hd (Tame.lenPref l v)

theorem vpadded (S : Stays P pan big R) (cfg : Cfg) (l : Nat) {c : Codec α} (hf : Leaves R n (c.parse P))
    (hk : big ∨ cfg.prof = .debug) : Leaves R (n + 1) ((Codec.vpadded cfg l c).parse P) :=
  remainder S fun v => by
    by_cases hd : cfg.prof = .debug ∧ ¬ v.length ≥ l
    · rw [if_pos hd]; exact panic v
    · rw [if_neg hd]
      cases hu : usub cfg.prof v.length l with
      | none => exact panic v
      | some k =>
        intro vs s hr
        have hs := S.lawful.small hr
        refine windowAt S hf (hk.imp_right fun hp => ?_) vs s hr
        rw [hp] at hu
        simp only [usub] at hu
        split at hu
        · cases hu; omega
        · cases hu

end Leaves

end

mutual
/-- How many windows decoding has open at the same time. -/
def Schema.nesting : Schema → Nat
  | .option s => s.nesting
  | .nullable s => s.nesting
  | .dynamic _ s => s.nesting + 1
  | .vpadded _ s => s.nesting + 1
  | .padded _ s => s.nesting
  | .seq s => s.nesting
  | .fixSeq _ s => s.nesting
  | .limSeq _ s => s.nesting
  | .autobox s => s.nesting
  | .data _ vs => vs.nesting
  | .record fs => fs.nesting
  | _ => 0
def Variants.nesting : Variants → Nat
  | .nil => 0
  | .cons _ s vs => max s.nesting vs.nesting
def Fields.nesting : Fields → Nat
  | .nil => 0
  | .cons s fs => max s.nesting fs.nesting
end

section

variable {σ : Type} {P : ParserOps σ} {pan big : Prop} {R : Bytes → List Bytes → σ → Prop}

open Leaves in
mutual
theorem Schema.leaves (S : Stays P pan big R) (cfg : Cfg) : ∀ s : Schema, big ∨ s.tame cfg.prof = true →
    Leaves R s.nesting ((s.codec cfg).parse P)
  | .unit, _ => pure _
  | .bool, _ => bind (consumeByte S) fun _ => ite (pure _) (ite (pure _) (throw _))
  | .int t, _ => map _ (takeFixed S (.inr (by cases t <;> decide)))
  | .f64, _ => map _ (takeFixed S (.inr (by decide)))
  | .rangedInt t min max, _ => rangedInt S t min max
  | .rangedFloat _ _, _ => bind (map _ (takeFixed S (.inr (by decide)))) fun _ => ofExcept _ _
  | .zarithN, _ => bind (selfTerminating S _) fun _ => ofOption _
  | .zarithZ, _ => bind (selfTerminating S _) fun _ => ofOption _
  | .bytes, _ => takeRest S
  | .vecU8, _ => takeRest S
  | .string, _ => remainder S fun v => LeavesAt.bind (fun vs s hr => by
      have := S.lawful.small hr
      exact consumeAt S (.inr (by omega)) vs s hr) fun _ _ _ _ _ _ _ _ => pure _ _
  | .fixedBytes n, h => bind (takeFixed S (h.imp_right fun h => by simpa [Schema.tame] using h)) fun _ =>
      dite (fun _ => pure _) fun _ => panic
  | .fixedString n, h => bind (takeFixed S (h.imp_right fun h => by simpa [Schema.tame] using h)) fun _ =>
      dite (fun _ => pure _) fun _ => panic
  | .option s, h => bind (tag S _ _) fun _ =>
      ite (bind (Schema.leaves S cfg s h) fun _ => pure _) (ite (pure _) panic)
  | .nullable s, h => remainder S fun v => ite (bind (Schema.leaves S cfg s h) fun _ => pure _) (pure _) v
  | .dynamic l s, h => dynamic S l (Schema.leaves S cfg s h)
  | .vpadded n s, h => vpadded S cfg n
      (Schema.leaves S cfg s (h.imp_right fun h => by simp only [Schema.tame, Bool.and_eq_true] at h; exact h.2))
      (h.imp_right fun h => by simp only [Schema.tame, Bool.and_eq_true, decide_eq_true_eq] at h; exact h.1)
  | .padded n s, h =>
      bind (Schema.leaves S cfg s (h.imp_right fun h => by simp only [Schema.tame, Bool.and_eq_true] at h; exact h.2)) fun _ =>
      bind (consume S (h.imp_right fun h => by
        simp only [Schema.tame, Bool.and_eq_true, decide_eq_true_eq] at h; exact h.1)) fun _ => ite (throw _) (pure _)
  | .seq s, h => loop (fun _ => remainder S fun v =>
      ite (bind (Schema.leaves S cfg s h) fun _ => pure _) (pure _) v) _
  | .fixSeq _ s, h => bind (loop (fun _ => remainder S fun v =>
      ite (bind (Schema.leaves S cfg s h) fun _ => bind (ite (pure _) (throw _)) fun _ => pure _) (pure _) v) _) fun _ =>
      ite (pure _) (throw _)
  | .limSeq _ s, h => loop (fun _ => remainder S fun v =>
      ite (bind (Schema.leaves S cfg s h) fun _ => bind (ite (pure _) (throw _)) fun _ => pure _) (pure _) v) _
  | .autobox s, h => Schema.leaves S cfg s h
  | .hole _, _ => diverge
  | .cstyle w tags, _ => bind (tag S w tags) fun _ => dite (fun _ => pure _) fun _ => panic
  | .data w vs, h => bind (tag S w _) fun t => Variants.leaves S cfg vs h t
  | .record fs, h => Fields.leaves S cfg fs h
theorem Variants.leaves (S : Stays P pan big R) (cfg : Cfg) : ∀ vs : Variants, big ∨ vs.tame cfg.prof = true →
    ∀ t : Nat, Leaves R vs.nesting ((vs.codec cfg).parse P t)
  | .nil, _, _ => panic
  | .cons _ s vs, h, t =>
      ite (bind ((Schema.leaves S cfg s (h.imp_right fun h => by
          simp only [Variants.tame, Bool.and_eq_true] at h; exact h.1)).mono (Nat.le_max_left _ _)) fun _ => pure _)
        (bind ((Variants.leaves S cfg vs (h.imp_right fun h => by
          simp only [Variants.tame, Bool.and_eq_true] at h; exact h.2) t).mono (Nat.le_max_right _ _)) fun _ => pure _)
theorem Fields.leaves (S : Stays P pan big R) (cfg : Cfg) : ∀ fs : Fields, big ∨ fs.tame cfg.prof = true →
    Leaves R fs.nesting ((fs.codec cfg).parse P)
  | .nil, _ => pure _
  | .cons s fs, h =>
      bind ((Schema.leaves S cfg s (h.imp_right fun h => by
          simp only [Fields.tame, Bool.and_eq_true] at h; exact h.1)).mono (Nat.le_max_left _ _)) fun _ =>
      bind ((Fields.leaves S cfg fs (h.imp_right fun h => by
          simp only [Fields.tame, Bool.and_eq_true] at h; exact h.2)).mono (Nat.le_max_right _ _)) fun _ => pure _
end

end

/-! ### the three parsers -/

theorem byte_residue (p : Profile) {v w : Bytes} {vs : List Bytes} {s : ByteParser} (h : Backend.Holds .byte v (w :: vs) s)
    (hv : v ≠ []) : ∃ s', (ByteParser.ops p).enforceTarget s = .err (.window (.closeWithResidue v.length)) s' ∧
      Backend.Holds .byte (v ++ w) vs s' := by
  obtain ⟨buf, pos, h⟩ := h
  obtain ⟨s', he⟩ := (byteLawful p buf).enforce_err ⟨pos, h⟩ hv
  refine ⟨s', he, buf, pos, ?_⟩
  have := byte_step p h .enforceTarget (.inr (Nat.zero_le _))
  simp only [Cursor.step, if_neg hv] at this
  rcases this with ⟨e', s2, h2, _, h3⟩ | ⟨hf, _⟩
  · have := run_err_of_map h2
    rw [he] at this
    cases this
    exact h3
  · exact hf.elim

theorem memo_residue (p : Profile) {v w : Bytes} {vs : List Bytes} {s : MemoParser} (h : Backend.Holds .memo v (w :: vs) s)
    (hv : v ≠ []) : ∃ s', (MemoParser.ops p).enforceTarget s = .err (.window (.closeWithResidue v.length)) s' ∧
      Backend.Holds .memo (v ++ w) vs s' := by
  obtain ⟨buf, pos, h⟩ := h
  obtain ⟨s', he⟩ := (memoLawful p buf).enforce_err ⟨pos, h⟩ hv
  refine ⟨s', he, buf, pos, ?_⟩
  have := memo_step p h .enforceTarget (.inr (Nat.zero_le _))
  simp only [Cursor.step, if_neg hv] at this
  rcases this with ⟨e', s2, h2, _, h3⟩ | ⟨hf, _⟩
  · have := run_err_of_map h2
    rw [he] at this
    cases this
    exact h3
  · exact hf.elim

theorem slice_residue {v w : Bytes} {vs : List Bytes} {s : SliceParser} (h : Backend.Holds .slice v (w :: vs) s)
    (hv : v ≠ []) : ∃ s', SliceParser.ops.enforceTarget s = .err (.window (.closeWithResidue v.length)) s' ∧
      Backend.Holds .slice w vs s' := by
  obtain ⟨pos, h, hl⟩ := h
  refine ⟨_, slice_close_residue h rfl hv, pos, rfl, ?_⟩
  simp only [List.flatten_cons, List.length_append] at hl ⊢
  omega

theorem Backend.stays (p : Profile) : (k : Backend) → Stays (k.ops p) (k.panics p) (k = .slice) k.Holds
  | .byte => {
      lawful := Backend.lawful p .byte
      residue := fun h hv =>
        let ⟨s', h1, h2⟩ := byte_residue p h hv
        ⟨_, s', _, h1, List.suffix_refl _, h2⟩
      consume := nofun
      setFit := nofun }
  | .memo => {
      lawful := Backend.lawful p .memo
      residue := fun h hv =>
        let ⟨s', h1, h2⟩ := memo_residue p h hv
        ⟨_, s', _, h1, List.suffix_refl _, h2⟩
      consume := nofun
      setFit := nofun }
  | .slice => {
      lawful := Backend.lawful p .slice
      residue := fun h hv =>
        let ⟨s', h1, h2⟩ := slice_residue h hv
        ⟨_, s', _, h1, List.suffix_append _ _, h2⟩
      consume := by
        rintro - v vs ⟨views⟩ n ⟨pos, h, hl⟩ hn
        simp only [SliceRep] at h
        subst h
        exact ⟨_, _, if_neg (Nat.not_le.mpr hn), pos, rfl, hl⟩
      setFit := by
        rintro - v vs ⟨views⟩ n ⟨pos, h, hl⟩ hn
        simp only [SliceRep] at h
        subst h
        exact ⟨_, _, if_neg (Nat.not_le.mpr hn), pos, rfl, hl⟩ }

end Verif
