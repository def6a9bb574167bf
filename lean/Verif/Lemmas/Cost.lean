import Verif.Lemmas.Recursive
import Verif.Lemmas.Tame
import Verif.Refine.Sound
import Verif.Lemmas.Sound
import Verif.Refine.Idle
/-
The decoder of every type makes a number of parser calls that is linear in the number of bytes.
-/
namespace Verif

section
variable {σ : Type} {P : ParserOps σ} {pan : Prop} {R : Bytes → List Bytes → σ → Prop}

theorem Reads.of_progress {α : Type} (L : Lawful P pan R) {f : PM (σ × Nat) α} {g : PM σ α} {d : D α} (he : Erases f g)
    (h : Sound R g d) (hp : Progress d) : Reads R f := by
  intro v vs s k a st v' hr ho hr'
  have hg : g s = .ok a st.1 := by rw [← he s k, ho]; rfl
  obtain ⟨rest, h1, h2⟩ := h v vs s a st.1 hr hg
  have := hp v a rest h1
  have := L.length_unique h2 hr'
  omega

/-- Reading elements until nothing is left never ends once an element turns out to be empty. -/
theorem Rounds.moves_seq {α : Type} (L : Lawful P pan R) {f : PM (σ × Nat) α} {g : PM σ α} {d : D α} {pan' : Prop}
    (h : Refines pan' (fun v vs s => R v vs s.1) f d) (he : Erases f g) (hs : Sound R g d) (hp : ReadsPrefix d) :
    Rounds.Moves R f (Codec.seqBody P.metered f) := by
  intro acc v vs s s' k x st v' hr hr' hv ho hr2
  have hg : g s' = .ok x st.1 := by rw [← he s' (k + 1), ho]; rfl
  obtain ⟨rest, h1, h2⟩ := hs v vs s' x st.1 hr' hg
  have hl := L.length_unique h2 hr2
  by_cases hlt : rest.length < v.length
  · exact .inl (by omega)
  · have hm := Refines.many L.metered h acc v vs (s, k) hr
    have hv' : rest = v := by
      obtain ⟨p, hp⟩ := hp v x rest h1
      have : p = [] := by
        rw [hp, List.length_append] at hlt
        exact List.eq_nil_of_length_eq_zero (by omega)
      rw [hp, this]; rfl
    subst hv'
    have e : D.many d rest = .diverge := by
      unfold D.many
      simp only [if_neg hv, h1, if_neg hlt, if_pos]
    simp only [e] at hm
    exact .inr hm

end

section
variable {ρ : Nat → Schema}

mutual
theorem Schema.paced_sized : ∀ (s : Schema) (read : Bool), s.paced ρ read = true → s.sized = true
  | .unit, _, h | .bool, _, h | .int _, _, h | .f64, _, h | .rangedInt _ _ _, _, h | .rangedFloat _ _, _, h | .zarithN, _, h
  | .zarithZ, _, h | .bytes, _, h | .vecU8, _, h | .string, _, h | .cstyle _ _, _, h | .fixedBytes _, _, h
  | .fixedString _, _, h => h
  | .option s, _, h | .dynamic _ s, _, h => s.paced_sized true h
  | .nullable s, read, h | .seq s, read, h | .fixSeq _ s, read, h | .limSeq _ s, read, h | .autobox s, read, h =>
    s.paced_sized read h
  | .vpadded _ s, read, h => by
    simp only [Schema.paced, Schema.sized, Bool.and_eq_true] at h ⊢
    exact ⟨h.1, s.paced_sized read h.2⟩
  | .padded _ s, read, h => by
    simp only [Schema.paced, Schema.sized, Bool.and_eq_true] at h ⊢
    exact ⟨h.1, s.paced_sized read h.2⟩
  | .hole _, _, _ => rfl
  | .data _ vs, _, h => vs.paced_sized true h
  | .record fs, read, h => fs.paced_sized read h
theorem Variants.paced_sized : ∀ (vs : Variants) (read : Bool), vs.paced ρ read = true → vs.sized = true
  | .nil, _, _ => rfl
  | .cons _ s vs, read, h => by
    simp only [Variants.paced, Variants.sized, Bool.and_eq_true] at h ⊢
    exact ⟨s.paced_sized read h.1, vs.paced_sized read h.2⟩
theorem Fields.paced_sized : ∀ (fs : Fields) (read : Bool), fs.paced ρ read = true → fs.sized = true
  | .nil, _, _ => rfl
  | .cons s fs, read, h => by
    simp only [Fields.paced, Fields.sized, Bool.and_eq_true] at h ⊢
    exact ⟨s.paced_sized read h.1, fs.paced_sized _ h.2⟩
end

mutual
theorem Schema.sized_paced : ∀ s : Schema, s.sized = true → s.paced ρ true = true
  | .unit, h | .bool, h | .int _, h | .f64, h | .rangedInt _ _ _, h | .rangedFloat _ _, h | .zarithN, h
  | .zarithZ, h | .bytes, h | .vecU8, h | .string, h | .cstyle _ _, h | .fixedBytes _, h
  | .fixedString _, h => h
  | .option s, h | .dynamic _ s, h | .nullable s, h | .seq s, h | .fixSeq _ s, h | .limSeq _ s, h | .autobox s, h => s.sized_paced h
  | .vpadded _ s, h => by
    simp only [Schema.paced, Schema.sized, Bool.and_eq_true] at h ⊢
    exact ⟨h.1, s.sized_paced h.2⟩
  | .padded _ s, h => by
    simp only [Schema.paced, Schema.sized, Bool.and_eq_true] at h ⊢
    exact ⟨h.1, s.sized_paced h.2⟩
  | .hole _, _ => rfl
  | .data _ vs, h => vs.sized_paced h
  | .record fs, h => fs.sized_paced h
theorem Variants.sized_paced : ∀ vs : Variants, vs.sized = true → vs.paced ρ true = true
  | .nil, _ => rfl
  | .cons _ s vs, h => by
    simp only [Variants.paced, Variants.sized, Bool.and_eq_true] at h ⊢
    exact ⟨s.sized_paced h.1, vs.sized_paced h.2⟩
theorem Fields.sized_paced : ∀ fs : Fields, fs.sized = true → fs.paced ρ true = true
  | .nil, _ => rfl
  | .cons s fs, h => by
    simp only [Fields.paced, Fields.sized, Bool.and_eq_true, Bool.true_or] at h ⊢
    exact ⟨s.sized_paced h.1, fs.sized_paced h.2⟩
end

mutual
theorem Schema.guarded_paced : ∀ (s : Schema) (read : Bool), s.guarded ρ read = true → s.paced ρ read = true
  | .unit, _, h | .bool, _, h | .int _, _, h | .f64, _, h | .rangedInt _ _ _, _, h | .rangedFloat _ _, _, h | .zarithN, _, h
  | .zarithZ, _, h | .bytes, _, h | .vecU8, _, h | .string, _, h | .cstyle _ _, _, h | .hole _, _, h => h
  | .fixedBytes n, _, h | .fixedString n, _, h => by
    have h : decide (n ≤ isizeMax + 1) = true := h
    have := of_decide_eq_true h
    have hm := usizeMod_eq
    have hg := isizeMax_ge
    exact decide_eq_true (by omega)
  | .option s, _, h | .dynamic _ s, _, h => s.guarded_paced true h
  | .nullable s, read, h | .fixSeq _ s, read, h | .limSeq _ s, read, h | .autobox s, read, h => s.guarded_paced read h
  | .seq s, read, h => by
    simp only [Schema.guarded, Bool.and_eq_true] at h
    exact s.guarded_paced read h.1
  | .vpadded _ s, _, h => by cases h
  | .padded _ s, read, h => by
    simp only [Schema.paced, Schema.guarded, Bool.and_eq_true, decide_eq_true_eq] at h ⊢
    have hm := usizeMod_eq
    have hg := isizeMax_ge
    exact ⟨by omega, s.guarded_paced read h.2⟩
  | .data _ vs, _, h => vs.guarded_paced true h
  | .record fs, read, h => fs.guarded_paced read h
theorem Variants.guarded_paced : ∀ (vs : Variants) (read : Bool), vs.guarded ρ read = true → vs.paced ρ read = true
  | .nil, _, _ => rfl
  | .cons _ s vs, read, h => by
    simp only [Variants.paced, Variants.guarded, Bool.and_eq_true] at h ⊢
    exact ⟨s.guarded_paced read h.1, vs.guarded_paced read h.2⟩
theorem Fields.guarded_paced : ∀ (fs : Fields) (read : Bool), fs.guarded ρ read = true → fs.paced ρ read = true
  | .nil, _, _ => rfl
  | .cons s fs, read, h => by
    simp only [Fields.paced, Fields.guarded, Bool.and_eq_true] at h ⊢
    exact ⟨s.guarded_paced read h.1, fs.guarded_paced _ h.2⟩
end
end

mutual
/-- Bound on the calls made before anything is read. -/
def Schema.pre (ρ : Nat → Schema) : Schema → Nat
  | .unit => 0
  | .bool | .int _ | .f64 | .rangedInt _ _ _ | .rangedFloat _ _ | .fixedBytes _ | .fixedString _ | .cstyle _ _ => 1
  | .zarithN | .zarithZ | .bytes | .vecU8 | .string => 2
  | .option _ => 1
  | .nullable s => s.pre ρ + 1
  | .dynamic _ _ => 1
  | .vpadded _ s => s.pre ρ + 3
  | .padded _ s => s.pre ρ + 1
  | .seq s => s.pre ρ + 2
  | .fixSeq n s => if (s.fill ρ).nonempty then s.pre ρ + 2 else (n + 1) * (s.pre ρ + 1)
  | .limSeq n s => if (s.fill ρ).nonempty then s.pre ρ + 2 else (n + 1) * (s.pre ρ + 1)
  | .autobox s => s.pre ρ
  | .hole _ => 0
  | .data _ _ => 1
  | .record fs => fs.pre ρ
def Fields.pre (ρ : Nat → Schema) : Fields → Nat
  | .nil => 0
  | .cons s fs => s.pre ρ + fs.pre ρ
end

mutual
/-- Bound on the calls not paid for by bytes read; `h` is that of recursive types. -/
def Schema.post (ρ : Nat → Schema) (h : Nat) : Schema → Nat
  | .unit => 0
  | .bool | .int _ | .f64 | .rangedInt _ _ _ | .rangedFloat _ _ | .fixedBytes _ | .fixedString _ | .cstyle _ _ => 1
  | .zarithN | .zarithZ | .bytes | .vecU8 | .string => 2
  | .option s => s.post ρ h + 1
  | .nullable s => s.post ρ h + 1
  | .dynamic _ s => s.post ρ h + 3
  | .vpadded _ s => s.post ρ h + 3
  | .padded _ s => s.post ρ h + 1
  | .seq s => s.post ρ h + 2
  | .fixSeq n s => if (s.fill ρ).nonempty then s.post ρ h + 2 else 2 * ((n + 1) * (s.post ρ h + 1))
  | .limSeq n s => if (s.fill ρ).nonempty then s.post ρ h + 2 else 2 * ((n + 1) * (s.post ρ h + 1))
  | .autobox s => s.post ρ h
  | .hole _ => h
  | .data _ vs => vs.post ρ h + 1
  | .record fs => fs.post ρ h
def Variants.post (ρ : Nat → Schema) (h : Nat) : Variants → Nat
  | .nil => 0
  | .cons _ s vs => s.post ρ h + vs.post ρ h
def Fields.post (ρ : Nat → Schema) (h : Nat) : Fields → Nat
  | .nil => 0
  | .cons s fs => s.post ρ h + fs.post ρ h
end

/-- With the given bounds, after something has been read or before. -/
def Paid {σ α : Type} (R : Bytes → List Bytes → σ → Prop) (B E pre post : Nat) (read : Bool) (f : PM (σ × Nat) α) : Prop :=
  if read then Cost R B post post E f else Cost R B pre (pre + post) (2 * E) f

section
variable {σ : Type} {P : ParserOps σ} {pan : Prop} {R : Bytes → List Bytes → σ → Prop} {B E : Nat}

theorem Paid.of_cost {α : Type} {c : Nat} {f : PM (σ × Nat) α} (read : Bool) (h : ∀ Y, Y ≤ 2 * E → Cost R B c c Y f) :
    Paid R B E c c read f := by
  cases read
  · exact (h (2 * E) (Nat.le_refl _)).mono (Nat.le_refl _) (by omega)
  · exact h E (by omega)

/-- After something that reads. -/
theorem Paid.after {α β : Type} {post : Nat} {f : PM (σ × Nat) α} {g : α → PM (σ × Nat) β} (read : Bool)
    (hf : ∀ Y, Y ≤ 2 * E → Cost R B 1 1 Y f) (hr : Reads R f) (hg : ∀ a, (∃ s st, f s = .ok a st) → Cost R B post post E (g a)) :
    Paid R B E 1 (post + 1) read (f >>= g) := by
  cases read
  · exact .bind_reads (hf (2 * E) (Nat.le_refl _)) hr hg (by omega) (by omega) (by omega)
  · exact .bind_reads (hf E (by omega)) hr hg (by omega) (by omega) (by omega)

theorem Paid.mono {α : Type} {pre post pre' post' : Nat} {f : PM (σ × Nat) α} {read : Bool} (h : Paid R B E pre post read f)
    (h1 : pre ≤ pre') (h2 : post ≤ post') : Paid R B E pre' post' read f := by
  cases read
  · exact Cost.mono h h1 (by omega)
  · exact Cost.mono h h2 (by omega)

theorem Paid.then {α β : Type} {pre post : Nat} {f : PM (σ × Nat) α} {g : α → PM (σ × Nat) β} {read : Bool}
    (hf : Paid R B E pre post read f) (hg : ∀ a X Y, Cost R B 0 X Y (g a)) : Paid R B E pre post read (f >>= g) := by
  cases read
  · exact Cost.then hf fun a => hg a _ _
  · exact Cost.then hf fun a => hg a _ _

variable (L : Lawful P pan R)
include L

theorem Reads.tag (w : TagWidth) (tags : List Nat) : Reads R (ParserOps.takeTagword w (w.parse P.metered) tags) :=
  .of_progress L (Erases.tag P w tags) (.of_refines (Refines.tag (pan' := pan) L w tags) (Tame.tag w tags)) (Progress.tag w tags)

theorem Reads.lenPref (S : LenPref) : Reads R (S.parse P.metered) :=
  .of_progress L (Erases.lenPref P S) (.of_refines (Refines.lenPref (pan' := pan) L S) (Tame.lenPref S)) (Progress.lenPref S)

theorem Cost.tag {Y : Nat} (hY : Y ≤ B) (w : TagWidth) (tags : List Nat) :
    Cost R B 1 1 Y (ParserOps.takeTagword w (w.parse P.metered) tags) :=
  .then (.map _ (.takeFixed L hY (by cases w <;> decide))) fun _ => .ite (.pure _) (.ite (.throw _) (.throw _))

theorem Cost.int {Y : Nat} (hY : Y ≤ B) (t : IntTy) : Cost R B 1 1 Y ((Codec.int t).parse P.metered) :=
  .map _ (.takeFixed L hY (by cases t <;> decide))

theorem Cost.lenPref {Y : Nat} (hY : Y ≤ B) (S : LenPref) : Cost R B 1 1 Y (S.parse P.metered) := by
  cases S
  · exact .map _ (.int L hY _)
  · exact .map _ (.int L hY _)
  · exact .map _ (.then (.int L hY _) fun _ => .ofExcept _ _)

omit L in
theorem LenPref.parse_small (S : LenPref) {s st : σ} {n : Nat} (h : S.parse P s = .ok n st) : n ≤ isizeMax + 1 := by
  have hg := isizeMax_ge
  have key : ∀ (w : Nat) (f : PM σ (BitVec w)), w ≤ 31 → (BitVec.toNat <$> f) s = .ok n st → n ≤ isizeMax + 1 := by
    intro w f hw h
    rw [M.map_run] at h
    cases hf : f s with
    | ok x s' =>
      rw [hf] at h
      have := (Out.ok.inj h).1
      have h1 := x.isLt
      have h2 : 2 ^ w ≤ 2 ^ 31 := Nat.pow_le_pow_right (by omega) hw
      omega
    | _ => rw [hf] at h; cases h
  cases S
  · exact key _ _ (by decide) h
  · exact key _ _ (by decide) h
  · replace h : (BitVec.toNat <$> (Codec.rangedInt .u32 0 u30Max).parse P) s = .ok n st := h
    rw [M.map_run] at h
    simp only [Codec.rangedInt, M.bind_run] at h
    cases hf : (Codec.int .u32).parse P s with
    | ok x s' =>
      rw [hf] at h
      simp only [Out.bind_ok, RangedInt.tryFromUnderlying] at h
      cases hr : restrict (IntTy.u32.toInt x) 0 u30Max with
      | ok u =>
        rw [hr] at h
        have h1 := (restrict_ok_iff.mp hr)
        have h2 : BitVec.toNat x = n := (Out.ok.inj h).1
        have h3 : IntTy.u32.toInt x = (BitVec.toNat x : Int) := rfl
        rw [h3] at h1
        rw [Enc.inRange, if_neg (by decide)] at h1
        have h4 : (BitVec.toNat x : Int) ≤ ((0x3fffffff : Nat) : Int) := h1.2
        omega
      | error e => rw [hr] at h; cases h
    | _ => rw [hf] at h; cases h

theorem Cost.takeRest {Y : Nat} (hY : Y ≤ B) : Cost R B 2 2 Y (P.metered.remainder >>= fun n => P.metered.takeDynamic n) :=
  Cost.remainder (A := 1) (X := 1) L fun _ _ _ _ hr => Cost.consume_le L hY hr (Nat.le_refl _)

variable {ρ ρ' : Nat → Schema} {H : Nat}

omit L in
/-- Reading elements, at most a given number of them. -/
theorem Paid.rounds {α : Type} {pre post n : Nat} {ne read : Bool} {elem : PM (σ × Nat) α}
    {body : List α → PM (σ × Nat) (List α ⊕ List α)} (hb : Rounds R (fun acc => acc.length < n) elem body)
    (he : Paid R B E pre post read elem) (ht : Paid R B E pre post true elem) (hr : ne = true → Reads R elem)
    (hE : post + 1 ≤ E) (hB : 2 * E + 1 ≤ B) :
    Paid R B E (if ne then pre + 2 else (n + 1) * (pre + 1)) (if ne then post + 2 else 2 * ((n + 1) * (post + 1))) read
      (iterM body []) := by
  cases ne with
  | true =>
    simp only [if_true]
    cases read
    · exact (Rounds.cost hb he ht (Rounds.moves_of_reads (hr rfl)) hE (by omega) []).mono (Nat.le_refl _) (by omega)
    · exact Rounds.cost hb he ht (Rounds.moves_of_reads (hr rfl)) hE (by omega) []
  | false =>
    simp only [Bool.false_eq_true, if_false]
    have ht' : Cost R B post post 0 elem := Cost.mono ht (Nat.le_refl _) (by omega)
    cases read
    · exact (Rounds.costMax hb he ht' (Nat.le_refl _)).mono (Nat.le_refl _) (by omega)
    · exact (Rounds.costMax hb he ht' (by omega)).mono (by omega) (by omega)

omit L in
theorem rounds_bound (n p : Nat) : p + 1 ≤ 2 * ((n + 1) * (p + 1)) := by
  have := Nat.mul_le_mul_right (p + 1) (show 1 ≤ n + 1 by omega)
  omega

omit L

theorem Cost.consumeAny {I : Nat → σ → Prop} (S : Sturdy P pan R I) {Y n : Nat} (hB : Y ≤ B) (hn : n < usizeMod) :
    Cost R B 1 1 Y (P.metered.consume n) := by
  intro v vs s k hr
  by_cases hl : n ≤ v.length
  · exact consume_le S.lawful hB hr hl
  · have h := fun a s' => @Sturdy.consumeOver _ _ _ _ _ S v vs s n a s' hr (by omega) hn
    have e : P.metered.consume n = M.metered (P.consume n) := rfl
    rw [e]
    unfold M.metered
    revert h
    dsimp only
    cases P.consume n s with
    | ok a s' => exact fun h => (h a s' rfl).elim
    | err e s' => exact fun _ => .inl (Nat.le_refl _)
    | _ => exact fun _ => trivial

theorem Cost.takeFixedAny {I : Nat → σ → Prop} (S : Sturdy P pan R I) {Y n : Nat} (hB : Y ≤ B) (hn : n < usizeMod) :
    Cost R B 1 1 Y (P.metered.takeFixed n) :=
  .then (.consumeAny S hB hn) fun _ => .ite (.pure _) (.throw _)

/-- A window of any size: if opening it succeeds although it does not fit, then where nothing can be read. -/
theorem Cost.windowAny {α : Type} {Z : σ → Prop} {A X Y n : Nat} {ne : Bool} (L : Lawful P pan R) (W : Wraps P R Z)
    (hn : n < usizeMod) {f : PM (σ × Nat) α} (h : Cost R B A X Y f) (hi : Idle Z A ne f) :
    Cost R B (A + 2) (X + 2) Y (do P.metered.setFit n; let a ← f; P.metered.enforceTarget; Pure.pure a) := by
  intro v vs s k hr
  by_cases hl : n ≤ v.length
  · have hs := L.small hr
    exact Cost.window L (by omega) h v vs s k hr
  · have ho := fun u s' => @Wraps.openOver _ _ _ _ W v vs s n u s' hr (by omega) hn
    have e : P.metered.setFit n = M.metered (P.setFit n) := rfl
    rw [M.bind_run, e]
    unfold M.metered
    revert ho
    dsimp only
    cases P.setFit n s with
    | ok u s' =>
      intro ho
      have hz := ho u s' rfl
      have := ((hi.bind fun a => (Idle.of_metered (f := P.enforceTarget) fun _ _ _ hz => W.enforce hz).stop (ne := true)
        (g := fun _ => Pure.pure a))) s' (k + 1) hz
      rw [Bool.or_true] at this
      rw [Out.bind_ok]
      revert this
      show (match (f >>= fun a => P.metered.enforceTarget >>= fun _ => Pure.pure a) (s', k + 1) with
        | .ok _ st => true = false ∧ st.1 = s' ∧ st.2 ≤ k + 1 + (A + 1)
        | .err _ st => st.2 ≤ k + 1 + (A + 1)
        | _ => True) → _
      cases (f >>= fun a => P.metered.enforceTarget >>= fun _ => Pure.pure a) (s', k + 1) with
      | ok a st => exact fun h => nomatch h.1
      | err e st => intro h; dsimp only at h; exact .inl (by omega)
      | _ => exact fun _ => trivial
    | err e s' => intro _; exact .inl (by show k + 1 ≤ _; omega)
    | _ => exact fun _ => trivial

theorem rounds_le (n : Nat) {c c' : Nat} {ne ne' : Bool} (h : c ≤ c') (hne : ne = true → ne' = true) :
    (if decide (0 < n) && ne' then c + 1 else (n + 1) * (c + 1)) ≤ (if ne then c' + 2 else (n + 1) * (c' + 1)) := by
  have h1 : c + 1 ≤ (n + 1) * (c' + 1) := by
    have := Nat.mul_le_mul_right (c' + 1) (show 1 ≤ n + 1 by omega)
    omega
  have h2 : (n + 1) * (c + 1) ≤ (n + 1) * (c' + 1) := Nat.mul_le_mul_left _ (by omega)
  cases ne with
  | false =>
    simp only [Bool.false_eq_true, if_false]
    split <;> assumption
  | true =>
    rw [hne rfl]
    cases n with
    | zero => simp; omega
    | succ n => simp; omega

variable {I : Nat → σ → Prop} {Z : σ → Prop} (S : Sturdy P pan R I) (W : Wraps P R Z)

section
include W

theorem Idle.fix {α : Type} {c n : Nat} {ne : Bool} {f : PM (σ × Nat) α} (hf : Idle Z c ne f) :
    Idle Z (if decide (0 < n) && ne then c + 1 else (n + 1) * (c + 1)) (decide (0 < n) && ne)
      (iterM (Codec.fixBody n P.metered f) []) := by
  refine rounds (by simp +contextual) fun acc s k hz => ?_
  have h := @W.remainder s
  have e : P.metered.remainder = M.metered P.remainder := rfl
  simp only [Codec.fixBody, M.bind_run, e]
  unfold M.metered
  revert h
  dsimp only
  cases P.remainder s with
  | ok r s' =>
    intro h
    obtain ⟨h1, rfl⟩ := h hz rfl
    rw [Out.bind_ok]
    by_cases hl : acc.length < n
    · have hi := hf s' (k + 1) hz
      simp only [ne_eq, h1, not_false_eq_true, hl, and_self, if_true, M.bind_run, Codec.tryPush, M.pure_run]
      revert hi
      cases f (s', k + 1) with
      | ok a st =>
        rintro ⟨h2, h3, h4⟩
        exact ⟨by rw [h2, Bool.and_false], h3, by omega, by simp, trivial⟩
      | err e st => intro h; dsimp only at h; show st.2 ≤ _; omega
      | _ => exact fun _ => trivial
    · simp only [hl, and_false, if_false, M.pure_run]
      exact ⟨trivial, Nat.le_refl _, by omega⟩
  | err e s' => intro _; show k + 1 ≤ _; omega
  | _ => exact fun _ => trivial

theorem Idle.lim {α : Type} {c n : Nat} {ne : Bool} {f : PM (σ × Nat) α} (hf : Idle Z c ne f) :
    Idle Z (if decide (0 < n) && ne then c + 1 else (n + 1) * (c + 1)) (decide (0 < n) && ne)
      (iterM (Codec.limBody n P.metered f) []) := by
  refine rounds (by simp +contextual) fun acc s k hz => ?_
  have h := @W.remainder s
  have e : P.metered.remainder = M.metered P.remainder := rfl
  simp only [Codec.limBody, M.bind_run, e]
  unfold M.metered
  revert h
  dsimp only
  cases P.remainder s with
  | ok r s' =>
    intro h
    obtain ⟨h1, rfl⟩ := h hz rfl
    rw [Out.bind_ok]
    have hi := hf s' (k + 1) hz
    simp only [ne_eq, h1, not_false_eq_true, if_true, M.bind_run]
    revert hi
    cases f (s', k + 1) with
    | ok a st =>
      rintro ⟨h2, h3, h4⟩
      rw [Out.bind_ok]
      unfold Codec.tryPush
      by_cases hl : acc.length < n
      · simp only [hl, if_true, M.pure_run, Out.bind_ok]
        exact ⟨by rw [h2, Bool.and_false], h3, by omega, by simp, trivial⟩
      · simp only [hl, if_false]
        show st.2 ≤ _
        omega
    | err e st => intro h; dsimp only at h; show st.2 ≤ _; omega
    | _ => exact fun _ => trivial
  | err e s' => intro _; show k + 1 ≤ _; omega
  | _ => exact fun _ => trivial

mutual
/-- Where nothing can be read, every decoder makes a bounded number of calls. -/
theorem Schema.idle (cfg : Cfg) (hn : ∀ i, (ρ i).nonempty = true → (ρ' i).nonempty = true)
    (hz : ∀ i, Idle Z H (ρ' i).nonempty (((ρ' i).codec cfg).parse P.metered)) :
    ∀ (s : Schema) (read : Bool), s.paced ρ read = true →
      Idle Z (if read then s.post ρ H else s.pre ρ) (s.fill ρ').nonempty (((s.fill ρ').codec cfg).parse P.metered)
  | .unit, read, _ => (Idle.pure ()).mono (Nat.zero_le _) nofun
  | .bool, read, _ => Idle.stop (ne := true) ((Idle.byte W).mono (by cases read <;> exact Nat.le_refl _) (fun h => h))
  | .int t, read, _ => Idle.stop (ne := true) ((Idle.takeFixed W _).mono (by cases read <;> exact Nat.le_refl _) (fun h => h))
  | .f64, read, _ => Idle.stop (ne := true) ((Idle.takeFixed W _).mono (by cases read <;> exact Nat.le_refl _) (fun h => h))
  | .rangedInt t _ _, read, _ =>
    Idle.stop (ne := true) (Idle.stop (ne := true) ((Idle.takeFixed W _).mono (by cases read <;> exact Nat.le_refl _) (fun h => h)))
  | .rangedFloat _ _, read, _ =>
    Idle.stop (ne := true) (Idle.stop (ne := true) ((Idle.takeFixed W _).mono (by cases read <;> exact Nat.le_refl _) (fun h => h)))
  | .zarithN, read, _ => Idle.stop (ne := true) ((Idle.selfTerminating W _).mono (by cases read <;> exact Nat.le_refl _) (fun h => h))
  | .zarithZ, read, _ => Idle.stop (ne := true) ((Idle.selfTerminating W _).mono (by cases read <;> exact Nat.le_refl _) (fun h => h))
  | .bytes, read, _ => (Idle.remainder (c := 1) (ne := true) W fun n _ => Idle.take W n).mono (by cases read <;> exact Nat.le_refl _) nofun
  | .vecU8, read, _ => (Idle.remainder (c := 1) (ne := true) W fun n _ => Idle.take W n).mono (by cases read <;> exact Nat.le_refl _) nofun
  | .string, read, _ => (Idle.remainder (c := 1) (ne := true) W fun n _ => Idle.stop (Idle.take W n)).mono (by cases read <;> exact Nat.le_refl _) nofun
  | .fixedBytes n, read, _ => (Idle.stop (ne := true) (Idle.takeFixed W n)).mono (by cases read <;> exact Nat.le_refl _) fun _ => rfl
  | .fixedString n, read, _ => (Idle.stop (ne := true) (Idle.takeFixed W n)).mono (by cases read <;> exact Nat.le_refl _) fun _ => rfl
  | .cstyle w tags, read, _ => Idle.stop (ne := true) ((Idle.tag W w tags).mono (by cases read <;> exact Nat.le_refl _) fun _ => rfl)
  | .option s, read, _ => Idle.stop (ne := true) ((Idle.tag W _ _).mono (by cases read <;> simp [Schema.pre, Schema.post]) fun _ => rfl)
  | .nullable s, read, h => by
    have ih := s.idle cfg hn hz read h
    refine (Idle.remainder (ne := false) W fun n hn => ?_).mono (c := (if read then s.post ρ H else s.pre ρ) + 1)
      (by cases read <;> exact Nat.le_refl _) nofun
    exact Idle.ite ((ih.then_ fun a => Idle.pure _).mono (Nat.le_refl _) nofun) ((Idle.pure _).mono (Nat.zero_le _) nofun)
  | .dynamic S s, read, _ => Idle.stop (ne := true) ((Idle.lenPref W S).mono (by cases read <;> simp [Schema.pre, Schema.post]) fun _ => rfl)
  | .vpadded n s, read, h => by
    simp only [Schema.paced, Bool.and_eq_true] at h
    have ih := s.idle cfg hn hz read h.2
    refine (Idle.remainder (ne := true) W fun r hr => ?_).mono (c := (if read then s.post ρ H else s.pre ρ) + 2 + 1)
      (by cases read <;> exact Nat.le_refl _) fun _ => rfl
    refine Idle.ite .panic ?_
    cases usub cfg.prof r n with
    | none => exact .panic
    | some m => exact Idle.window W _ ih
  | .padded n s, read, h => by
    simp only [Schema.paced, Bool.and_eq_true] at h
    have ih := s.idle cfg hn hz read h.2
    exact (ih.bind fun a => Idle.stop (ne := true) (Idle.take W n)).mono (by cases read <;> exact Nat.le_refl _) fun _ => by simp
  | .seq s, read, h => by
    have ih := s.idle cfg hn hz read h
    exact (Idle.seq W (Erases.schema P cfg (s.fill ρ')) ih).mono (by cases read <;> simp [Schema.pre, Schema.post]) nofun
  | .fixSeq n s, read, h => by
    have ih := s.idle cfg hn hz read h
    have h2 := rounds_le n (Nat.le_refl (if read then s.post ρ H else s.pre ρ)) (s.nonempty_fill hn)
    refine ((Idle.fix (n := n) W ih).then_ fun _ => Idle.ite (Idle.pure _) (Idle.throw _)).mono (Nat.le_trans h2 ?_) fun h => h
    cases read <;> simp only [Bool.false_eq_true, if_false, if_true, Schema.pre, Schema.post]
    · exact Nat.le_refl _
    · split <;> omega
  | .limSeq n s, read, h => by
    have ih := s.idle cfg hn hz read h
    have h2 := rounds_le n (Nat.le_refl (if read then s.post ρ H else s.pre ρ)) (s.nonempty_fill hn)
    refine (Idle.lim (n := n) W ih).mono (Nat.le_trans h2 ?_) nofun
    cases read <;> simp only [Bool.false_eq_true, if_false, if_true, Schema.pre, Schema.post]
    · exact Nat.le_refl _
    · split <;> omega
  | .autobox s, read, h => s.idle cfg hn hz read h
  | .hole i, read, h => by
    have h : read = true := h
    subst h
    exact hz i
  | .data w vs, read, _ => Idle.stop (ne := true) ((Idle.tag W _ _).mono (by cases read <;> simp [Schema.pre, Schema.post]) fun _ => rfl)
  | .record fs, read, h => fs.idle cfg hn hz read h
theorem Fields.idle (cfg : Cfg) (hn : ∀ i, (ρ i).nonempty = true → (ρ' i).nonempty = true)
    (hz : ∀ i, Idle Z H (ρ' i).nonempty (((ρ' i).codec cfg).parse P.metered)) :
    ∀ (fs : Fields) (read : Bool), fs.paced ρ read = true →
      Idle Z (if read then fs.post ρ H else fs.pre ρ) (fs.fill ρ').nonempty (((fs.fill ρ').codec cfg).parse P.metered)
  | .nil, read, _ => (Idle.pure ()).mono (Nat.zero_le _) nofun
  | .cons s fs, read, h => by
    simp only [Fields.paced, Bool.and_eq_true] at h
    have h1 := s.idle cfg hn hz read h.1
    by_cases hs : (s.fill ρ).nonempty = true
    · have hs' := s.nonempty_fill hn hs
      rw [hs'] at h1
      exact (Idle.stop (ne := true) h1).mono (by cases read <;> simp [Fields.pre, Fields.post]) fun _ => rfl
    · rw [Bool.eq_false_iff.mpr hs, Bool.or_false] at h
      have h2 := fs.idle cfg hn hz read h.2
      exact (h1.bind fun _ => h2.then_ fun _ => Idle.pure _).mono (by cases read <;> exact Nat.le_refl _) fun h => h
end
end

section
include S W

mutual
theorem Schema.paid (cfg : Cfg) (hB : 2 * E + 1 ≤ B) (hn : ∀ i, (ρ i).nonempty = true → (ρ' i).nonempty = true)
    (ht : ∀ i, (ρ' i).sized = true)
    (hz : ∀ i, Idle Z H (ρ' i).nonempty (((ρ' i).codec cfg).parse P.metered)) (hh : ∀ i, Cost R B H H E (((ρ' i).codec cfg).parse P.metered)) :
    ∀ (s : Schema) (read : Bool), s.paced ρ read = true → s.post ρ H + 1 ≤ E →
      Paid R B E (s.pre ρ) (s.post ρ H) read (((s.fill ρ').codec cfg).parse P.metered)
  | .unit, read, _, _ => .of_cost read fun _ _ => .pure _
  | .bool, read, _, _ => .of_cost read fun _ _ => .then (.consumeByte S.lawful (by omega)) fun _ =>
      .ite (.pure _) (.ite (.pure _) (.throw _))
  | .int t, read, _, _ => .of_cost read fun _ _ => .int S.lawful (by omega) t
  | .f64, read, _, _ => .of_cost read fun _ _ => .int S.lawful (by omega) _
  | .rangedInt t min max, read, _, _ => .of_cost read fun _ _ => .then (.int S.lawful (by omega) _) fun _ => .ofExcept _ _
  | .rangedFloat min max, read, _, _ => .of_cost read fun _ _ => .then (.int S.lawful (by omega) _) fun _ => .ofExcept _ _
  | .zarithN, read, _, _ => .of_cost read fun _ _ => .then (.selfTerminating S.lawful (by omega) _) fun _ => .ofOption _
  | .zarithZ, read, _, _ => .of_cost read fun _ _ => .then (.selfTerminating S.lawful (by omega) _) fun _ => .ofOption _
  | .bytes, read, _, _ => .of_cost read fun _ _ => .takeRest S.lawful (by omega)
  | .vecU8, read, _, _ => .of_cost read fun _ _ => .takeRest S.lawful (by omega)
  | .string, read, _, _ => .of_cost read fun _ _ => Cost.remainder (A := 1) (X := 1) S.lawful fun v vs s k hr => by
      rename_i Y hY
      have h1 := Cost.consume_le (k := k) S.lawful (show Y ≤ B by omega) hr (Nat.le_refl _)
      rw [M.bind_run]
      show Within 1 1 Y B R v vs k ((P.metered.consume v.length (s, k)).bind _)
      revert h1
      cases P.metered.consume v.length (s, k) with
      | _ => exact fun h => h
  | .fixedBytes n, read, h, _ => .of_cost read fun _ _ => .then (.takeFixedAny S (by omega) (of_decide_eq_true h)) fun _ =>
      .dite (fun _ => .pure _) fun _ => .panic
  | .fixedString n, read, h, _ => .of_cost read fun _ _ => .then (.takeFixedAny S (by omega) (of_decide_eq_true h)) fun _ =>
      .dite (fun _ => .pure _) fun _ => .panic
  | .cstyle w tags, read, _, _ => .of_cost read fun _ _ => .then (.tag S.lawful (by omega) w tags) fun _ =>
      .dite (fun _ => .pure _) fun _ => .panic
  | .option s, read, h, hE => by
    have ih : Cost R B _ _ E _ := s.paid cfg hB hn ht hz hh true h (by simp only [Schema.post] at hE; omega)
    exact .after read (fun _ _ => .tag S.lawful (by omega) _ _) (.tag S.lawful _ _) fun _ _ =>
      .ite (.then ih fun _ => .pure _) (.ite ((Cost.pure _).mono (Nat.zero_le _) (Nat.le_refl _)) (Cost.panic.mono (Nat.zero_le _) (Nat.le_refl _)))
  | .nullable s, read, h, hE => by
    have ih := s.paid cfg hB hn ht hz hh read h (by simp only [Schema.post] at hE; omega)
    have key : ∀ {A X Y : Nat}, Cost R B A X Y (((s.fill ρ').codec cfg).parse P.metered) →
        Cost R B (A + 1) (X + 1) Y ((Codec.nullable ((s.fill ρ').codec cfg)).parse P.metered) := fun {A X Y} hc =>
      Cost.remainder S.lawful fun v vs s k hr =>
        Cost.ite (.then hc fun _ => .pure _) ((Cost.pure (X := X) _).mono (Nat.zero_le _) (Nat.le_refl _)) v vs s k hr
    cases read
    · exact (key ih).mono (Nat.le_refl _) (by simp only [Schema.pre, Schema.post]; omega)
    · exact key ih
  | .dynamic T s, read, h, hE => by
    have ih : Cost R B _ _ E _ := s.paid cfg hB hn ht hz hh true h (by simp only [Schema.post] at hE; omega)
    exact .after read (fun _ _ => .lenPref S.lawful (by omega) T) (.lenPref S.lawful T) fun n ⟨_, _, he⟩ =>
      Cost.window S.lawful (LenPref.parse_small T he) ih
  | .vpadded n s, read, h, hE => by
    simp only [Schema.paced, Bool.and_eq_true] at h
    have ih := s.paid cfg hB hn ht hz hh read h.2 (by simp only [Schema.post] at hE; omega)
    have hi := s.idle W cfg hn hz read h.2
    have key : ∀ {A X Y : Nat} {ne : Bool}, Cost R B A X Y (((s.fill ρ').codec cfg).parse P.metered) →
        Idle Z A ne (((s.fill ρ').codec cfg).parse P.metered) →
        Cost R B (A + 3) (X + 3) Y ((Codec.vpadded cfg n ((s.fill ρ').codec cfg)).parse P.metered) := fun {A X Y ne} hc hi =>
      Cost.remainder (A := A + 2) (X := X + 2) S.lawful fun v vs s k hr => by
        have hl := S.lawful.small hr
        split
        · trivial
        · cases hu : usub cfg.prof v.length n with
          | none => trivial
          | some m =>
            have hm : m < usizeMod := by
              have hmod := usizeMod_eq
              simp only [usub] at hu
              split at hu
              · cases hu; omega
              · cases hp : cfg.prof with
                | debug => rw [hp] at hu; cases hu
                | release =>
                  rw [hp] at hu
                  have := Option.some.inj hu
                  have h1 := of_decide_eq_true h.1
                  rw [← this]
                  exact Nat.mod_lt _ (by omega)
            exact Cost.windowAny S.lawful W hm hc hi v vs s k hr
    cases read
    · exact (key ih hi).mono (Nat.le_refl _) (by simp only [Schema.pre, Schema.post]; omega)
    · exact key ih hi
  | .padded n s, read, h, hE => by
    simp only [Schema.paced, Bool.and_eq_true] at h
    have ih := s.paid cfg hB hn ht hz hh read h.2 (by simp only [Schema.post] at hE; omega)
    cases read
    · exact .bind (A2 := 1) (X2 := 1) (Y2 := 2 * E) ih (fun _ => .then (.consumeAny S (by omega) (of_decide_eq_true h.1)) fun _ =>
        .ite (.throw _) (.pure _)) (Nat.le_refl _) (by simp only [Schema.pre, Schema.post]; omega) (by simp only [Schema.pre, Schema.post]; omega) (by simp only [Schema.pre, Schema.post]; omega)
    · exact .bind (A2 := 1) (X2 := 1) (Y2 := E) ih (fun _ => .then (.consumeAny S (by omega) (of_decide_eq_true h.1)) fun _ =>
        .ite (.throw _) (.pure _)) (Nat.le_refl _) (by simp only [Schema.post]; omega) (by simp only [Schema.post]; omega) (by simp only [Schema.post]; omega)
  | .seq s, read, h, hE => by
    have hE' : s.post ρ H + 1 ≤ E := by simp only [Schema.post] at hE; omega
    have ih := s.paid cfg hB hn ht hz hh read h hE'
    have ih' : Cost R B _ _ E _ := s.paid cfg hB hn ht hz hh true (s.sized_paced (s.paced_sized read h)) hE'
    have hm := Rounds.moves_seq S.lawful ((s.fill ρ').parses cfg S.lawful.metered) (Erases.schema P cfg _)
      (Schema.sound S cfg _ (s.sized_fill ht (s.paced_sized read h))) ((s.fill ρ').readsPrefix cfg)
    cases read
    · exact (Rounds.cost (.seq S.lawful _) ih ih' hm hE' (by omega) []).mono (Nat.le_refl _) (by simp only [Schema.pre, Schema.post]; omega)
    · exact Rounds.cost (.seq S.lawful _) ih ih' hm hE' (by omega) []
  | .fixSeq n s, read, h, hE => by
    have hE' : s.post ρ H + 1 ≤ E := by
      simp only [Schema.post] at hE
      split at hE
      · omega
      · have := rounds_bound n (s.post ρ H); omega
    have ih := s.paid cfg hB hn ht hz hh read h hE'
    have ih' := s.paid cfg hB hn ht hz hh true (s.sized_paced (s.paced_sized read h)) hE'
    have hr : (s.fill ρ).nonempty = true → Reads R (((s.fill ρ').codec cfg).parse P.metered) := fun hne =>
      .of_progress S.lawful (Erases.schema P cfg _) (Schema.sound S cfg _ (s.sized_fill ht (s.paced_sized read h))) ((s.fill ρ').progress cfg (s.nonempty_fill hn hne))
    exact .then (.rounds (.fix S.lawful n _) ih ih' hr hE' hB) fun _ _ _ => .ite (.pure _) (.throw _)
  | .limSeq n s, read, h, hE => by
    have hE' : s.post ρ H + 1 ≤ E := by
      simp only [Schema.post] at hE
      split at hE
      · omega
      · have := rounds_bound n (s.post ρ H); omega
    have ih := s.paid cfg hB hn ht hz hh read h hE'
    have ih' := s.paid cfg hB hn ht hz hh true (s.sized_paced (s.paced_sized read h)) hE'
    have hr : (s.fill ρ).nonempty = true → Reads R (((s.fill ρ').codec cfg).parse P.metered) := fun hne =>
      .of_progress S.lawful (Erases.schema P cfg _) (Schema.sound S cfg _ (s.sized_fill ht (s.paced_sized read h))) ((s.fill ρ').progress cfg (s.nonempty_fill hn hne))
    exact .rounds (.lim S.lawful n _) ih ih' hr hE' hB
  | .autobox s, read, h, hE => s.paid cfg hB hn ht hz hh read h hE
  | .hole i, read, h, _ => by
    have h : read = true := h
    subst h
    exact hh i
  | .data w vs, read, h, hE => .after read (fun _ _ => .tag S.lawful (by omega) _ _) (.tag S.lawful _ _) fun t _ =>
      vs.paid cfg hB hn ht hz hh h (by simp only [Schema.post] at hE; omega) t
  | .record fs, read, h, hE => fs.paid cfg hB hn ht hz hh read h hE
theorem Variants.paid (cfg : Cfg) (hB : 2 * E + 1 ≤ B) (hn : ∀ i, (ρ i).nonempty = true → (ρ' i).nonempty = true)
    (ht : ∀ i, (ρ' i).sized = true)
    (hz : ∀ i, Idle Z H (ρ' i).nonempty (((ρ' i).codec cfg).parse P.metered)) (hh : ∀ i, Cost R B H H E (((ρ' i).codec cfg).parse P.metered)) :
    ∀ (vs : Variants), vs.paced ρ true = true → vs.post ρ H + 1 ≤ E →
      ∀ t, Cost R B (vs.post ρ H) (vs.post ρ H) E (((vs.fill ρ').codec cfg).parse P.metered t)
  | .nil, _, _, _ => .panic
  | .cons tag s vs, h, hE, t => by
    simp only [Variants.paced, Bool.and_eq_true] at h
    simp only [Variants.post] at hE
    have h1 : Cost R B _ _ E _ := s.paid cfg hB hn ht hz hh true h.1 (by omega)
    have h2 := vs.paid cfg hB hn ht hz hh h.2 (by omega) t
    exact .ite (.then (h1.mono (by simp only [Variants.post]; omega) (by simp only [Variants.post]; omega)) fun _ => .pure _)
      (.then (h2.mono (by simp only [Variants.post]; omega) (by simp only [Variants.post]; omega)) fun _ => .pure _)
theorem Fields.paid (cfg : Cfg) (hB : 2 * E + 1 ≤ B) (hn : ∀ i, (ρ i).nonempty = true → (ρ' i).nonempty = true)
    (ht : ∀ i, (ρ' i).sized = true)
    (hz : ∀ i, Idle Z H (ρ' i).nonempty (((ρ' i).codec cfg).parse P.metered)) (hh : ∀ i, Cost R B H H E (((ρ' i).codec cfg).parse P.metered)) :
    ∀ (fs : Fields) (read : Bool), fs.paced ρ read = true → fs.post ρ H + 1 ≤ E →
      Paid R B E (fs.pre ρ) (fs.post ρ H) read (((fs.fill ρ').codec cfg).parse P.metered)
  | .nil, read, _, _ => .of_cost read fun _ _ => .pure _
  | .cons s fs, read, h, hE => by
    simp only [Fields.paced, Bool.and_eq_true] at h
    simp only [Fields.post] at hE
    have h1 := s.paid cfg hB hn ht hz hh read h.1 (by omega)
    have h2 := fs.paid cfg hB hn ht hz hh _ h.2 (by omega)
    cases read with
    | true =>
      rw [Bool.true_or] at h2
      exact .bind h1 (fun _ => .then h2 fun _ => .pure _) (Nat.le_refl _) (by simp only [Fields.post]; omega)
        (by simp only [Fields.post]; omega) (by simp only [Fields.post]; omega)
    | false =>
      rw [Bool.false_or] at h2
      cases hs : (s.fill ρ).nonempty with
      | false =>
        rw [hs] at h2
        exact .bind h1 (fun _ => .then h2 fun _ => .pure _) (Nat.le_refl _) (by simp only [Fields.pre, Fields.post]; omega)
          (by simp only [Fields.pre, Fields.post]; omega) (by simp only [Fields.pre, Fields.post]; omega)
      | true =>
        rw [hs] at h2
        have hr : Reads R (((s.fill ρ').codec cfg).parse P.metered) :=
          .of_progress S.lawful (Erases.schema P cfg _) (Schema.sound S cfg _ (s.sized_fill ht (s.paced_sized false h.1))) ((s.fill ρ').progress cfg (s.nonempty_fill hn hs))
        exact .bind_reads h1 hr (fun _ _ => .then h2 fun _ => .pure _) (by simp only [Fields.pre]; omega)
          (by simp only [Fields.pre, Fields.post]; omega) (by simp only [Fields.pre, Fields.post]; omega)
end

/-- Types that are not recursive (in place of mentioned types there is code that does not return). -/
theorem Schema.cost (cfg : Cfg) (s : Schema) (h : s.sized = true) {a : Nat} (ha : a = s.post .hole 0) :
    Cost R (2 * a + 3) a a (a + 1) ((s.codec cfg).parse P.metered) := by
  have h1 := s.paid (B := 2 * a + 3) (E := a + 1) (ρ := .hole) (ρ' := .hole) (H := 0) S W cfg (by omega) (fun _ h => h)
    (fun _ => rfl) (fun _ => Idle.diverge) (fun _ => Cost.diverge) true (s.sized_paced h) (by omega)
  rw [s.fill_hole, ← ha] at h1
  exact h1

omit S W in
theorem Decls.Paced.of_guarded {d : Decls} (h : d.Guarded) : d.Paced := fun i => (d.body i).guarded_paced false (h i)

omit S in
theorem Decls.idle (d : Decls) (cfg : Cfg) (hs : d.Stable) (hg : d.Paced) (h1 : ∀ i, (d.body i).pre d.body ≤ H) : ∀ n i,
    Idle Z H (d.unfold n i).nonempty (((d.unfold n i).codec cfg).parse P.metered)
  | 0, _ => Idle.diverge
  | n + 1, i => ((d.body i).idle W cfg (fun _ hj => d.nonempty hs hj n) (d.idle cfg hs hg h1 n) false (hg i)).mono (h1 i) fun h => h

/-- Recursive types: the same bound for all unfoldings. -/
theorem Decls.cost (d : Decls) (cfg : Cfg) (hs : d.Stable) (hg : d.Paced) {B E : Nat}
    (h1 : ∀ i, (d.body i).pre d.body ≤ H) (h2 : ∀ i, (d.body i).post d.body H + 1 ≤ E) (hB : 2 * E + 1 ≤ B) : ∀ n i,
    Cost R B H H E (((d.unfold n i).codec cfg).parse P.metered)
  | 0, _ => Cost.diverge.mono (Nat.zero_le _) (Nat.le_refl _)
  | n + 1, i => by
    have h := (d.body i).paid (ρ' := d.unfold n) S W cfg hB (fun _ hj => d.nonempty hs hj n) (d.sized (fun j => (d.body j).paced_sized false (hg j)) n)
      (d.idle W cfg hs hg h1 n) (d.cost cfg hs hg h1 h2 hB n) false (hg i) (h2 i)
    have h3 := h1 i
    have h4 := h2 i
    have h5 : (d.body i).pre d.body + (d.body i).post d.body H + E ≤ H + 2 * E := by omega
    exact Cost.mono h h3 h5

end
end

theorem bounded_of_mem {α : Type} (f : α → Nat) : ∀ l : List α, ∃ m, ∀ x ∈ l, f x ≤ m
  | [] => ⟨0, nofun⟩
  | y :: l => by
    obtain ⟨m, hm⟩ := bounded_of_mem f l
    refine ⟨max (f y) m, fun x hx => ?_⟩
    rcases List.mem_cons.mp hx with rfl | hx
    · omega
    · have := hm x hx; omega

/-- Counting calls does not change what the recursive decoder does. -/
theorem Erases.decls {σ : Type} (P : ParserOps σ) (d : Decls) (cfg : Cfg) (i : Nat) :
    Erases ((d.codec cfg i).parse P.metered) ((d.codec cfg i).parse P) := by
  intro s k
  by_cases hex : ∃ n, ((d.unfold n i).codec cfg).parse P s ≠ .diverge
  · obtain ⟨n, hn⟩ := hex
    have he := Erases.schema P cfg (d.unfold n i) s k
    have hn' : ((d.unfold n i).codec cfg).parse P.metered (s, k) ≠ .diverge := fun h => hn (by rw [← he, h]; rfl)
    rw [d.parse_eq hn, d.parse_eq hn']
    exact Erases.map _ (Erases.schema P cfg (d.unfold n i)) s k
  · have h1 : ∀ n, ((d.unfold n i).codec cfg).parse P s = .diverge := fun n => Classical.byContradiction fun h => hex ⟨n, h⟩
    have h2 : ∀ n, ((d.unfold n i).codec cfg).parse P.metered (s, k) = .diverge := fun n => by
      have he := Erases.schema P cfg (d.unfold n i) s k
      rw [h1] at he
      revert he
      cases ((d.unfold n i).codec cfg).parse P.metered (s, k) with
      | diverge => exact fun _ => rfl
      | _ => exact fun h => nomatch h
    have e1 : (d.codec cfg i).parse P s = .diverge := dif_neg hex
    have e2 : (d.codec cfg i).parse P.metered (s, k) = .diverge := dif_neg fun ⟨n, hn⟩ => hn (h2 n)
    rw [e1, e2]; rfl

end Verif
