import Verif.Spec.Windowless
import Verif.Lemmas.HandWritten
/-
Catching errors of code without windows.
-/
namespace Verif

variable {α β : Type} {σ : Type}

/-! ### how catching goes with control flow -/

/-- How to go on after an error was caught. -/
def M.orNone (o : Option α) (k : α → PM σ (Option β)) : PM σ (Option β) :=
  match o with
  | none => pure none
  | some a => k a

theorem caught_bind (m : PM σ α) (k : α → PM σ β) :
    M.caught (m >>= k) = M.caught m >>= fun o => M.orNone o fun a => M.caught (k a) := by
  funext s
  show M.caught (fun s => (m s).bind k) s = (M.caught m s).bind _
  simp only [M.caught]
  generalize m s = o
  cases o <;> rfl

theorem caught_pure (a : α) : M.caught (pure a : PM σ α) = pure (some a) := rfl
theorem caught_throw (e : ParseError) : M.caught (M.throw e : PM σ α) = pure none := rfl
theorem caught_panic : M.caught (M.panic : PM σ α) = M.panic := rfl

theorem caught_caught (m : PM σ α) : M.caught (M.caught m) = M.caught m >>= fun o => pure (some o) := by
  funext s
  show M.caught (M.caught m) s = (M.caught m s).bind _
  simp only [M.caught]
  generalize m s = o
  cases o <;> rfl

/-- A round of a loop whose errors are caught. -/
def M.lastRound : Option (β ⊕ α) → β ⊕ Option α
  | none => .inr none
  | some (.inl b) => .inl b
  | some (.inr a) => .inr (some a)

theorem caught_iterN (body : β → PM σ (β ⊕ α)) : ∀ (n : Nat) (b : β) (s : σ),
    iterN (fun b => M.caught (body b) >>= fun o => pure (M.lastRound o)) n b s = (iterN body n b s).map fun o => M.caught (fun _ => o) s
  | 0, _, _ => rfl
  | n + 1, b, s => by
    have e : (M.caught (body b) >>= fun o => pure (M.lastRound o) : PM σ (β ⊕ Option α)) s =
      (M.caught (body b) s).bind fun o s => .ok (M.lastRound o) s := rfl
    simp only [iterN, e]
    unfold M.caught
    cases body b s with
    | ok r s' =>
      cases r with
      | inl b' =>
        have ih := caught_iterN body n b' s'
        simp only [Out.bind, M.lastRound]
        refine Eq.trans ih ?_
        cases iterN body n b' s' with
        | none => rfl
        | some o => cases o <;> rfl
      | inr a => rfl
    | _ => rfl

theorem caught_iterM (body : β → PM σ (β ⊕ α)) (b : β) :
    M.caught (iterM body b) = iterM (fun b => M.caught (body b) >>= fun o => pure (M.lastRound o)) b := by
  funext s
  by_cases h : ∃ n o, iterN body n b s = some o
  · obtain ⟨n, o, h⟩ := h
    have e := caught_iterN body n b s
    rw [h] at e
    rw [iterM_of_iterN e]
    show M.caught _ s = M.caught _ s
    unfold M.caught
    rw [iterM_of_iterN h]
  · have hn : ∀ n, iterN body n b s = none := fun n => by
      cases h' : iterN body n b s with
      | none => rfl
      | some o => exact absurd ⟨n, o, h'⟩ h
    rw [iterM_eq_diverge fun n => by rw [caught_iterN, hn n]; rfl]
    unfold M.caught
    rw [iterM_eq_diverge hn]

theorem caught_deeper {f : Nat → PM σ α} (hs : ∀ n s, f n s = .diverge ∨ f (n + 1) s = f n s) (n : Nat) (s : σ) :
    M.caught (f n) s = .diverge ∨ M.caught (f (n + 1)) s = M.caught (f n) s := by
  unfold M.caught
  rcases hs n s with h | h
  · rw [h]; exact .inl rfl
  · rw [h]; exact .inr rfl

theorem caught_recM {f : Nat → PM σ α} (hs : ∀ n s, f n s = .diverge ∨ f (n + 1) s = f n s) :
    M.caught (recM f) = recM fun n => M.caught (f n) := by
  funext s
  have key : ∀ n, M.caught (f n) s = .diverge ↔ f n s = .diverge := fun n => by
    unfold M.caught
    cases f n s <;> simp
  rcases recM_cases hs s with ⟨n, h1, h2⟩ | ⟨h1, h2⟩
  · rw [recM_eq (f := fun n => M.caught (f n)) (fun n s => caught_deeper hs n s) (n := n) fun h => h1 ((key n).mp h)]
    unfold M.caught
    rw [h2]
  · rcases recM_cases (f := fun n => M.caught (f n)) (fun n s => caught_deeper hs n s) s with ⟨n, h3, _⟩ | ⟨_, h3⟩
    · exact absurd ((key n).mpr (h1 n)) h3
    · rw [h3]
      unfold M.caught
      rw [h2]

/-! ### plain code, and plain code whose errors are caught, is composed -/

theorem ReadCall.composed {E : ParseError → Prop} {f : ParseFn α} {Q : α → Prop} (h : ReadCall f Q) : Composed E f Q := by
  cases h with
  | remainder => exact .remainder
  | consumeByte => exact .consumeByte
  | consume n h => exact .consume n h
  | skip n => exact .skip n
  | skipExactly n h => exact .skipExactly n h

theorem Plain.both {f : ParseFn α} {Q : α → Prop} (h : Plain f Q) :
    Composed (fun _ => True) f Q ∧
      ∀ E : ParseError → Prop, Composed E (fun σ P => M.caught (f σ P)) fun o => ∀ a, o = some a → Q a := by
  induction h with
  | pure a h => exact ⟨.pure a h, fun _ => .pure (some a) fun b e => by cases e; exact h⟩
  | @bind α β Q Q' f g _ _ ihf ihg =>
    refine ⟨.bind ihf.1 fun a ha => (ihg a ha).1, fun E => ?_⟩
    simp only [caught_bind]
    refine .bind (ihf.2 E) fun o ho => ?_
    cases o with
    | none => exact .pure none nofun
    | some a => exact (ihg a (ho a rfl)).2 E
  | weaken h _ ih => exact ⟨.weaken h ih.1, fun E => .weaken (fun o ho a e => h a (ho a e)) (ih.2 E)⟩
  | throw e => exact ⟨.throw e trivial, fun _ => .pure none nofun⟩
  | panic => exact ⟨.panic, fun _ => .panic⟩
  | @loop α β I Q body b hb _ ih =>
    refine ⟨.loop b hb fun b hb => (ih b hb).1, fun E => ?_⟩
    simp only [caught_iterM]
    refine .loop b hb fun b hb => .bind ((ih b hb).2 E) fun o ho => .pure _ ?_
    cases o with
    | none => exact nofun
    | some r =>
      have := ho r rfl
      cases r with
      | inl b => exact this
      | inr a => exact fun a' e => by cases e; exact this
  | recur _ hs ih =>
    refine ⟨.recur (fun n => (ih n).1) hs, fun E => ?_⟩
    have e := fun σ P => caught_recM (fun n s => hs n σ P s)
    simp only [e]
    exact .recur (fun n => (ih n).2 E) fun n σ P s => caught_deeper (fun n s => hs n σ P s) n s
  | read h => exact ⟨h.composed, fun _ => .caught h⟩
  | caught _ ih =>
    refine ⟨ih.2 _, fun E => ?_⟩
    simp only [caught_caught]
    exact .bind (ih.2 E) fun o ho => .pure _ fun a e => by cases e; exact ho

/-! ### the types of the library -/

abbrev Codec.Plain (c : Codec α) : Prop := Verif.Plain (fun _ P => c.parse P) fun _ => True
abbrev VCodec.Plain (v : VCodec β) : Prop := ∀ t, Verif.Plain (fun _ P => v.parse P t) fun _ => True
abbrev FCodec.Plain (f : FCodec β) : Prop := Verif.Plain (fun _ P => f.parse P) fun _ => True

namespace Plain

theorem ite {Q : α → Prop} {c : Prop} [Decidable c] {f g : ParseFn α} (hf : c → Plain f Q) (hg : ¬ c → Plain g Q) :
    Plain (fun σ P => if c then f σ P else g σ P) Q := by
  by_cases h : c
  · simp only [if_pos h]
    exact hf h
  · simp only [if_neg h]
    exact hg h

theorem dite {Q : α → Prop} {c : Prop} [Decidable c] {f : c → ParseFn α} {g : ¬ c → ParseFn α} (hf : ∀ h, Plain (f h) Q)
    (hg : ∀ h, Plain (g h) Q) : Plain (fun σ P => if h : c then f h σ P else g h σ P) Q := by
  by_cases h : c
  · simp only [dif_pos h]
    exact hf h
  · simp only [dif_neg h]
    exact hg h

theorem any {f : ParseFn α} {Q : α → Prop} (h : Plain f Q) : Plain f fun _ => True := weaken (fun _ _ => trivial) h

theorem map {f : ParseFn α} {Q : α → Prop} {Q' : β → Prop} (g : α → β) (h : Plain f Q) (hq : ∀ a, Q a → Q' (g a)) :
    Plain (fun σ P => g <$> f σ P) Q' := bind h fun a ha => pure (g a) (hq a ha)

theorem takeFixed (n : Nat) (h : n ≤ isizeMax + 1) : Plain (fun _ P => P.takeFixed n) fun bs => bs.length = n :=
  bind (read <| .consume n h) fun _ hb => ite (fun _ => pure _ hb) fun _ => throw _

theorem ofExcept {ε : Type} {Q : α → Prop} (r : Except ε α) (f : ε → ParseError)
    (h : ∀ a, r = .ok a → Q a) :
    Plain (fun _ _ => M.ofExcept r f) Q := by
  cases r with
  | error e => exact throw _
  | ok a => exact pure a (h a rfl)

theorem ofOption (r : Option α) : Plain (fun _ _ => M.ofOption r) fun _ => True := by
  cases r with
  | none => exact panic
  | some a => exact pure a trivial

theorem tag (w : TagWidth) (tags : List Nat) :
    Plain (fun _ P => ParserOps.takeTagword w (w.parse P) tags) fun _ => True :=
  bind (map (Q' := fun _ => True) _ (takeFixed _ w.len_le) fun _ _ => trivial) fun _ _ =>
    ite (fun _ => pure _ trivial) fun _ => ite (fun _ => throw _) fun _ => throw _

theorem int (t : IntTy) : (Codec.int t).Plain := map _ (takeFixed _ t.len_le) fun _ _ => trivial

theorem rangedInt (t : IntTy) (min max : Int) :
    Plain (fun _ P => (Codec.rangedInt t min max).parse P) fun x => Enc.inRange min max (t.toInt x) :=
  bind (int t) fun x _ => ofExcept _ _ fun a h => by
    rw [RangedInt.tryFromUnderlying_eq] at h
    cases hr : restrict (t.toInt x) min max with
    | error e => rw [hr] at h; cases h
    | ok u =>
      rw [hr] at h
      cases h
      exact restrict_ok_iff.mp hr

theorem lenPref (S : LenPref) : Plain (fun _ P => S.parse P) (· ≤ S.maxLen) := by
  cases S with
  | u8 => exact map _ (int .u8) fun a _ => Nat.le_of_lt_succ (BitVec.isLt a)
  | u16 => exact map _ (int .u16) fun a _ => Nat.le_of_lt_succ (BitVec.isLt a)
  | u30 => exact map _ (rangedInt .u32 0 LenPref.u30Max) fun a h => Int.ofNat_le.mp (show Enc.inRange 0 LenPref.u30Max (IntTy.toInt .u32 a) from h).2

theorem takeRest : Plain (fun _ P => P.remainder >>= fun n => P.takeDynamic n) fun _ => True :=
  bind (read .remainder) fun n hn => any (read <| .consume n (by omega))

theorem diverge {Q : α → Prop} : Plain (fun _ _ _ => .diverge) Q := by
  have h : Plain (fun σ (_ : ParserOps σ) => iterM (fun _ : Unit => (Pure.pure (.inl ()) : PM σ (Unit ⊕ α))) ()) Q :=
    loop (I := fun _ => True) () trivial fun _ _ => pure _ trivial
  have e : (fun σ (_ : ParserOps σ) => iterM (fun _ : Unit => (Pure.pure (.inl ()) : PM σ (Unit ⊕ α))) ()) =
      (fun _ _ _ => .diverge : ParseFn α) := by
    funext σ _ s
    exact iterM_diverge_of_inv (fun _ _ => True) (fun _ s _ => ⟨(), s, rfl, trivial⟩) trivial
  exact e ▸ h

theorem selfTerminating (t : Byte → Bool) : Plain (fun _ P => P.takeSelfTerminating t) fun _ => True := by
  have e : ∀ σ (P : ParserOps σ) (ret : Bytes), P.selfTermBody t ret = M.caught P.consumeByte >>= fun o =>
      (match o with
        | none => M.throw (.token (.nonTerminating ret))
        | some b => if t b then Pure.pure (Sum.inr (ret ++ [b])) else Pure.pure (Sum.inl (ret ++ [b]))) := by
    intro σ P ret
    funext s
    show _ = (M.caught P.consumeByte s).bind _
    unfold M.caught ParserOps.selfTermBody
    cases P.consumeByte s with
    | ok b s' => simp only [Out.bind]; split <;> rfl
    | _ => rfl
  refine bind (read .remainder) fun n _ => ite (fun _ => panic) fun _ => ?_
  refine loop (I := fun _ => True) [] trivial fun ret _ => ?_
  simp only [e]
  refine bind (caught (read .consumeByte)) fun o _ => ?_
  cases o with
  | none => exact throw _
  | some b => exact ite (fun _ => pure _ trivial) fun _ => pure _ trivial

variable {c : Codec α}

theorem option (h : c.Plain) : (Codec.option c).Plain :=
  bind (tag _ _) fun _ _ => ite (fun _ => bind h fun _ _ => pure _ trivial) fun _ => ite (fun _ => pure _ trivial) fun _ => panic

theorem nullable (h : c.Plain) : (Codec.nullable c).Plain :=
  bind (read .remainder) fun _ _ => ite (fun _ => bind h fun _ _ => pure _ trivial) fun _ => pure _ trivial

theorem padded (cfg : Cfg) {n : Nat} (hn : n ≤ isizeMax + 1) (h : c.Plain) : (Codec.padded cfg n c).Plain :=
  bind h fun _ _ => bind (read <| .consume n hn) fun _ _ => ite (fun _ => throw _) fun _ => pure _ trivial

theorem seq (h : c.Plain) : (Codec.seq c).Plain :=
  loop (I := fun _ => True) _ trivial fun _ _ => bind (read .remainder) fun _ _ =>
    ite (fun _ => bind h fun _ _ => pure _ trivial) fun _ => pure _ trivial

theorem tryPush (n : Nat) (acc : List α) (x : α) : Plain (fun _ _ => Codec.tryPush n acc x) fun _ => True :=
  ite (fun _ => pure _ trivial) fun _ => throw _

theorem fixSeq (n : Nat) (h : c.Plain) : (Codec.fixSeq n c).Plain :=
  bind (Q := fun _ => True) (loop (I := fun _ => True) _ trivial fun _ _ => bind (read .remainder) fun _ _ =>
    ite (fun _ => bind h fun _ _ => bind (tryPush n _ _) fun _ _ => pure _ trivial) fun _ => pure _ trivial) fun _ _ =>
    ite (fun _ => pure _ trivial) fun _ => throw _

theorem limSeq (n : Nat) (h : c.Plain) : (Codec.limSeq n c).Plain :=
  loop (I := fun _ => True) _ trivial fun _ _ => bind (read .remainder) fun _ _ =>
    ite (fun _ => bind h fun _ _ => bind (tryPush n _ _) fun _ _ => pure _ trivial) fun _ => pure _ trivial

theorem autobox (h : c.Plain) : (Codec.autobox c).Plain := h

theorem vnil : VCodec.nil.Plain := fun _ => panic
theorem vcons {c : Codec α} {v : VCodec β} (tag : Nat) (h : c.Plain) (hv : v.Plain) : (VCodec.cons tag c v).Plain := fun t =>
  ite (fun _ => bind h fun _ _ => pure _ trivial) fun _ => bind (hv t) fun _ _ => pure _ trivial
theorem data {v : VCodec β} (w : TagWidth) (hv : v.Plain) : (Codec.data w v).Plain := bind (tag w _) fun t _ => hv t
theorem fnil : FCodec.nil.Plain := pure _ trivial
theorem fcons {c : Codec α} {f : FCodec β} (h : c.Plain) (hf : f.Plain) : (FCodec.cons c f).Plain :=
  bind h fun _ _ => bind hf fun _ _ => pure _ trivial
theorem record {f : FCodec β} (hf : f.Plain) : (Codec.record f).Plain := hf

end Plain

open Plain in
mutual
/-- The decoders of the library's types. -/
theorem Schema.plainParse (cfg : Cfg) : ∀ s : Schema, s.windowless = true → (s.codec cfg).Plain
  | .unit, _ => pure _ trivial
  | .bool, _ => bind (read .consumeByte) fun _ _ => ite (fun _ => pure _ trivial) fun _ => ite (fun _ => pure _ trivial) fun _ => throw _
  | .int t, _ => int t
  | .f64, _ => map _ (takeFixed 8 (IntTy.len_le .u64)) fun _ _ => trivial
  | .rangedInt t min max, _ => any (rangedInt t min max)
  | .rangedFloat _ _, _ => bind (map (Q' := fun _ => True) _ (takeFixed 8 (IntTy.len_le .u64)) fun _ _ => trivial) fun _ _ =>
      ofExcept _ _ fun _ _ => trivial
  | .zarithN, _ => bind (selfTerminating _) fun _ _ => ofOption _
  | .zarithZ, _ => bind (selfTerminating _) fun _ _ => ofOption _
  | .bytes, _ => takeRest
  | .vecU8, _ => takeRest
  | .string, _ => bind (read .remainder) fun n hn => bind (read <| .consume n (by omega)) fun _ _ => pure _ trivial
  | .fixedBytes n, h => bind (takeFixed n (of_decide_eq_true h)) fun _ _ => dite (fun _ => pure _ trivial) fun _ => panic
  | .fixedString n, h => bind (takeFixed n (of_decide_eq_true h)) fun _ _ => dite (fun _ => pure _ trivial) fun _ => panic
  | .option s, h => option (s.plainParse cfg h)
  | .nullable s, h => nullable (s.plainParse cfg h)
  | .dynamic _ _, h => nomatch h
  | .vpadded _ _, h => nomatch h
  | .padded n s, h => by
    simp only [Schema.windowless, Bool.and_eq_true, decide_eq_true_eq] at h
    exact padded cfg h.1 (s.plainParse cfg h.2)
  | .seq s, h => seq (s.plainParse cfg h)
  | .fixSeq n s, h => fixSeq n (s.plainParse cfg h)
  | .limSeq n s, h => limSeq n (s.plainParse cfg h)
  | .autobox s, h => autobox (s.plainParse cfg h)
  | .hole _, _ => diverge
  | .cstyle w tags, _ => bind (tag w tags) fun _ _ => dite (fun _ => pure _ trivial) fun _ => panic
  | .data w vs, h => data w (vs.plainParse cfg h)
  | .record fs, h => record (fs.plainParse cfg h)
theorem Variants.plainParse (cfg : Cfg) : ∀ vs : Variants, vs.windowless = true → (vs.codec cfg).Plain
  | .nil, _ => vnil
  | .cons tag s vs, h => by
    simp only [Variants.windowless, Bool.and_eq_true] at h
    exact vcons tag (s.plainParse cfg h.1) (vs.plainParse cfg h.2)
theorem Fields.plainParse (cfg : Cfg) : ∀ fs : Fields, fs.windowless = true → (fs.codec cfg).Plain
  | .nil, _ => fnil
  | .cons s fs, h => by
    simp only [Fields.windowless, Bool.and_eq_true] at h
    exact fcons (s.plainParse cfg h.1) (fs.plainParse cfg h.2)
end

end Verif
