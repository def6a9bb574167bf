import Verif.Spec.Refactor
import Verif.Lemmas.Num
/-
Types with the same wire format: rearrangements keep encodings and what is decoded.
-/
namespace Verif

variable {α β γ δ α' β' : Type}

/-- What `d` decodes, `d'` decodes too, as the corresponding value. -/
def Acc (f : α → β) (d : D α) (d' : D β) : Prop := ∀ v x r, d v = .ok x r → d' v = .ok (f x) r

namespace Acc

theorem refl (d : D α) : Acc (fun x => x) d d := fun _ _ _ h => h

theorem comp {f : α → β} {g : β → γ} {d : D α} {d' : D β} {d'' : D γ} (h : Acc f d d') (h' : Acc g d' d'') :
    Acc (fun x => g (f x)) d d'' := fun v x r e => h' v _ r (h v x r e)

theorem bind {f : α → α'} {g : β → β'} {d : D α} {d' : D α'} {k : α → D β} {k' : α' → D β'} (h : Acc f d d')
    (hk : ∀ a, Acc g (k a) (k' (f a))) : Acc g (d >>= k) (d' >>= k') := by
  intro v x r e
  rw [D.bind_run] at e ⊢
  cases hd : d v with
  | ok a w => rw [hd] at e; rw [h v a w hd]; exact hk a w x r e
  | _ => rw [hd] at e; cases e

theorem bind_same {g : β → β'} (d : D α) {k : α → D β} {k' : α → D β'} (hk : ∀ a, Acc g (k a) (k' a)) :
    Acc g (d >>= k) (d >>= k') := bind (refl d) hk

theorem pure {f : α → β} {a : α} {b : β} (h : f a = b) : Acc f (Pure.pure a : D α) (Pure.pure b) := by
  subst h
  intro v x r e
  cases e
  rfl

theorem throw (f : α → β) (e : ParseError) (d : D β) : Acc f (D.throw e : D α) d := fun _ _ _ h => nomatch h
theorem panic (f : α → β) (d : D β) : Acc f (D.panic : D α) d := fun _ _ _ h => nomatch h

theorem ite {c : Prop} [Decidable c] {f : α → β} {d e : D α} {d' e' : D β} (h : Acc f d d') (h' : Acc f e e') :
    Acc f (if c then d else e) (if c then d' else e') := by
  split
  · exact h
  · exact h'

theorem map {f : α → α'} {g : β → β'} {m : α → β} {m' : α' → β'} {d : D α} {d' : D α'} (h : Acc f d d')
    (hm : ∀ a, g (m a) = m' (f a)) : Acc g (m <$> d) (m' <$> d') := by
  intro v x r e
  rw [D.map_run] at e ⊢
  cases hd : d v with
  | ok a w =>
    rw [hd] at e
    cases e
    rw [h v a r hd, DecRes.bind_ok, hm]
  | _ => rw [hd] at e; cases e

theorem ifEmpty {f : α → β} {d e : D α} {d' e' : D β} (h : Acc f d d') (h' : Acc f e e') : Acc f (D.ifEmpty d e) (D.ifEmpty d' e') := by
  intro v x r hx
  unfold D.ifEmpty at hx ⊢
  split
  · next hv => rw [if_pos hv] at hx; exact h v x r hx
  · next hv => rw [if_neg hv] at hx; exact h' v x r hx

theorem window {f : α → β} (n : Nat) {d : D α} {d' : D β} (h : Acc f d d') : Acc f (D.window n d) (D.window n d') := by
  intro v x r hx
  unfold D.window at hx ⊢
  by_cases hn : n ≤ v.length
  · rw [if_pos hn] at hx ⊢
    cases hd : d (v.take n) with
    | ok a w =>
      rw [hd] at hx
      rw [h _ a w hd]
      simp only [DecRes.bind_ok] at hx ⊢
      split at hx
      · next hw => rw [if_pos hw]; cases hx; rfl
      · cases hx
    | _ => rw [hd] at hx; cases hx
  · rw [if_neg hn] at hx
    unfold D.short at hx
    split at hx <;> cases hx

theorem many {f : α → β} {d : D α} {d' : D β} (h : Acc f d d') : ∀ (n : Nat) (v : Bytes), v.length ≤ n → ∀ x r,
    D.many d v = .ok x r → D.many d' v = .ok (x.map f) r := by
  intro n
  induction n with
  | zero =>
    intro v hv x r hx
    have : v = [] := List.eq_nil_of_length_eq_zero (by omega)
    subst this
    rw [D.many] at hx ⊢
    simp only [if_true] at hx ⊢
    cases hx
    rfl
  | succ n ih =>
    intro v hv x r hx
    rw [D.many] at hx ⊢
    by_cases he : v = []
    · rw [if_pos he] at hx ⊢
      cases hx
      rfl
    · rw [if_neg he] at hx ⊢
      cases hd : d v with
      | ok a w =>
        rw [hd] at hx
        rw [h v a w hd]
        simp only [] at hx ⊢
        by_cases hl : w.length < v.length
        · rw [if_pos hl] at hx ⊢
          cases hm : D.many d w with
          | ok y s =>
            rw [hm] at hx
            cases hx
            rw [ih w (by omega) y r hm]
            rfl
          | _ => rw [hm] at hx; cases hx
        · rw [if_neg hl] at hx
          split at hx <;> cases hx
      | _ => rw [hd] at hx; cases hx

theorem manyMax {f : α → β} {d : D α} {d' : D β} (e : ParseError) (h : Acc f d d') : ∀ n,
    Acc (List.map f) (D.manyMax e d n) (D.manyMax e d' n)
  | 0 => .ifEmpty (.pure rfl) (.bind h fun _ => .throw _ _ _)
  | n + 1 => .ifEmpty (.pure rfl) (.bind h fun _ => .bind (manyMax e h n) fun _ => .pure rfl)

theorem upTo {f : α → β} {d : D α} {d' : D β} (h : Acc f d d') : ∀ n, Acc (List.map f) (D.upTo d n) (D.upTo d' n)
  | 0 => .pure rfl
  | n + 1 => .ifEmpty (.pure rfl) (.bind h fun _ => .bind (upTo h n) fun _ => .pure rfl)

theorem iteL {c : Prop} [Decidable c] {f : α → β} {d e : D α} {d' : D β} (h : Acc f d d') (h' : Acc f e d') :
    Acc f (if c then d else e) d' := by
  split
  · exact h
  · exact h'

/-- Tags that are the same but for their order. -/
theorem tag (w : TagWidth) {tags tags' : List Nat} (h : ∀ t, t ∈ tags → t ∈ tags') : Acc (fun x => x) (Dec.tag w tags) (Dec.tag w tags') := by
  refine .bind_same _ fun t => ?_
  by_cases ht : t ∈ tags
  · rw [if_pos ht, if_pos (h t ht)]
    exact .refl _
  · rw [if_neg ht]
    exact .iteL (.throw _ _ _) (.throw _ _ _)

end Acc

/-- The same format: encodings agree, and so does what is decoded. -/
structure Fmt (i : Iso α β) (e : Enc α) (e' : Enc β) (d : Cfg → D α) (d' : Cfg → D β) : Prop where
  wire : ∀ x, e' (i.to x) = e x
  to : ∀ cfg, Acc i.to (d cfg) (d' cfg)
  back : ∀ cfg, Acc i.back (d' cfg) (d cfg)

namespace Fmt

variable {i : Iso α β} {j : Iso β γ} {e : Enc α} {e' : Enc β} {e'' : Enc γ} {d : Cfg → D α} {d' : Cfg → D β} {d'' : Cfg → D γ}

theorem refl (e : Enc α) (d : Cfg → D α) : Fmt (Iso.refl α) e e d d := ⟨fun _ => rfl, fun _ => .refl _, fun _ => .refl _⟩

theorem symm (h : Fmt i e e' d d') : Fmt i.symm e' e d' d :=
  ⟨fun y => by rw [← h.wire]; exact congrArg e' (i.to_back y), h.back, h.to⟩

theorem trans (h : Fmt i e e' d d') (h' : Fmt j e' e'' d' d'') : Fmt (i.trans j) e e'' d d'' :=
  ⟨fun x => (h'.wire _).trans (h.wire x), fun cfg => (h.to cfg).comp (h'.to cfg), fun cfg => (h'.back cfg).comp (h.back cfg)⟩

theorem option (h : Fmt i e e' d d') : Fmt i.option (Enc.option e) (Enc.option e') (fun cfg => Dec.option (d cfg)) (fun cfg => Dec.option (d' cfg)) where
  wire x := by
    cases x with
    | none => rfl
    | some x => exact congrArg (Enc.cat (some [0xff])) (h.wire x)
  to cfg := .bind_same _ fun _ => .ite (.map (h.to cfg) fun _ => rfl) (.pure rfl)
  back cfg := .bind_same _ fun _ => .ite (.map (h.back cfg) fun _ => rfl) (.pure rfl)

theorem nullable (h : Fmt i e e' d d') :
    Fmt i.option (Enc.nullable e) (Enc.nullable e') (fun cfg => Dec.nullable (d cfg)) (fun cfg => Dec.nullable (d' cfg)) where
  wire x := by
    cases x with
    | none => rfl
    | some x => exact h.wire x
  to cfg := .ifEmpty (.pure rfl) (.map (h.to cfg) fun _ => rfl)
  back cfg := .ifEmpty (.pure rfl) (.map (h.back cfg) fun _ => rfl)

theorem dynamic (S : LenPref) (h : Fmt i e e' d d') :
    Fmt i (Enc.dynamic S (fun x => (e x).map List.length) e) (Enc.dynamic S (fun x => (e' x).map List.length) e')
      (fun cfg => Dec.dynamic S (d cfg)) (fun cfg => Dec.dynamic S (d' cfg)) where
  wire x := by simp only [Enc.dynamic, h.wire]
  to cfg := .bind_same _ fun n => .window n (h.to cfg)
  back cfg := .bind_same _ fun n => .window n (h.back cfg)

theorem acc_vpadded {f : α → β} (cfg : Cfg) (n : Nat) {d : D α} {d' : D β} (h : Acc f d d') :
    Acc f (Dec.vpadded cfg n d) (Dec.vpadded cfg n d') := by
  intro v x r hx
  unfold Dec.vpadded at hx ⊢
  split
  · next hn => rw [if_pos hn] at hx; exact Acc.window _ h v x r hx
  · next hn =>
    rw [if_neg hn] at hx
    split at hx <;> cases hx

theorem vpadded (n : Nat) (h : Fmt i e e' d d') :
    Fmt i e e' (fun cfg => Dec.vpadded cfg n (d cfg)) (fun cfg => Dec.vpadded cfg n (d' cfg)) :=
  ⟨h.wire, fun cfg => acc_vpadded cfg n (h.to cfg), fun cfg => acc_vpadded cfg n (h.back cfg)⟩

theorem padded (n : Nat) (h : Fmt i e e' d d') :
    Fmt i (Enc.padded n e) (Enc.padded n e') (fun cfg => Dec.padded cfg n (d cfg)) (fun cfg => Dec.padded cfg n (d' cfg)) where
  wire x := by simp only [Enc.padded, h.wire]
  to cfg := .bind (h.to cfg) fun _ => .bind_same _ fun _ => .ite (.throw _ _ _) (.pure rfl)
  back cfg := .bind (h.back cfg) fun _ => .bind_same _ fun _ => .ite (.throw _ _ _) (.pure rfl)

theorem wire_list (h : ∀ x, e' (i.to x) = e x) : ∀ xs, Enc.list e' (xs.map i.to) = Enc.list e xs
  | [] => rfl
  | x :: xs => by
    show Enc.cat (e' (i.to x)) (Enc.list e' (xs.map i.to)) = Enc.cat (e x) (Enc.list e xs)
    rw [h, wire_list h xs]

theorem seq (h : Fmt i e e' d d') : Fmt i.list (Enc.list e) (Enc.list e') (fun cfg => Dec.seq (d cfg)) (fun cfg => Dec.seq (d' cfg)) where
  wire x := wire_list h.wire x
  to cfg v x r hx := Acc.many (h.to cfg) _ v (Nat.le_refl _) x r hx
  back cfg v x r hx := Acc.many (h.back cfg) _ v (Nat.le_refl _) x r hx

theorem fixSeq (n : Nat) (h : Fmt i e e' d d') :
    Fmt i.list (Enc.list e) (Enc.list e') (fun cfg => Dec.fixSeq n (d cfg)) (fun cfg => Dec.fixSeq n (d' cfg)) where
  wire x := wire_list h.wire x
  to cfg := .bind (.upTo (h.to cfg) n) fun l => by
    rw [List.length_map]
    exact .ite (.pure rfl) (.throw _ _ _)
  back cfg := .bind (.upTo (h.back cfg) n) fun l => by
    rw [List.length_map]
    exact .ite (.pure rfl) (.throw _ _ _)

theorem limSeq (n : Nat) (h : Fmt i e e' d d') :
    Fmt i.list (Enc.list e) (Enc.list e') (fun cfg => Dec.limSeq n (d cfg)) (fun cfg => Dec.limSeq n (d' cfg)) where
  wire x := wire_list h.wire x
  to cfg := .manyMax _ (h.to cfg) n
  back cfg := .manyMax _ (h.back cfg) n

/-! ### the rearrangements themselves -/

theorem cat_nil (a : Option Bytes) : Enc.cat a (some []) = a := by
  cases a <;> simp [Enc.cat]

theorem nil_cat (a : Option Bytes) : Enc.cat (some []) a = a := by
  cases a <;> simp [Enc.cat]

theorem cat_assoc (a b c : Option Bytes) : Enc.cat (Enc.cat a b) c = Enc.cat a (Enc.cat b c) := by
  cases a <;> cases b <;> cases c <;> simp [Enc.cat]

theorem padded_zero (cfg : Cfg) (d : D α) : Dec.padded cfg 0 d = d := by
  funext v
  unfold Dec.padded
  simp only [D.bind_run]
  cases d v with
  | ok a w => simp [D.take]
  | _ => rfl

theorem unpadded (e : Enc α) (d : Cfg → D α) : Fmt (Iso.refl α) (Enc.padded 0 e) e (fun cfg => Dec.padded cfg 0 (d cfg)) d where
  wire x := (cat_nil (e x)).symm
  to cfg := by rw [padded_zero]; exact .refl _
  back cfg := by rw [padded_zero]; exact .refl _

theorem newtype (e : Enc α) (d : Cfg → D α) :
    Fmt (Iso.unitR : Iso (α × Unit) α) (Enc.fcons e Enc.fnil) e (fun cfg => Dec.fcons (d cfg) Dec.fnil) d where
  wire x := (cat_nil (e x.1)).symm
  to cfg v x r hx := by
    unfold Dec.fcons at hx
    rw [D.bind_run] at hx
    cases hd : d cfg v with
    | ok a w => rw [hd] at hx; cases hx; rfl
    | _ => rw [hd] at hx; cases hx
  back cfg v x r hx := by
    unfold Dec.fcons
    rw [D.bind_run, hx]
    rfl

theorem ofBe_one (b : Byte) : ofBe [b] = b.toNat := by simp [ofBe]

theorem many_bytes : ∀ v : Bytes, D.many (Dec.int .u8) v = .ok (v.map UInt8.toBitVec) []
  | [] => by rw [D.many]; rfl
  | b :: v => by
    have h : Dec.int .u8 (b :: v) = .ok b.toBitVec v := by
      show DecRes.ok (BitVec.ofNat 8 (ofBe [b])) v = _
      rw [ofBe_one]
      congr 1
      apply BitVec.eq_of_toNat_eq
      rw [BitVec.toNat_ofNat]
      exact Nat.mod_eq_of_lt b.toBitVec.isLt
    rw [D.many, if_neg (List.cons_ne_nil _ _), h]
    simp only []
    rw [if_pos (by simp), many_bytes v]
    rfl

theorem wire_bytes : ∀ x : List (BitVec 8), Enc.list (Enc.int .u8) x = some (x.map UInt8.ofBitVec)
  | [] => rfl
  | b :: x => by
    show Enc.cat (some (toBe 1 b.toNat)) (Enc.list (Enc.int .u8) x) = _
    rw [wire_bytes x]
    have : toBe 1 b.toNat = [UInt8.ofBitVec b] := by
      show [UInt8.ofNat (b.toNat % 256)] = _ 
      congr 1
      apply UInt8.toBitVec_inj.1
      apply BitVec.eq_of_toNat_eq
      simpa using b.isLt
    rw [this]
    rfl

theorem seqU8 : Fmt Iso.byte.list (Enc.list (Enc.int .u8)) Enc.bytes (fun _ => Dec.seq (Dec.int .u8)) (fun _ => Dec.bytes) where
  wire x := (wire_bytes x).symm
  to _ v x r hx := by
    have hx' : D.many (Dec.int .u8) v = .ok x r := hx
    rw [many_bytes] at hx'
    cases hx'
    show DecRes.ok v [] = .ok (List.map UInt8.ofBitVec (List.map UInt8.toBitVec v)) []
    rw [List.map_map]
    congr 1
    exact (List.map_id v).symm
  back _ v x r hx := by
    cases hx
    exact many_bytes v

/-- After a tag, only what follows the listed tags matters. -/
theorem acc_tag {f : α → β} (w : TagWidth) (tags : List Nat) {k : Nat → D α} {k' : Nat → D β} (h : ∀ t ∈ tags, Acc f (k t) (k' t)) :
    Acc f (Dec.tag w tags >>= k) (Dec.tag w tags >>= k') := by
  intro v x r hx
  rw [D.bind_run] at hx ⊢
  cases ht : Dec.tag w tags v with
  | ok t u =>
    rw [ht] at hx
    refine h t ?_ u x r hx
    unfold Dec.tag at ht
    rw [D.bind_run] at ht
    cases hn : (ofBe <$> D.take w.len : D Nat) v with
    | ok n u' =>
      rw [hn] at ht
      simp only [DecRes.bind_ok] at ht
      split at ht
      · next hm => cases ht; exact hm
      · split at ht <;> cases ht
    | _ => rw [hn] at ht; cases ht
  | _ => rw [ht] at hx; cases hx

theorem tag_one (tags : List Nat) (b : Byte) (v : Bytes) (h : b.toNat ∈ tags) : Dec.tag .u8 tags (b :: v) = .ok b.toNat v := by
  have ht : (ofBe <$> D.take TagWidth.u8.len : D Nat) (b :: v) = .ok b.toNat v := by
    show DecRes.ok (ofBe [b]) v = _
    rw [ofBe_one]
  unfold Dec.tag
  rw [D.bind_run, ht, DecRes.bind_ok, if_pos h]
  rfl

theorem tag_one_inv {tags : List Nat} {v : Bytes} {t : Nat} {r : Bytes} (h : Dec.tag .u8 tags v = .ok t r) :
    ∃ b, v = b :: r ∧ t = b.toNat ∧ t ∈ tags := by
  cases v with
  | nil => cases h
  | cons b v =>
    have ht : (ofBe <$> D.take TagWidth.u8.len : D Nat) (b :: v) = .ok b.toNat v := by
      show DecRes.ok (ofBe [b]) v = _
      rw [ofBe_one]
    unfold Dec.tag at h
    rw [D.bind_run, ht, DecRes.bind_ok] at h
    split at h
    · next hm => cases h; exact ⟨b, rfl, rfl, hm⟩
    · split at h <;> cases h

theorem byte_255 {b : Byte} (h : b.toNat = 255) : b = 0xff := UInt8.toNat_inj.1 h
theorem byte_0 {b : Byte} (h : b.toNat = 0) : b = 0x00 := UInt8.toNat_inj.1 h

theorem acc_tag_bool {f : α → β} {k : Nat → D α} {k' : Bool → D β} (h0 : Acc f (k 0) (k' false)) (h1 : Acc f (k 255) (k' true)) :
    Acc f (Dec.tag .u8 [0, 255] >>= k) (Dec.bool >>= k') := by
  intro v x r hx
  rw [D.bind_run] at hx ⊢
  cases ht : Dec.tag .u8 [0, 255] v with
  | ok t u =>
    rw [ht] at hx
    obtain ⟨b, rfl, rfl, hm⟩ := tag_one_inv ht
    rcases List.mem_cons.1 hm with hb | hm
    · rw [hb] at hx
      obtain rfl := byte_0 hb
      exact h0 u x r hx
    · have hb := List.mem_singleton.1 hm
      rw [hb] at hx
      obtain rfl := byte_255 hb
      exact h1 u x r hx
  | _ => rw [ht] at hx; cases hx

theorem acc_bool_tag {f : α → β} {k : Nat → D β} {k' : Bool → D α} (h0 : Acc f (k' false) (k 0)) (h1 : Acc f (k' true) (k 255)) :
    Acc f (Dec.bool >>= k') (Dec.tag .u8 [0, 255] >>= k) := by
  intro v x r hx
  rw [D.bind_run] at hx ⊢
  cases v with
  | nil => cases hx
  | cons b v =>
    by_cases hb : b = 0xff
    · subst hb
      rw [tag_one [0, 255] 0xff v (.tail _ (.head _))]
      exact h1 v x r hx
    · by_cases hb' : b = 0x00
      · subst hb'
        rw [tag_one [0, 255] 0x00 v (.head _)]
        exact h0 v x r hx
      · have : Dec.bool (b :: v) = .err (.token (.invalidBoolean b)) := by
          show (if b = 0xff then (pure true : D Bool) else if b = 0x00 then pure false else D.throw (.token (.invalidBoolean b))) v = _
          rw [if_neg hb, if_neg hb']
          rfl
        rw [this] at hx
        cases hx

theorem bind_pure (d : D α) : (d >>= fun x => pure x) = d := by
  funext v
  rw [D.bind_run]
  cases d v <;> rfl

theorem boolEnum : Fmt Iso.boolEnum Enc.bool (Enc.cstyle .u8 [0, 255]) (fun _ => Dec.bool) (fun _ => Dec.cstyle .u8 [0, 255]) where
  wire x := by cases x <;> rfl
  to _ := by
    rw [← bind_pure Dec.bool]
    exact acc_bool_tag (.pure rfl) (.pure rfl)
  back _ := by
    rw [← bind_pure Dec.bool]
    exact acc_tag_bool (.pure rfl) (.pure rfl)

theorem optionUnit : Fmt Iso.optionUnit (Enc.option Enc.unit) Enc.bool (fun _ => Dec.option Dec.unit) (fun _ => Dec.bool) where
  wire x := by cases x <;> rfl
  to _ := by
    rw [← bind_pure Dec.bool]
    exact acc_tag_bool (.pure rfl) (.pure rfl)
  back _ := by
    rw [← bind_pure Dec.bool]
    exact acc_bool_tag (.pure rfl) (.pure rfl)

theorem optionArms (e : Enc α) (d : Cfg → D α) :
    Fmt Iso.optionArms (Enc.option e) (Enc.vcons 0 Enc.unit (Enc.vcons 255 e Enc.vnil) .u8) (fun cfg => Dec.option (d cfg))
      (fun cfg => Dec.data .u8 [0, 255] (Dec.vcons 0 Dec.unit (Dec.vcons 255 (d cfg) Dec.vnil))) where
  wire x := by cases x <;> rfl
  to cfg := acc_tag _ _ fun t ht => by
    rcases List.mem_cons.1 ht with rfl | ht
    · exact .pure rfl
    · obtain rfl := List.mem_singleton.1 ht
      intro v x r hx
      have hx' : (some <$> d cfg) v = .ok x r := hx
      show (Sum.inr <$> (Sum.inl <$> d cfg : D (α ⊕ Empty))) v = _
      rw [D.map_run] at hx'
      rw [D.map_run, D.map_run]
      cases hd : d cfg v with
      | ok a w => rw [hd] at hx'; cases hx'; rfl
      | _ => rw [hd] at hx'; cases hx'
  back cfg := acc_tag _ _ fun t ht => by
    rcases List.mem_cons.1 ht with rfl | ht
    · exact .pure rfl
    · obtain rfl := List.mem_singleton.1 ht
      intro v x r hx
      have hx' : (Sum.inr <$> (Sum.inl <$> d cfg : D (α ⊕ Empty)) : D (Unit ⊕ (α ⊕ Empty))) v = .ok x r := hx
      show (some <$> d cfg) v = _
      rw [D.map_run, D.map_run] at hx'
      rw [D.map_run]
      cases hd : d cfg v with
      | ok a w => rw [hd] at hx'; cases hx'; rfl
      | _ => rw [hd] at hx'; cases hx'

theorem restrict_full (t : IntTy) (x : t.Val) {min max : Int} (hmin : min ≤ t.lo) (hmax : t.hi ≤ max) : min ≤ 0 ∧ min ≤ t.toInt x ∧ t.toInt x ≤ max := by
  have h0 : t.lo ≤ 0 := by cases t <;> simp [IntTy.lo, IntTy.signed, IntTy.len]
  have h1 : t.lo ≤ t.toInt x ∧ t.toInt x ≤ t.hi := by
    cases t <;> simp only [IntTy.lo, IntTy.hi, IntTy.toInt, IntTy.signed, IntTy.len, if_true, Bool.false_eq_true, if_false] <;>
      first
        | (have h1 := BitVec.le_toInt x; have h2 := BitVec.toInt_lt (x := x); simp only [IntTy.len] at h1 h2; omega)
        | (have := x.isLt; simp only [IntTy.len] at this; omega)
  omega

theorem fullRange (t : IntTy) {min max : Int} (hmin : min ≤ t.lo) (hmax : t.hi ≤ max) :
    Fmt (Iso.refl t.Val) (Enc.rangedInt t min max) (Enc.int t) (fun _ => Dec.rangedInt t min max) (fun _ => Dec.int t) := by
  have hd : Dec.rangedInt t min max = Dec.int t := by
    refine Eq.trans ?_ (bind_pure (Dec.int t))
    unfold Dec.rangedInt
    congr 1
    funext x
    obtain ⟨h0, h1, h2⟩ := restrict_full t x hmin hmax
    have : restrict (t.toInt x) min max = .ok () := by
      unfold restrict
      rw [if_neg (by omega), if_pos h1, if_pos h2]
    rw [this]
    rfl
  refine ⟨fun x => ?_, fun _ => by rw [hd]; exact .refl _, fun _ => by rw [hd]; exact .refl _⟩
  obtain ⟨h0, h1, h2⟩ := restrict_full t x hmin hmax
  refine (if_pos ?_).symm
  unfold Enc.inRange
  rw [if_neg (by omega)]
  exact ⟨h1, h2⟩

/-! ### arms -/

/-- Arms of the same format. -/
structure _root_.Verif.VFmt (i : Iso α β) (e : TagWidth → Enc α) (e' : TagWidth → Enc β) (tags tags' : List Nat) (d : Cfg → Nat → D α)
    (d' : Cfg → Nat → D β) : Prop where
  wire : ∀ w x, e' w (i.to x) = e w x
  tags : ∀ t, t ∈ tags ↔ t ∈ tags'
  to : ∀ cfg t, Acc i.to (d cfg t) (d' cfg t)
  back : ∀ cfg t, Acc i.back (d' cfg t) (d cfg t)

section
variable {i : Iso α β} {j : Iso β γ} {e : TagWidth → Enc α} {e' : TagWidth → Enc β} {e'' : TagWidth → Enc γ} {tags tags' tags'' : List Nat}
  {d : Cfg → Nat → D α} {d' : Cfg → Nat → D β} {d'' : Cfg → Nat → D γ}

theorem vrefl (e : TagWidth → Enc α) (tags : List Nat) (d : Cfg → Nat → D α) : VFmt (Iso.refl α) e e tags tags d d :=
  ⟨fun _ _ => rfl, fun _ => Iff.rfl, fun _ _ => .refl _, fun _ _ => .refl _⟩

theorem vsymm (h : VFmt i e e' tags tags' d d') : VFmt i.symm e' e tags' tags d' d :=
  ⟨fun w y => by rw [← h.wire]; exact congrArg (e' w) (i.to_back y), fun t => (h.tags t).symm, h.back, h.to⟩

theorem vtrans (h : VFmt i e e' tags tags' d d') (h' : VFmt j e' e'' tags' tags'' d' d'') : VFmt (i.trans j) e e'' tags tags'' d d'' :=
  ⟨fun w x => (h'.wire w _).trans (h.wire w x), fun t => (h.tags t).trans (h'.tags t), fun cfg t => (h.to cfg t).comp (h'.to cfg t),
    fun cfg t => (h'.back cfg t).comp (h.back cfg t)⟩

theorem vcons (tag : Nat) {i₀ : Iso α' β'} {e₀ : Enc α'} {e₀' : Enc β'} {d₀ : Cfg → D α'} {d₀' : Cfg → D β'} (h : Fmt i₀ e₀ e₀' d₀ d₀')
    (hs : VFmt i e e' tags tags' d d') :
    VFmt (i₀.sum i) (Enc.vcons tag e₀ e) (Enc.vcons tag e₀' e') (tag :: tags) (tag :: tags')
      (fun cfg => Dec.vcons tag (d₀ cfg) (d cfg)) (fun cfg => Dec.vcons tag (d₀' cfg) (d' cfg)) where
  wire w x := by
    rcases x with x | y
    · exact congrArg (Enc.cat (some (toBe w.len tag))) (h.wire x)
    · exact hs.wire w y
  tags t := by rw [List.mem_cons, List.mem_cons, hs.tags t]
  to cfg t := .ite (.map (h.to cfg) fun _ => rfl) (.map (hs.to cfg t) fun _ => rfl)
  back cfg t := .ite (.map (h.back cfg) fun _ => rfl) (.map (hs.back cfg t) fun _ => rfl)

theorem data (w : TagWidth) (h : VFmt i e e' tags tags' d d') :
    Fmt i (e w) (e' w) (fun cfg => Dec.data w tags (d cfg)) (fun cfg => Dec.data w tags' (d' cfg)) where
  wire x := h.wire w x
  to cfg := .bind (.tag w fun t ht => (h.tags t).1 ht) fun t => h.to cfg t
  back cfg := .bind (.tag w fun t ht => (h.tags t).2 ht) fun t => h.back cfg t

theorem acc_swap {f : α ⊕ (β ⊕ γ) → β ⊕ (α ⊕ γ)} (h1 : ∀ x, f (.inl x) = .inr (.inl x)) (h2 : ∀ x, f (.inr (.inl x)) = .inl x)
    (h3 : ∀ x, f (.inr (.inr x)) = .inr (.inr x)) {t t' : Nat} (h : t ≠ t') (a : D α) (b : D β) (c : Nat → D γ) (n : Nat) :
    Acc f (Dec.vcons t a (Dec.vcons t' b c) n) (Dec.vcons t' b (Dec.vcons t a c) n) := by
  intro v x r hx
  unfold Dec.vcons at hx ⊢
  by_cases ht : n = t
  · rw [if_pos ht] at hx
    rw [if_neg (fun e => h (ht.symm.trans e)), if_pos ht]
    rw [D.map_run] at hx
    rw [D.map_run, D.map_run]
    cases hd : a v with
    | ok y w => rw [hd] at hx; cases hx; rw [h1]; rfl
    | _ => rw [hd] at hx; cases hx
  · rw [if_neg ht] at hx
    by_cases ht' : n = t'
    · rw [if_pos ht'] at hx
      rw [if_pos ht']
      rw [D.map_run, D.map_run] at hx
      rw [D.map_run]
      cases hd : b v with
      | ok y w => rw [hd] at hx; cases hx; rw [h2]; rfl
      | _ => rw [hd] at hx; cases hx
    · rw [if_neg ht'] at hx
      rw [if_neg ht', if_neg ht]
      rw [D.map_run, D.map_run] at hx ⊢
      cases hd : c n v with
      | ok y w => rw [hd] at hx; cases hx; rw [h3]; rfl
      | _ => rw [hd] at hx; cases hx

theorem vswap {t t' : Nat} (h : t ≠ t') (a : Enc α) (b : Enc β) (c : TagWidth → Enc γ) (tags : List Nat) (da : Cfg → D α) (db : Cfg → D β)
    (dc : Cfg → Nat → D γ) :
    VFmt Iso.swap (Enc.vcons t a (Enc.vcons t' b c)) (Enc.vcons t' b (Enc.vcons t a c)) (t :: t' :: tags) (t' :: t :: tags)
      (fun cfg => Dec.vcons t (da cfg) (Dec.vcons t' (db cfg) (dc cfg))) (fun cfg => Dec.vcons t' (db cfg) (Dec.vcons t (da cfg) (dc cfg))) where
  wire w x := by rcases x with x | x | x <;> rfl
  tags n := by
    simp only [List.mem_cons]
    constructor <;> rintro (h | h | h) <;> simp [h]
  to cfg n := acc_swap (fun _ => rfl) (fun _ => rfl) (fun _ => rfl) h _ _ _ n
  back cfg n := acc_swap (fun _ => rfl) (fun _ => rfl) (fun _ => rfl) h.symm _ _ _ n

end

theorem units_tags : ∀ tags : List Nat, (Variants.units tags).tags = tags
  | [] => rfl
  | t :: ts => congrArg (List.cons t) (units_tags ts)

theorem units_wire (w : TagWidth) : ∀ (tags : List Nat) (y : (Variants.units tags).Val),
    (Variants.units tags).wire w y = some (toBe w.len (Variants.unitsBack tags y).1)
  | [], y => nomatch y
  | t :: _, .inl () => cat_nil (some (toBe w.len t))
  | _ :: ts, .inr y => units_wire w ts y

theorem units_dec (cfg : Cfg) : ∀ (tags : List Nat) (t : Nat) (h : t ∈ tags) (v : Bytes),
    (Variants.units tags).dec cfg t v = .ok (Variants.unitsTo tags ⟨t, h⟩) v
  | [], _, h, _ => nomatch h
  | t' :: ts, t, h, v => by
    by_cases ht : t = t'
    · have e : Variants.unitsTo (t' :: ts) ⟨t, h⟩ = .inl () := dif_pos ht
      rw [e]
      exact vcons_pos ht _ _ v
    · have e : Variants.unitsTo (t' :: ts) ⟨t, h⟩ = .inr (Variants.unitsTo ts ⟨t, (List.mem_cons.1 h).resolve_left ht⟩) := dif_neg ht
      rw [e]
      exact vcons_neg ht _ _ v _ _ (units_dec cfg ts t ((List.mem_cons.1 h).resolve_left ht) v)
where
  vcons_pos {β : Type} {t t' : Nat} (h : t = t') (d : Nat → D β) (a : Unit) (v : Bytes) : Dec.vcons t' (Dec.unit) d t v = .ok (.inl a) v := by
    unfold Dec.vcons
    rw [if_pos h]
    rfl
  vcons_neg {β : Type} {t t' : Nat} (h : ¬ t = t') (a : D Unit) (d : Nat → D β) (v : Bytes) (y : β) (r : Bytes) (hd : d t v = .ok y r) :
      Dec.vcons t' a d t v = .ok (.inr y) r := by
    unfold Dec.vcons
    rw [if_neg h, D.map_run, hd]
    rfl

theorem plainEnum (w : TagWidth) (tags : List Nat) (hn : tags.Nodup) :
    Fmt (Variants.unitsIso tags hn) (Enc.cstyle w tags) ((Variants.units tags).wire w) (fun _ => Dec.cstyle w tags)
      (fun cfg => Dec.data w (Variants.units tags).tags ((Variants.units tags).dec cfg)) where
  wire x := by
    rw [units_wire]
    exact congrArg (fun z : CEnum tags => some (toBe w.len z.1)) (Variants.units_back_to tags x)
  to cfg := by
    rw [units_tags]
    refine acc_tag w tags fun t ht => ?_
    rw [dif_pos ht]
    intro v x r hx
    cases hx
    exact units_dec cfg tags t ht v
  back cfg := by
    rw [units_tags]
    refine acc_tag w tags fun t ht => ?_
    rw [dif_pos ht]
    intro v x r hx
    rw [units_dec cfg tags t ht v] at hx
    cases hx
    exact congrArg (DecRes.ok · v) (Variants.units_back_to tags ⟨t, ht⟩).symm

/-! ### fields -/

theorem fcons {i : Iso α β} {j : Iso α' β'} {e : Enc α} {e' : Enc β} {f : Enc α'} {f' : Enc β'} {d : Cfg → D α} {d' : Cfg → D β}
    {g : Cfg → D α'} {g' : Cfg → D β'} (h : Fmt i e e' d d') (hs : Fmt j f f' g g') :
    Fmt (i.prod j) (Enc.fcons e f) (Enc.fcons e' f') (fun cfg => Dec.fcons (d cfg) (g cfg)) (fun cfg => Dec.fcons (d' cfg) (g' cfg)) where
  wire x := by
    show Enc.cat (e' (i.to x.1)) (f' (j.to x.2)) = Enc.cat (e x.1) (f x.2)
    rw [h.wire, hs.wire]
  to cfg := .bind (h.to cfg) fun _ => .bind (hs.to cfg) fun _ => .pure rfl
  back cfg := .bind (h.back cfg) fun _ => .bind (hs.back cfg) fun _ => .pure rfl

theorem drop (e : Enc α) (d : Cfg → D α) : Fmt Iso.unitL (Enc.fcons Enc.unit e) e (fun cfg => Dec.fcons Dec.unit (d cfg)) d where
  wire x := (nil_cat (e x.2)).symm
  to cfg v x r hx := by
    have hx' : (d cfg >>= fun b => pure ((), b)) v = .ok x r := hx
    rw [D.bind_run] at hx'
    cases hd : d cfg v with
    | ok a w => rw [hd] at hx'; cases hx'; rfl
    | _ => rw [hd] at hx'; cases hx'
  back cfg v x r hx := by
    show (d cfg >>= fun b => pure ((), b)) v = _
    rw [D.bind_run, hx]
    rfl

theorem fcons_ok {d : D α} {f : D β} {v w r : Bytes} {a : α} {b : β} (h : d v = .ok a w) (h' : f w = .ok b r) : Dec.fcons d f v = .ok (a, b) r := by
  unfold Dec.fcons
  rw [D.bind_run, h, DecRes.bind_ok, D.bind_run, h']
  rfl

theorem fcons_inv {d : D α} {f : D β} {v r : Bytes} {x : α × β} (h : Dec.fcons d f v = .ok x r) :
    ∃ w, d v = .ok x.1 w ∧ f w = .ok x.2 r := by
  unfold Dec.fcons at h
  rw [D.bind_run] at h
  cases hd : d v with
  | ok a w =>
    rw [hd, DecRes.bind_ok, D.bind_run] at h
    cases hf : f w with
    | ok b u =>
      rw [hf] at h
      cases h
      exact ⟨w, rfl, hf⟩
    | _ => rw [hf] at h; cases h
  | _ => rw [hd] at h; cases h

theorem fassoc (e : Enc α) (f : Enc β) (g : Enc γ) (d : Cfg → D α) (d' : Cfg → D β) (d'' : Cfg → D γ) :
    Fmt Iso.assoc (Enc.fcons (Enc.fcons e f) g) (Enc.fcons e (Enc.fcons f g)) (fun cfg => Dec.fcons (Dec.fcons (d cfg) (d' cfg)) (d'' cfg))
      (fun cfg => Dec.fcons (d cfg) (Dec.fcons (d' cfg) (d'' cfg))) where
  wire x := (cat_assoc _ _ _).symm
  to cfg v x r hx := by
    obtain ⟨w', h, h''⟩ := fcons_inv hx
    obtain ⟨w, h, h'⟩ := fcons_inv h
    exact fcons_ok h (fcons_ok h' h'')
  back cfg v x r hx := by
    obtain ⟨w, h, h'⟩ := fcons_inv hx
    obtain ⟨w', h', h''⟩ := fcons_inv h'
    exact fcons_ok (fcons_ok h h') h''

theorem append : ∀ fs gs : Fields,
    Fmt (fs.appendIso gs) (Enc.fcons fs.wire gs.wire) (fs.append gs).wire (fun cfg => Dec.fcons (fs.dec cfg) (gs.dec cfg))
      (fun cfg => (fs.append gs).dec cfg)
  | .nil, gs => drop gs.wire (fun cfg => gs.dec cfg)
  | .cons s fs, gs =>
    trans (fassoc s.wire fs.wire gs.wire (fun cfg => s.dec cfg) (fun cfg => fs.dec cfg) (fun cfg => gs.dec cfg))
      (fcons (refl s.wire fun cfg => s.dec cfg) (append fs gs))

end Fmt

mutual
theorem Refactor.fmt : ∀ {s s' : Schema} (h : Refactor s s'), Fmt h.iso s.wire s'.wire (fun cfg => s.dec cfg) (fun cfg => s'.dec cfg)
  | _, _, .refl s => Fmt.refl s.wire _
  | _, _, .symm h => h.fmt.symm
  | _, _, .trans h h' => h.fmt.trans h'.fmt
  | _, _, .autobox s => Fmt.refl s.wire _
  | _, _, .unpadded s => Fmt.unpadded s.wire _
  | _, _, .newtype s => Fmt.newtype s.wire _
  | _, _, .vecU8 => Fmt.refl Enc.bytes _
  | _, _, .seqU8 => Fmt.seqU8
  | _, _, .boolEnum => Fmt.boolEnum
  | _, _, .optionUnit => Fmt.optionUnit
  | _, _, .optionArms s => Fmt.optionArms s.wire (fun cfg => s.dec cfg)
  | _, _, .plainEnum w tags h => Fmt.plainEnum w tags h
  | _, _, .fullRange t h h' => Fmt.fullRange t h h'
  | _, _, .inOption h => h.fmt.option
  | _, _, .inNullable h => h.fmt.nullable
  | _, _, .inDynamic S h => h.fmt.dynamic S
  | _, _, .inVpadded n h => h.fmt.vpadded n
  | _, _, .inPadded n h => h.fmt.padded n
  | _, _, .inSeq h => h.fmt.seq
  | _, _, .inFixSeq n h => h.fmt.fixSeq n
  | _, _, .inLimSeq n h => h.fmt.limSeq n
  | _, _, .inAutobox h => h.fmt
  | _, _, .inData w h => Fmt.data w h.fmt
  | _, _, .inRecord h => h.fmt
theorem VRefactor.fmt : ∀ {vs vs' : Variants} (h : VRefactor vs vs'),
    VFmt h.iso vs.wire vs'.wire vs.tags vs'.tags (fun cfg => vs.dec cfg) (fun cfg => vs'.dec cfg)
  | _, _, .refl vs => Fmt.vrefl vs.wire vs.tags _
  | _, _, .symm h => Fmt.vsymm h.fmt
  | _, _, .trans h h' => Fmt.vtrans h.fmt h'.fmt
  | _, _, .cons tag h hs => Fmt.vcons tag h.fmt hs.fmt
  | _, _, .swap t t' s s' vs h =>
    Fmt.vswap h s.wire s'.wire vs.wire vs.tags (fun cfg => s.dec cfg) (fun cfg => s'.dec cfg) (fun cfg => vs.dec cfg)
theorem FRefactor.fmt : ∀ {fs fs' : Fields} (h : FRefactor fs fs'), Fmt h.iso fs.wire fs'.wire (fun cfg => fs.dec cfg) (fun cfg => fs'.dec cfg)
  | _, _, .refl fs => Fmt.refl fs.wire _
  | _, _, .symm h => h.fmt.symm
  | _, _, .trans h h' => h.fmt.trans h'.fmt
  | _, _, .cons h hs => Fmt.fcons h.fmt hs.fmt
  | _, _, .drop fs => Fmt.drop fs.wire (fun cfg => fs.dec cfg)
  | _, _, .flatten fs gs => Fmt.append fs gs
end

/-! ### recursive types -/

section
variable {ρ ρ' : Nat → Schema} {e : ∀ i, Iso (ρ i).Val (ρ' i).Val}

mutual
theorem Schema.fillFmt (he : ∀ i, Fmt (e i) (ρ i).wire (ρ' i).wire (fun cfg => (ρ i).dec cfg) (fun cfg => (ρ' i).dec cfg)) : ∀ s : Schema,
    Fmt (s.fillIso e) (s.fill ρ).wire (s.fill ρ').wire (fun cfg => (s.fill ρ).dec cfg) (fun cfg => (s.fill ρ').dec cfg)
  | .unit => Fmt.refl Enc.unit fun _ => Dec.unit
  | .bool => Fmt.refl Enc.bool fun _ => Dec.bool
  | .int t => Fmt.refl (Enc.int t) fun _ => Dec.int t
  | .f64 => Fmt.refl Enc.f64 fun _ => Dec.f64
  | .rangedInt t min max => Fmt.refl (Enc.rangedInt t min max) fun _ => Dec.rangedInt t min max
  | .rangedFloat min max => Fmt.refl Enc.f64 fun _ => Dec.rangedFloat min max
  | .zarithN => Fmt.refl Enc.zarithN fun _ => Dec.zarithN
  | .zarithZ => Fmt.refl Enc.zarithZ fun _ => Dec.zarithZ
  | .bytes => Fmt.refl Enc.bytes fun _ => Dec.bytes
  | .vecU8 => Fmt.refl Enc.bytes fun _ => Dec.bytes
  | .string => Fmt.refl Enc.string fun _ => Dec.string
  | .fixedBytes n => Fmt.refl (Enc.byteArr n) fun _ => Dec.byteArr n
  | .fixedString n => Fmt.refl (Enc.byteArr n) fun _ => Dec.byteArr n
  | .option s => (s.fillFmt he).option
  | .nullable s => (s.fillFmt he).nullable
  | .dynamic S s => (s.fillFmt he).dynamic S
  | .vpadded n s => (s.fillFmt he).vpadded n
  | .padded n s => (s.fillFmt he).padded n
  | .seq s => (s.fillFmt he).seq
  | .fixSeq n s => (s.fillFmt he).fixSeq n
  | .limSeq n s => (s.fillFmt he).limSeq n
  | .autobox s => s.fillFmt he
  | .hole i => he i
  | .cstyle w tags => Fmt.refl (Enc.cstyle w tags) fun _ => Dec.cstyle w tags
  | .data w vs => Fmt.data w (vs.fillFmt he)
  | .record fs => fs.fillFmt he
theorem Variants.fillFmt (he : ∀ i, Fmt (e i) (ρ i).wire (ρ' i).wire (fun cfg => (ρ i).dec cfg) (fun cfg => (ρ' i).dec cfg)) : ∀ vs : Variants,
    VFmt (vs.fillIso e) (vs.fill ρ).wire (vs.fill ρ').wire (vs.fill ρ).tags (vs.fill ρ').tags (fun cfg => (vs.fill ρ).dec cfg)
      (fun cfg => (vs.fill ρ').dec cfg)
  | .nil => Fmt.vrefl Enc.vnil [] fun _ => Dec.vnil
  | .cons tag s vs => Fmt.vcons tag (s.fillFmt he) (vs.fillFmt he)
theorem Fields.fillFmt (he : ∀ i, Fmt (e i) (ρ i).wire (ρ' i).wire (fun cfg => (ρ i).dec cfg) (fun cfg => (ρ' i).dec cfg)) : ∀ fs : Fields,
    Fmt (fs.fillIso e) (fs.fill ρ).wire (fs.fill ρ').wire (fun cfg => (fs.fill ρ).dec cfg) (fun cfg => (fs.fill ρ').dec cfg)
  | .nil => Fmt.refl Enc.fnil fun _ => Dec.fnil
  | .cons s fs => Fmt.fcons (s.fillFmt he) (fs.fillFmt he)
end

end

theorem Variants.units_fillFmt (ρ : Nat → Schema) : ∀ tags : List Nat,
    VFmt (Variants.unitsFill ρ tags) (Variants.units tags).wire ((Variants.units tags).fill ρ).wire (Variants.units tags).tags
      ((Variants.units tags).fill ρ).tags (fun cfg => (Variants.units tags).dec cfg) (fun cfg => ((Variants.units tags).fill ρ).dec cfg)
  | [] => Fmt.vrefl Enc.vnil [] fun _ => Dec.vnil
  | t :: ts => Fmt.vcons t (Fmt.refl Enc.unit fun _ => Dec.unit) (units_fillFmt ρ ts)

theorem Fields.append_fillFmt (ρ : Nat → Schema) : ∀ fs gs : Fields,
    Fmt (fs.appendFill ρ gs) (Enc.fcons (fs.fill ρ).wire (gs.fill ρ).wire) ((fs.append gs).fill ρ).wire
      (fun cfg => Dec.fcons ((fs.fill ρ).dec cfg) ((gs.fill ρ).dec cfg)) (fun cfg => ((fs.append gs).fill ρ).dec cfg)
  | .nil, gs => Fmt.drop (gs.fill ρ).wire (fun cfg => (gs.fill ρ).dec cfg)
  | .cons s fs, gs =>
    Fmt.trans (Fmt.fassoc (s.fill ρ).wire (fs.fill ρ).wire (gs.fill ρ).wire (fun cfg => (s.fill ρ).dec cfg) (fun cfg => (fs.fill ρ).dec cfg)
      (fun cfg => (gs.fill ρ).dec cfg)) (Fmt.fcons (Fmt.refl (s.fill ρ).wire fun cfg => (s.fill ρ).dec cfg) (append_fillFmt ρ fs gs))

theorem Schema.reflFmt (ρ : Nat → Schema) (i : Nat) :
    Fmt (Iso.refl (ρ i).Val) (ρ i).wire (ρ i).wire (fun cfg => (ρ i).dec cfg) (fun cfg => (ρ i).dec cfg) := Fmt.refl _ _

mutual
theorem Refactor.fillFmt : ∀ {s s' : Schema} (h : Refactor s s') {ρ ρ' : Nat → Schema} {e : ∀ i, Iso (ρ i).Val (ρ' i).Val}
    (_ : ∀ i, Fmt (e i) (ρ i).wire (ρ' i).wire (fun cfg => (ρ i).dec cfg) (fun cfg => (ρ' i).dec cfg)),
    Fmt (h.fillIso e) (s.fill ρ).wire (s'.fill ρ').wire (fun cfg => (s.fill ρ).dec cfg) (fun cfg => (s'.fill ρ').dec cfg)
  | _, _, .refl s, _, _, _, he => s.fillFmt he
  | _, _, .symm h, _, _, _, he => (h.fillFmt fun i => (he i).symm).symm
  | _, _, .trans h h', _, ρ', _, he => (h.fillFmt he).trans (h'.fillFmt (Schema.reflFmt ρ'))
  | _, _, .autobox s, _, _, _, he => s.fillFmt he
  | _, _, .unpadded s, ρ, _, _, he => (Fmt.unpadded (s.fill ρ).wire fun cfg => (s.fill ρ).dec cfg).trans (s.fillFmt he)
  | _, _, .newtype s, ρ, _, _, he => (Fmt.newtype (s.fill ρ).wire fun cfg => (s.fill ρ).dec cfg).trans (s.fillFmt he)
  | _, _, .vecU8, _, _, _, _ => Fmt.refl Enc.bytes fun _ => Dec.bytes
  | _, _, .seqU8, _, _, _, _ => Fmt.seqU8
  | _, _, .boolEnum, _, _, _, _ => Fmt.boolEnum
  | _, _, .optionUnit, _, _, _, _ => Fmt.optionUnit
  | _, _, .optionArms s, _, ρ', _, he => (s.fillFmt he).option.trans (Fmt.optionArms (s.fill ρ').wire fun cfg => (s.fill ρ').dec cfg)
  | _, _, .plainEnum w tags h, _, ρ', _, _ => (Fmt.plainEnum w tags h).trans (Fmt.data w (Variants.units_fillFmt ρ' tags))
  | _, _, .fullRange t h h', _, _, _, _ => Fmt.fullRange t h h'
  | _, _, .inOption h, _, _, _, he => (h.fillFmt he).option
  | _, _, .inNullable h, _, _, _, he => (h.fillFmt he).nullable
  | _, _, .inDynamic S h, _, _, _, he => (h.fillFmt he).dynamic S
  | _, _, .inVpadded n h, _, _, _, he => (h.fillFmt he).vpadded n
  | _, _, .inPadded n h, _, _, _, he => (h.fillFmt he).padded n
  | _, _, .inSeq h, _, _, _, he => (h.fillFmt he).seq
  | _, _, .inFixSeq n h, _, _, _, he => (h.fillFmt he).fixSeq n
  | _, _, .inLimSeq n h, _, _, _, he => (h.fillFmt he).limSeq n
  | _, _, .inAutobox h, _, _, _, he => h.fillFmt he
  | _, _, .inData w h, _, _, _, he => Fmt.data w (h.fillFmt he)
  | _, _, .inRecord h, _, _, _, he => h.fillFmt he
theorem VRefactor.fillFmt : ∀ {vs vs' : Variants} (h : VRefactor vs vs') {ρ ρ' : Nat → Schema} {e : ∀ i, Iso (ρ i).Val (ρ' i).Val}
    (_ : ∀ i, Fmt (e i) (ρ i).wire (ρ' i).wire (fun cfg => (ρ i).dec cfg) (fun cfg => (ρ' i).dec cfg)),
    VFmt (h.fillIso e) (vs.fill ρ).wire (vs'.fill ρ').wire (vs.fill ρ).tags (vs'.fill ρ').tags (fun cfg => (vs.fill ρ).dec cfg)
      (fun cfg => (vs'.fill ρ').dec cfg)
  | _, _, .refl vs, _, _, _, he => vs.fillFmt he
  | _, _, .symm h, _, _, _, he => Fmt.vsymm (h.fillFmt fun i => (he i).symm)
  | _, _, .trans h h', _, ρ', _, he => Fmt.vtrans (h.fillFmt he) (h'.fillFmt (Schema.reflFmt ρ'))
  | _, _, .cons tag h hs, _, _, _, he => Fmt.vcons tag (h.fillFmt he) (hs.fillFmt he)
  | _, _, .swap t t' s s' vs h, _, ρ', _, he =>
    Fmt.vtrans (Fmt.vcons t (s.fillFmt he) (Fmt.vcons t' (s'.fillFmt he) (vs.fillFmt he)))
      (Fmt.vswap h (s.fill ρ').wire (s'.fill ρ').wire (vs.fill ρ').wire (vs.fill ρ').tags (fun cfg => (s.fill ρ').dec cfg)
        (fun cfg => (s'.fill ρ').dec cfg) (fun cfg => (vs.fill ρ').dec cfg))
theorem FRefactor.fillFmt : ∀ {fs fs' : Fields} (h : FRefactor fs fs') {ρ ρ' : Nat → Schema} {e : ∀ i, Iso (ρ i).Val (ρ' i).Val}
    (_ : ∀ i, Fmt (e i) (ρ i).wire (ρ' i).wire (fun cfg => (ρ i).dec cfg) (fun cfg => (ρ' i).dec cfg)),
    Fmt (h.fillIso e) (fs.fill ρ).wire (fs'.fill ρ').wire (fun cfg => (fs.fill ρ).dec cfg) (fun cfg => (fs'.fill ρ').dec cfg)
  | _, _, .refl fs, _, _, _, he => fs.fillFmt he
  | _, _, .symm h, _, _, _, he => (h.fillFmt fun i => (he i).symm).symm
  | _, _, .trans h h', _, ρ', _, he => (h.fillFmt he).trans (h'.fillFmt (Schema.reflFmt ρ'))
  | _, _, .cons h hs, _, _, _, he => Fmt.fcons (h.fillFmt he) (hs.fillFmt he)
  | _, _, .drop fs, ρ, _, _, he => (Fmt.drop (fs.fill ρ).wire fun cfg => (fs.fill ρ).dec cfg).trans (fs.fillFmt he)
  | _, _, .flatten fs gs, _, ρ', _, he => (Fmt.fcons (fs.fillFmt he) (gs.fillFmt he)).trans (Fields.append_fillFmt ρ' fs gs)
end

theorem Decls.fmt {d d' : Decls} (w : ∀ i, Refactor (d.body i) (d'.body i)) : ∀ n i : Nat,
    Fmt (Decls.iso w n i) (d.unfold n i).wire (d'.unfold n i).wire (fun cfg => (d.unfold n i).dec cfg) (fun cfg => (d'.unfold n i).dec cfg)
  | 0, _ => Fmt.refl Enc.hole fun _ => Dec.hole
  | n + 1, i => (w i).fillFmt (fmt w n)

/-! ### the correspondence does not depend on how often one has unfolded -/

/-- Changing the parts of a value commutes with a correspondence. -/
def Sq (i : Iso α α') (j : Iso β β') (f : α → β) (f' : α' → β') : Prop := ∀ x, j.to (f x) = f' (i.to x)

namespace Sq

variable {γ' : Type} {i : Iso α α'} {j : Iso β β'} {f : α → β} {f' : α' → β'}

theorem symm (h : Sq i j f f') : Sq i.symm j.symm f' f := by
  intro y
  show j.back (f' y) = f (i.back y)
  have := h (i.back y)
  rw [i.to_back] at this
  rw [← this, j.back_to]

theorem trans {α'' β'' : Type} {i' : Iso α' α''} {j' : Iso β' β''} {f'' : α'' → β''} (h : Sq i j f f') (h' : Sq i' j' f' f'') :
    Sq (i.trans i') (j.trans j') f f'' := fun x => (congrArg j'.to (h x)).trans (h' (i.to x))

theorem refl (f : α → β) : Sq (Iso.refl α) (Iso.refl β) f f := fun _ => rfl

theorem option (h : Sq i j f f') : Sq i.option j.option (Option.map f) (Option.map f') := fun x => Iso.map_comm h x
theorem list (h : Sq i j f f') : Sq i.list j.list (List.map f) (List.map f') := fun x => Iso.list_comm h x

theorem sum {δ δ' ε ε' : Type} {i₂ : Iso δ δ'} {j₂ : Iso ε ε'} {g : δ → ε} {g' : δ' → ε'} (h : Sq i j f f') (h₂ : Sq i₂ j₂ g g') :
    Sq (i.sum i₂) (j.sum j₂) (Sum.map f g) (Sum.map f' g')
  | .inl x => congrArg Sum.inl (h x)
  | .inr x => congrArg Sum.inr (h₂ x)

theorem prod {δ δ' ε ε' : Type} {i₂ : Iso δ δ'} {j₂ : Iso ε ε'} {g : δ → ε} {g' : δ' → ε'} (h : Sq i j f f') (h₂ : Sq i₂ j₂ g g') :
    Sq (i.prod i₂) (j.prod j₂) (Prod.map f g) (Prod.map f' g')
  | (x, y) => Iso.pair_eq (h x) (h₂ y)

theorem unitR (f : α → β) : Sq Iso.unitR Iso.unitR (Prod.map f fun x => x) f := fun _ => rfl
theorem unitL (f : α → β) : Sq Iso.unitL Iso.unitL (Prod.map (fun x => x) f) f := fun _ => rfl
theorem assoc {δ ε : Type} (f : α → β) (g : γ → γ') (k : δ → ε) :
    Sq Iso.assoc Iso.assoc (Prod.map (Prod.map f g) k) (Prod.map f (Prod.map g k)) := fun _ => rfl
theorem swap {δ ε : Type} (f : α → β) (g : γ → γ') (k : δ → ε) :
    Sq Iso.swap Iso.swap (Sum.map f (Sum.map g k)) (Sum.map g (Sum.map f k)) := fun x => by rcases x with x | x | x <;> rfl
theorem optionArms (f : α → β) : Sq Iso.optionArms Iso.optionArms (Option.map f) (Sum.map (fun x => x) (Sum.map f fun x => x)) :=
  fun x => by cases x <;> rfl

end Sq

section
variable {ρ ρ' ω ω' : Nat → Schema}

theorem Schema.fill_sq {e : ∀ i, Iso (ρ i).Val (ρ' i).Val} {e' : ∀ i, Iso (ω i).Val (ω' i).Val} {f : ∀ i, (ρ i).Val → (ω i).Val}
    {f' : ∀ i, (ρ' i).Val → (ω' i).Val} (hs : ∀ i, Sq (e i) (e' i) (f i) (f' i)) (s : Schema) :
    Sq (s.fillIso e) (s.fillIso e') (s.mapFill f) (s.mapFill f') := s.mapFill_comm hs
theorem Variants.fill_sq {e : ∀ i, Iso (ρ i).Val (ρ' i).Val} {e' : ∀ i, Iso (ω i).Val (ω' i).Val} {f : ∀ i, (ρ i).Val → (ω i).Val}
    {f' : ∀ i, (ρ' i).Val → (ω' i).Val} (hs : ∀ i, Sq (e i) (e' i) (f i) (f' i)) (vs : Variants) :
    Sq (vs.fillIso e) (vs.fillIso e') (vs.mapFill f) (vs.mapFill f') := vs.mapFill_comm hs
theorem Fields.fill_sq {e : ∀ i, Iso (ρ i).Val (ρ' i).Val} {e' : ∀ i, Iso (ω i).Val (ω' i).Val} {f : ∀ i, (ρ i).Val → (ω i).Val}
    {f' : ∀ i, (ρ' i).Val → (ω' i).Val} (hs : ∀ i, Sq (e i) (e' i) (f i) (f' i)) (fs : Fields) :
    Sq (fs.fillIso e) (fs.fillIso e') (fs.mapFill f) (fs.mapFill f') := fs.mapFill_comm hs

theorem Variants.units_sq (f : ∀ i, (ρ i).Val → (ω i).Val) : ∀ tags : List Nat,
    Sq (Variants.unitsFill ρ tags) (Variants.unitsFill ω tags) (fun x => x) ((Variants.units tags).mapFill f)
  | [] => Sq.refl _
  | _ :: ts => fun
    | .inl _ => rfl
    | .inr y => congrArg Sum.inr (units_sq f ts y)

theorem Fields.append_sq (f : ∀ i, (ρ i).Val → (ω i).Val) : ∀ fs gs : Fields,
    Sq (fs.appendFill ρ gs) (fs.appendFill ω gs) (Prod.map (fs.mapFill f) (gs.mapFill f)) ((fs.append gs).mapFill f)
  | .nil, gs => Sq.unitL (gs.mapFill f)
  | .cons s fs, gs => (Sq.assoc (s.mapFill f) (fs.mapFill f) (gs.mapFill f)).trans ((Sq.refl (s.mapFill f)).prod (append_sq f fs gs))

end

mutual
theorem Refactor.sq : ∀ {s s' : Schema} (h : Refactor s s') {ρ ρ' ω ω' : Nat → Schema} {e : ∀ i, Iso (ρ i).Val (ρ' i).Val}
    {e' : ∀ i, Iso (ω i).Val (ω' i).Val} {f : ∀ i, (ρ i).Val → (ω i).Val} {f' : ∀ i, (ρ' i).Val → (ω' i).Val}
    (_ : ∀ i, Sq (e i) (e' i) (f i) (f' i)), Sq (h.fillIso e) (h.fillIso e') (s.mapFill f) (s'.mapFill f')
  | _, _, .refl s, _, _, _, _, _, _, _, _, hs => s.fill_sq hs
  | _, _, .symm h, _, _, _, _, _, _, _, _, hs => (h.sq fun i => (hs i).symm).symm
  | _, _, .trans h h', _, _, _, _, _, _, _, f', hs => (h.sq hs).trans (h'.sq fun i => Sq.refl (f' i))
  | _, _, .autobox s, _, _, _, _, _, _, _, _, hs => s.fill_sq hs
  | _, _, .unpadded s, _, _, _, _, _, _, _, _, hs => s.fill_sq hs
  | _, _, .newtype s, _, _, _, _, _, _, f, _, hs => (Sq.unitR (s.mapFill f)).trans (s.fill_sq hs)
  | _, _, .vecU8, _, _, _, _, _, _, _, _, _ => fun _ => rfl
  | _, _, .seqU8, _, _, _, _, _, _, _, _, _ => fun x => congrArg Iso.byte.list.to (Iso.list_same (fun _ => rfl) x)
  | _, _, .boolEnum, _, _, _, _, _, _, _, _, _ => fun _ => rfl
  | _, _, .optionUnit, _, _, _, _, _, _, _, _, _ => fun x => congrArg Iso.optionUnit.to (Iso.map_same (fun _ => rfl) x)
  | _, _, .optionArms s, _, _, _, _, _, _, _, f', hs => (Sq.option (s.fill_sq hs)).trans (Sq.optionArms (s.mapFill f'))
  | _, _, .plainEnum _ tags _, _, _, _, _, _, _, _, f', _ => Sq.trans (fun _ => rfl) (Variants.units_sq f' tags)
  | _, _, .fullRange _ _ _, _, _, _, _, _, _, _, _, _ => fun _ => rfl
  | _, _, .inOption h, _, _, _, _, _, _, _, _, hs => (h.sq hs).option
  | _, _, .inNullable h, _, _, _, _, _, _, _, _, hs => (h.sq hs).option
  | _, _, .inDynamic _ h, _, _, _, _, _, _, _, _, hs => h.sq hs
  | _, _, .inVpadded _ h, _, _, _, _, _, _, _, _, hs => h.sq hs
  | _, _, .inPadded _ h, _, _, _, _, _, _, _, _, hs => h.sq hs
  | _, _, .inSeq h, _, _, _, _, _, _, _, _, hs => (h.sq hs).list
  | _, _, .inFixSeq _ h, _, _, _, _, _, _, _, _, hs => (h.sq hs).list
  | _, _, .inLimSeq _ h, _, _, _, _, _, _, _, _, hs => (h.sq hs).list
  | _, _, .inAutobox h, _, _, _, _, _, _, _, _, hs => h.sq hs
  | _, _, .inData _ h, _, _, _, _, _, _, _, _, hs => h.sq hs
  | _, _, .inRecord h, _, _, _, _, _, _, _, _, hs => h.sq hs
theorem VRefactor.sq : ∀ {vs vs' : Variants} (h : VRefactor vs vs') {ρ ρ' ω ω' : Nat → Schema} {e : ∀ i, Iso (ρ i).Val (ρ' i).Val}
    {e' : ∀ i, Iso (ω i).Val (ω' i).Val} {f : ∀ i, (ρ i).Val → (ω i).Val} {f' : ∀ i, (ρ' i).Val → (ω' i).Val}
    (_ : ∀ i, Sq (e i) (e' i) (f i) (f' i)), Sq (h.fillIso e) (h.fillIso e') (vs.mapFill f) (vs'.mapFill f')
  | _, _, .refl vs, _, _, _, _, _, _, _, _, hs => vs.fill_sq hs
  | _, _, .symm h, _, _, _, _, _, _, _, _, hs => (h.sq fun i => (hs i).symm).symm
  | _, _, .trans h h', _, _, _, _, _, _, _, f', hs => (h.sq hs).trans (h'.sq fun i => Sq.refl (f' i))
  | _, _, .cons _ h h', _, _, _, _, _, _, _, _, hs => (h.sq hs).sum (h'.sq hs)
  | _, _, .swap _ _ s s' vs _, _, _, _, _, _, _, _, f', hs =>
    (Sq.sum (s.fill_sq hs) (Sq.sum (s'.fill_sq hs) (vs.fill_sq hs))).trans
      (Sq.swap (s.mapFill f') (s'.mapFill f') (vs.mapFill f'))
theorem FRefactor.sq : ∀ {fs fs' : Fields} (h : FRefactor fs fs') {ρ ρ' ω ω' : Nat → Schema} {e : ∀ i, Iso (ρ i).Val (ρ' i).Val}
    {e' : ∀ i, Iso (ω i).Val (ω' i).Val} {f : ∀ i, (ρ i).Val → (ω i).Val} {f' : ∀ i, (ρ' i).Val → (ω' i).Val}
    (_ : ∀ i, Sq (e i) (e' i) (f i) (f' i)), Sq (h.fillIso e) (h.fillIso e') (fs.mapFill f) (fs'.mapFill f')
  | _, _, .refl fs, _, _, _, _, _, _, _, _, hs => fs.fill_sq hs
  | _, _, .symm h, _, _, _, _, _, _, _, _, hs => (h.sq fun i => (hs i).symm).symm
  | _, _, .trans h h', _, _, _, _, _, _, _, f', hs => (h.sq hs).trans (h'.sq fun i => Sq.refl (f' i))
  | _, _, .cons h h', _, _, _, _, _, _, _, _, hs => (h.sq hs).prod (h'.sq hs)
  | _, _, .drop fs, _, _, _, _, _, _, f, _, hs => (Sq.unitL (fs.mapFill f)).trans (fs.fill_sq hs)
  | _, _, .flatten fs gs, _, _, _, _, _, _, _, f', hs =>
    (Sq.prod (fs.fill_sq hs) (gs.fill_sq hs)).trans (Fields.append_sq f' fs gs)
end

namespace Decls

variable {d d' : Decls} (w : ∀ i, Refactor (d.body i) (d'.body i))

theorem iso_lift : ∀ n i : Nat, Sq (iso w n i) (iso w (n + 1) i) (d.lift n i) (d'.lift n i)
  | 0, _ => fun x => nomatch x
  | n + 1, i => (w i).sq (iso_lift n)

/-- Which value of the one family is which of the other. -/
def valIso (i : Nat) : Iso (d.Val i) (d'.Val i) where
  to := Quot.lift (fun p => d'.val p.1 ((iso w p.1 i).to p.2)) fun _ _ h => by
    cases h with
    | step n x =>
      show d'.val n _ = d'.val (n + 1) _
      rw [iso_lift w n i x]
      exact Quot.sound (.step n _)
  back := Quot.lift (fun p => d.val p.1 ((iso w p.1 i).back p.2)) fun _ _ h => by
    cases h with
    | step n x =>
      show d.val n _ = d.val (n + 1) _
      have := (iso_lift w n i).symm x
      have e : (iso w (n + 1) i).back (d'.lift n i x) = d.lift n i ((iso w n i).back x) := this
      rw [e]
      exact Quot.sound (.step n _)
  back_to x := by
    induction x using Quot.ind with
    | mk p => exact congrArg (d.val p.1) ((iso w p.1 i).back_to p.2)
  to_back x := by
    induction x using Quot.ind with
    | mk p => exact congrArg (d'.val p.1) ((iso w p.1 i).to_back p.2)

end Decls

end Verif
