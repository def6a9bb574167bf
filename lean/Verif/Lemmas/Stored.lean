import Verif.Lemmas.Guards
import Verif.Spec.Room
import Verif.Props.Storage
/-
Decoding with storage in view panics where there is no room for a sequence, and does the same as without otherwise.
-/
namespace Verif

variable {α β σ : Type}

theorem Codec.storedFix_room {array : Bool} {size n : Nat} (h : Room array size n) (c : Codec α) :
    Codec.storedFix array size n c = Codec.fixSeq n c := by
  have : ∀ {σ : Type} (P : ParserOps σ), (Codec.storedFix array size n c).parse P = (Codec.fixSeq n c).parse P := by
    intro σ P
    cases array with
    | true => exact funext fun s => (Props.decode_array h c P s).1
    | false => exact funext fun s => (Props.decode_vec h c P s).1
  have e : @Codec.parse _ (Codec.storedFix array size n c) = @Codec.parse _ (Codec.fixSeq n c) :=
    funext fun σ => funext fun P => this P
  show Codec.mk _ _ _ _ = Codec.mk _ _ _ _
  congr 1

theorem Codec.storedLim_room {array : Bool} {size n : Nat} (h : Room array size n) (c : Codec α) :
    Codec.storedLim array size n c = Codec.limSeq n c := by
  have : ∀ {σ : Type} (P : ParserOps σ), (Codec.storedLim array size n c).parse P = (Codec.limSeq n c).parse P := by
    intro σ P
    cases array with
    | true => exact funext fun s => (Props.decode_array h c P s).2
    | false => exact funext fun s => (Props.decode_vec h c P s).2
  have e : @Codec.parse _ (Codec.storedLim array size n c) = @Codec.parse _ (Codec.limSeq n c) :=
    funext fun σ => funext fun P => this P
  show Codec.mk _ _ _ _ = Codec.mk _ _ _ _
  congr 1

theorem Codec.storedFix_none {array : Bool} {size n : Nat} (h : ¬ Room array size n) (c : Codec α) (P : ParserOps σ) (s : σ) :
    (Codec.storedFix array size n c).parse P s = .panic := by
  cases array with
  | true =>
    have ha : (Storage.array α n).new = .panic := if_neg h
    simp only [Codec.storedFix, if_true, Storage.fixParse, ha]; rfl
  | false =>
    have ha : (Storage.vec α size n).new = .panic := if_neg h
    simp only [Codec.storedFix, Bool.false_eq_true, if_false, Storage.fixParse, ha]; rfl

theorem Codec.storedLim_none {array : Bool} {size n : Nat} (h : ¬ Room array size n) (c : Codec α) (P : ParserOps σ) (s : σ) :
    (Codec.storedLim array size n c).parse P s = .panic := by
  cases array with
  | true =>
    have ha : (Storage.array α n).new = .panic := if_neg h
    simp only [Codec.storedLim, if_true, Storage.limParse, ha]; rfl
  | false =>
    have ha : (Storage.vec α size n).new = .panic := if_neg h
    simp only [Codec.storedLim, Bool.false_eq_true, if_false, Storage.limParse, ha]; rfl

namespace Guards

open Codec.Guarded (close_ok push_ok body_ok)

variable {V : α → Prop} {P : ParserOps σ} {c c' : Codec α}

/-- Something that always panics, next to something that yields bad values only. -/
theorem never {V : α → Prop} {m m' : PM σ α} (h : ∀ s, m s = .panic) (hv : ∀ a, ¬ V a) : Guards V m m' :=
  ⟨fun s => .inl (h s), fun s a _ _ => ⟨fun h => absurd h (hv a), fun h' => by rw [h s] at h'; cases h'⟩⟩

variable (h : Guards V (c.parse P) (c'.parse P))
include h

theorem opt : Guards (fun o : Option α => ∀ x, o = some x → V x) ((Codec.option c).parse P) ((Codec.option c').parse P) :=
  .behind _ fun _ => .ite (.map some h fun a => ⟨fun h => h a rfl, fun h x hx => by cases hx; exact h⟩)
    (.ite (.same fun s a s' ha => by cases ha; nofun) (.same fun s a s' ha => by cases ha))

theorem nullable : Guards (fun o : Option α => ∀ x, o = some x → V x) ((Codec.nullable c).parse P) ((Codec.nullable c').parse P) :=
  .behind _ fun _ => .ite (.map some h fun a => ⟨fun h => h a rfl, fun h x hx => by cases hx; exact h⟩)
    (.same fun s a s' ha => by cases ha; nofun)

theorem dynamic (cfg : Cfg) (S : LenPref) : Guards V ((Codec.dynamic cfg S c).parse P) ((Codec.dynamic cfg S c').parse P) :=
  .behind _ fun _ => .behind _ fun _ => .before h fun a s b s' hb => by rw [close_ok hb]

theorem vpadded (cfg : Cfg) (n : Nat) : Guards V ((Codec.vpadded cfg n c).parse P) ((Codec.vpadded cfg n c').parse P) :=
  .behind _ fun r => .ite (.same fun s a s' ha => by cases ha) (by
    cases usub cfg.prof r n with
    | none => exact .same fun s a s' ha => by cases ha
    | some k => exact .behind _ fun _ => .before h fun a s b s' hb => by rw [close_ok hb])

theorem padded (cfg : Cfg) (n : Nat) : Guards V ((Codec.padded cfg n c).parse P) ((Codec.padded cfg n c').parse P) :=
  .before h fun a s b s' hb => by
    rw [M.bind_run] at hb
    cases he : P.consume n s with
    | ok u s1 =>
      rw [he] at hb
      have hb : (if cfg.checkPadding ∧ u ≠ List.replicate n 0 then M.throw (.token (.nonNullPaddingByte u)) else pure a : PM _ _)
        s1 = .ok b s' := hb
      split at hb
      · cases hb
      · cases hb; exact Iff.rfl
    | _ => rw [he] at hb; cases hb

theorem seq : Guards (fun xs => ∀ x ∈ xs, V x) ((Codec.seq c).parse P) ((Codec.seq c').parse P) :=
  .list (fun acc => .behind _ fun r => .ite (.round h acc _ fun a s r s' hr => by cases hr; rfl)
      (.same fun s r s' hr => by cases hr; trivial))
    fun acc s r s' hb => body_ok (fun a s r s' hr => by cases hr; rfl) hb

theorem fixSeq (n : Nat) : Guards (fun xs => ∀ x ∈ xs, V x) ((Codec.fixSeq n c).parse P) ((Codec.fixSeq n c').parse P) :=
  .before (.list (fun acc => .behind _ fun r => .ite (.round h acc _ fun a s r s' hr => push_ok hr)
      (.same fun s r s' hr => by cases hr; trivial))
    fun acc s r s' hb => body_ok (cond := fun m => m ≠ 0 ∧ acc.length < n) (fun a s r s' hr => push_ok hr) hb)
    fun a s b s' hb => by
      split at hb
      · cases hb; exact Iff.rfl
      · cases hb

theorem limSeq (n : Nat) : Guards (fun xs => ∀ x ∈ xs, V x) ((Codec.limSeq n c).parse P) ((Codec.limSeq n c').parse P) :=
  .list (fun acc => .behind _ fun r => .ite (.round h acc _ fun a s r s' hr => push_ok hr)
      (.same fun s r s' hr => by cases hr; trivial))
    fun acc s r s' hb => body_ok (fun a s r s' hr => push_ok hr) hb

theorem storedFix (array : Bool) (size n : Nat) : Guards (fun xs : List α => Room array size n ∧ ∀ x ∈ xs, V x)
    ((Codec.storedFix array size n c).parse P) ((Codec.fixSeq n c').parse P) := by
  by_cases hr : Room array size n
  · rw [Codec.storedFix_room hr]
    exact (fixSeq h n).imp fun _ _ _ _ => and_iff_right hr
  · exact never (fun s => Codec.storedFix_none hr c P s) fun _ h => hr h.1

theorem storedLim (array : Bool) (size n : Nat) : Guards (fun xs : List α => Room array size n ∧ ∀ x ∈ xs, V x)
    ((Codec.storedLim array size n c).parse P) ((Codec.limSeq n c').parse P) := by
  by_cases hr : Room array size n
  · rw [Codec.storedLim_room hr]
    exact (limSeq h n).imp fun _ _ _ _ => and_iff_right hr
  · exact never (fun s => Codec.storedLim_none hr c P s) fun _ h => hr h.1

omit h in
theorem data (w : TagWidth) {v v' : VCodec α} (ht : v.tags = v'.tags) (h : ∀ t, Guards V (v.parse P t) (v'.parse P t)) :
    Guards V ((Codec.data w v).parse P) ((Codec.data w v').parse P) := by
  show Guards V (ParserOps.takeTagword w (w.parse P) v.tags >>= v.parse P) (ParserOps.takeTagword w (w.parse P) v'.tags >>= v'.parse P)
  rw [ht]
  exact .behind _ h

end Guards

theorem Variants.stored_tags (L : Layout) (cfg : Cfg) : ∀ vs : Variants, (vs.storedCodec L cfg).tags = (vs.codec cfg).tags
  | .nil => rfl
  | .cons t _ vs => congrArg (t :: ·) (vs.stored_tags L cfg)

mutual
theorem Schema.stored_guards (L : Layout) (cfg : Cfg) (P : ParserOps σ) :
    ∀ s : Schema, Guards (s.eachPart (RoomPart L)) ((s.storedCodec L cfg).parse P) ((s.codec cfg).parse P)
  | .unit | .bool | .int _ | .f64 | .rangedInt _ _ _ | .rangedFloat _ _ | .zarithN | .zarithZ | .bytes | .vecU8 | .string
  | .fixedBytes _ | .fixedString _ | .hole _ | .cstyle _ _ => .triv _ fun _ => trivial
  | .option s => (Guards.opt (s.stored_guards L cfg P)).imp fun _ _ _ _ => and_iff_right trivial
  | .nullable s => (Guards.nullable (s.stored_guards L cfg P)).imp fun _ _ _ _ => and_iff_right trivial
  | .dynamic S s => (Guards.dynamic (s.stored_guards L cfg P) cfg S).imp fun _ _ _ _ => and_iff_right trivial
  | .vpadded n s => (Guards.vpadded (s.stored_guards L cfg P) cfg n).imp fun _ _ _ _ => and_iff_right trivial
  | .padded n s => (Guards.padded (s.stored_guards L cfg P) cfg n).imp fun _ _ _ _ => and_iff_right trivial
  | .seq s => (Guards.seq (s.stored_guards L cfg P)).imp fun _ _ _ _ => and_iff_right trivial
  | .fixSeq n s => Guards.storedFix (s.stored_guards L cfg P) _ _ n
  | .limSeq n s => Guards.storedLim (s.stored_guards L cfg P) _ _ n
  | .autobox s => (s.stored_guards L cfg P).imp fun _ _ _ _ => and_iff_right trivial
  | .data w vs => (Guards.data w (vs.stored_tags L cfg) (vs.stored_guards L cfg P)).imp fun _ _ _ _ => and_iff_right trivial
  | .record fs => (fs.stored_guards L cfg P).imp fun _ _ _ _ => and_iff_right trivial
theorem Variants.stored_guards (L : Layout) (cfg : Cfg) (P : ParserOps σ) : ∀ (vs : Variants) (t : Nat),
    Guards (vs.eachPart (RoomPart L)) ((vs.storedCodec L cfg).parse P t) ((vs.codec cfg).parse P t)
  | .nil, _ => .triv _ fun _ => trivial
  | .cons _ s vs, t => .ite
    (.map Sum.inl (s.stored_guards L cfg P) fun a => ⟨fun h => h.1 a rfl, fun h => ⟨fun y hy => by cases hy; exact h, nofun⟩⟩)
    (.map Sum.inr (vs.stored_guards L cfg P t) fun a => ⟨fun h => h.2 a rfl, fun h => ⟨nofun, fun y hy => by cases hy; exact h⟩⟩)
theorem Fields.stored_guards (L : Layout) (cfg : Cfg) (P : ParserOps σ) : ∀ fs : Fields,
    Guards (fs.eachPart (RoomPart L)) ((fs.storedCodec L cfg).parse P) ((fs.codec cfg).parse P)
  | .nil => .triv _ fun _ => trivial
  | .cons s fs => .bind (W := fun _ b => fs.eachPart (RoomPart L) b.2) (s.stored_guards L cfg P)
    (fun a => .map (fun b => (a, b)) (fs.stored_guards L cfg P) fun _ => Iff.rfl)
    fun a s b s' hb => by
      rw [M.bind_run] at hb
      cases he : (fs.codec cfg).parse P s with
      | ok u s1 => rw [he] at hb; cases hb; exact Iff.rfl
      | _ => rw [he] at hb; cases hb
end

mutual
theorem Schema.stored_eq (L : Layout) (cfg : Cfg) : ∀ s : Schema, s.HasRoom L → s.storedCodec L cfg = s.codec cfg
  | .unit, _ | .bool, _ | .int _, _ | .f64, _ | .rangedInt _ _ _, _ | .rangedFloat _ _, _ | .zarithN, _ | .zarithZ, _ | .bytes, _
  | .vecU8, _ | .string, _ | .fixedBytes _, _ | .fixedString _, _ | .hole _, _ | .cstyle _ _, _ => rfl
  | .option s, h => congrArg Codec.option (s.stored_eq L cfg h)
  | .nullable s, h => congrArg Codec.nullable (s.stored_eq L cfg h)
  | .dynamic S s, h => congrArg (Codec.dynamic cfg S) (s.stored_eq L cfg h)
  | .vpadded n s, h => congrArg (Codec.vpadded cfg n) (s.stored_eq L cfg h)
  | .padded n s, h => congrArg (Codec.padded cfg n) (s.stored_eq L cfg h)
  | .seq s, h => congrArg Codec.seq (s.stored_eq L cfg h)
  | .fixSeq n s, h => (Codec.storedFix_room h.1 _).trans (congrArg (Codec.fixSeq n) (s.stored_eq L cfg h.2))
  | .limSeq n s, h => (Codec.storedLim_room h.1 _).trans (congrArg (Codec.limSeq n) (s.stored_eq L cfg h.2))
  | .autobox s, h => congrArg Codec.autobox (s.stored_eq L cfg h)
  | .data w vs, h => congrArg (Codec.data w) (vs.stored_eq L cfg h)
  | .record fs, h => congrArg Codec.record (fs.stored_eq L cfg h)
theorem Variants.stored_eq (L : Layout) (cfg : Cfg) : ∀ vs : Variants, vs.HasRoom L → vs.storedCodec L cfg = vs.codec cfg
  | .nil, _ => rfl
  | .cons tag s vs, h => congr (congrArg (VCodec.cons tag) (s.stored_eq L cfg h.1)) (vs.stored_eq L cfg h.2)
theorem Fields.stored_eq (L : Layout) (cfg : Cfg) : ∀ fs : Fields, fs.HasRoom L → fs.storedCodec L cfg = fs.codec cfg
  | .nil, _ => rfl
  | .cons s fs, h => congr (congrArg FCodec.cons (s.stored_eq L cfg h.1)) (fs.stored_eq L cfg h.2)
end

/-- The same encoder and the same estimates. -/
structure Codec.SameEnc (c c' : Codec α) : Prop where
  write : ∀ {τ : Type} (T : TargetOps τ), c.write T = c'.write T
  known : c.known = c'.known
  unknown : c.unknown = c'.unknown

structure VCodec.SameEnc (c c' : VCodec α) : Prop where
  write : ∀ (w : TagWidth) {τ : Type} (T : TargetOps τ), c.write w T = c'.write w T
  unknown : c.unknown = c'.unknown

structure FCodec.SameEnc (c c' : FCodec α) : Prop where
  write : ∀ {τ : Type} (T : TargetOps τ), c.write T = c'.write T
  known : c.known = c'.known
  unknown : c.unknown = c'.unknown

namespace Codec.SameEnc

theorem refl (c : Codec α) : SameEnc c c := ⟨fun _ => rfl, rfl, rfl⟩

variable {c c' : Codec α} (h : SameEnc c c')
include h

theorem estimate : c.estimate = c'.estimate := by
  funext x; unfold Codec.estimate; rw [h.known, h.unknown]

theorem writeList {τ : Type} (T : TargetOps τ) : ∀ xs : List α, c.writeList T xs = c'.writeList T xs
  | [] => rfl
  | x :: xs => by rw [Codec.writeList, Codec.writeList, h.write, writeList T xs]

theorem encLen (cfg : Cfg) : c.encLen cfg = c'.encLen cfg := by
  funext x; unfold Codec.encLen; rw [h.estimate, h.write]

theorem option : SameEnc (Codec.option c) (Codec.option c') where
  write T := by funext x; cases x <;> simp only [Codec.option, h.write]
  known := by simp only [Codec.option, h.known]
  unknown := by funext x; simp only [Codec.option, h.estimate]

theorem nullable : SameEnc (Codec.nullable c) (Codec.nullable c') where
  write T := by funext x; cases x <;> simp only [Codec.nullable, h.write]
  known := by simp only [Codec.nullable, h.known]
  unknown := by funext x; simp only [Codec.nullable, h.estimate]

theorem dynamic (cfg : Cfg) (S : LenPref) : SameEnc (Codec.dynamic cfg S c) (Codec.dynamic cfg S c') where
  write T := by funext x; simp only [Codec.dynamic, h.write, h.encLen cfg]
  known := by simp only [Codec.dynamic, h.known]
  unknown := by funext x; simp only [Codec.dynamic, h.unknown]

theorem vpadded (cfg : Cfg) (n : Nat) : SameEnc (Codec.vpadded cfg n c) (Codec.vpadded cfg n c') :=
  ⟨h.write, h.known, h.unknown⟩

theorem padded (cfg : Cfg) (n : Nat) : SameEnc (Codec.padded cfg n c) (Codec.padded cfg n c') where
  write T := by funext x; simp only [Codec.padded, h.write]
  known := by simp only [Codec.padded, h.known]
  unknown := by funext x; simp only [Codec.padded, h.unknown]

theorem autobox : SameEnc (Codec.autobox c) (Codec.autobox c') := ⟨h.write, h.known, h.unknown⟩

theorem seq : SameEnc (Codec.seq c) (Codec.seq c') where
  write T := by funext xs; simp only [Codec.seq, h.writeList]
  known := rfl
  unknown := by
    funext xs
    show (xs.map c.estimate).sum = (xs.map c'.estimate).sum
    rw [h.estimate]

theorem storedFix (array : Bool) (size n : Nat) : SameEnc (Codec.storedFix array size n c) (Codec.fixSeq n c') where
  write T := by funext xs; simp only [Codec.storedFix, Codec.fixSeq, h.writeList]
  known := by simp only [Codec.storedFix, Codec.fixSeq, h.known]
  unknown := by funext xs; simp only [Codec.storedFix, Codec.fixSeq, h.unknown]

theorem storedLim (array : Bool) (size n : Nat) : SameEnc (Codec.storedLim array size n c) (Codec.limSeq n c') where
  write T := by funext xs; simp only [Codec.storedLim, Codec.limSeq, h.writeList]
  known := rfl
  unknown := by
    funext xs
    show (xs.map c.estimate).sum = (xs.map c'.estimate).sum
    rw [h.estimate]

end Codec.SameEnc

mutual
/-- Encoding and estimates do not depend on storage. -/
theorem Schema.stored_enc (L : Layout) (cfg : Cfg) : ∀ s : Schema, (s.storedCodec L cfg).SameEnc (s.codec cfg)
  | .unit | .bool | .int _ | .f64 | .rangedInt _ _ _ | .rangedFloat _ _ | .zarithN | .zarithZ | .bytes | .vecU8 | .string
  | .fixedBytes _ | .fixedString _ | .hole _ | .cstyle _ _ => .refl _
  | .option s => (s.stored_enc L cfg).option
  | .nullable s => (s.stored_enc L cfg).nullable
  | .dynamic S s => (s.stored_enc L cfg).dynamic cfg S
  | .vpadded n s => (s.stored_enc L cfg).vpadded cfg n
  | .padded n s => (s.stored_enc L cfg).padded cfg n
  | .seq s => (s.stored_enc L cfg).seq
  | .fixSeq n s => (s.stored_enc L cfg).storedFix _ _ n
  | .limSeq n s => (s.stored_enc L cfg).storedLim _ _ n
  | .autobox s => (s.stored_enc L cfg).autobox
  | .data w vs =>
    have h := vs.stored_enc L cfg
    { write := fun T => h.write w T
      known := rfl
      unknown := by funext x; simp only [Schema.storedCodec, Schema.codec, Codec.data, h.unknown] }
  | .record fs =>
    have h := fs.stored_enc L cfg
    { write := fun T => by funext x; simp only [Schema.storedCodec, Schema.codec, Codec.record, h.write]
      known := h.known
      unknown := h.unknown }
theorem Variants.stored_enc (L : Layout) (cfg : Cfg) : ∀ vs : Variants, (vs.storedCodec L cfg).SameEnc (vs.codec cfg)
  | .nil => ⟨fun _ _ _ => rfl, rfl⟩
  | .cons tag s vs =>
    have h := s.stored_enc L cfg
    have hv := vs.stored_enc L cfg
    { write := fun w _ T => by
        funext x
        rcases x with x | x <;> simp only [Variants.storedCodec, Variants.codec, VCodec.cons, h.write, hv.write]
      unknown := by
        funext w x
        rcases x with x | x <;> simp only [Variants.storedCodec, Variants.codec, VCodec.cons, h.estimate, hv.unknown] }
theorem Fields.stored_enc (L : Layout) (cfg : Cfg) : ∀ fs : Fields, (fs.storedCodec L cfg).SameEnc (fs.codec cfg)
  | .nil => ⟨fun _ => rfl, rfl, rfl⟩
  | .cons s fs =>
    have h := s.stored_enc L cfg
    have hv := fs.stored_enc L cfg
    { write := fun T => by funext x; simp only [Fields.storedCodec, Fields.codec, FCodec.cons, h.write, hv.write]
      known := by simp only [Fields.storedCodec, Fields.codec, FCodec.cons, h.known, hv.known]
      unknown := by funext x; simp only [Fields.storedCodec, Fields.codec, FCodec.cons, h.unknown, hv.unknown] }
end

end Verif
