import Verif.Spec.Sized
import Verif.Refine.Sound
/-
Decoders of all types are sound.
-/
namespace Verif

section

variable {σ : Type} {P : ParserOps σ} {pan : Prop} {R : Bytes → List Bytes → σ → Prop} {I : Nat → σ → Prop}

theorem Sound.lenPref (S : Sturdy P pan R I) (lp : LenPref) : Sound R (lp.parse P) (Dec.lenPref lp) :=
  .of_refines (Refines.lenPref (pan' := pan) S.lawful lp) (Tame.lenPref lp)

theorem Dec.lenPref_le {lp : LenPref} {v rest : Bytes} {n : Nat} (h : Dec.lenPref lp v = .ok n rest) : n ≤ lp.maxLen := by
  unfold Dec.lenPref at h
  rw [D.bind_run] at h
  cases ht : (ofBe <$> D.take lp.len : D Nat) v with
  | ok m r =>
    rw [ht] at h
    simp only [DecRes.bind_ok] at h
    split at h
    · cases h; assumption
    · cases h
  | _ => rw [ht] at h; cases h

theorem LenPref.maxLen_small (lp : LenPref) : lp.maxLen ≤ isizeMax := by cases lp <;> decide

theorem Sound.dynamic {α : Type} (S : Sturdy P pan R I) (cfg : Cfg) (lp : LenPref) {c : Codec α} {d : D α}
    (hf : Sound R (c.parse P) d) (hk : Keeps I (c.parse P)) :
    Sound R ((Codec.dynamic cfg lp c).parse P) (Dec.dynamic lp d) := by
  intro v vs s a s' hr ho
  simp only [Codec.dynamic] at ho
  rw [M.bind_run] at ho
  cases h : lp.parse P s with
  | ok n s1 =>
    rw [h, Out.bind_ok] at ho
    obtain ⟨r1, h1, q1⟩ := Sound.lenPref S lp v vs s n s1 hr h
    have h2 := Dec.lenPref_le h1
    have h3 := lp.maxLen_small
    have hm := usizeMod_eq
    obtain ⟨rest, h4, q4⟩ := Sound.window S (n := n) (by omega) hf hk r1 vs s1 a s' q1 ho
    exact ⟨rest, by rw [Dec.dynamic, D.bind_run, h1]; exact h4, q4⟩
  | _ => rw [h] at ho; cases ho

theorem Sound.tag (S : Sturdy P pan R I) (w : TagWidth) (tags : List Nat) :
    Sound R (ParserOps.takeTagword w (w.parse P) tags) (Dec.tag w tags) :=
  .of_refines (Refines.tag (pan' := pan) S.lawful w tags) (Tame.tag w tags)

theorem Sound.option {α : Type} (S : Sturdy P pan R I) {c : Codec α} {d : D α} (hf : Sound R (c.parse P) d) :
    Sound R ((Codec.option c).parse P) (Dec.option d) :=
  .bind (Sound.tag S _ _) fun t => by
    by_cases h : t = 0xff
    · simp only [if_pos h]
      exact .map some hf
    · simp only [if_neg h]
      split
      · exact .pure _
      · exact fun _ _ _ _ _ _ ho => nomatch ho

variable (S : Sturdy P pan R I) (cfg : Cfg)
include S
set_option linter.unusedSectionVars false

mutual
theorem Schema.sound : ∀ s : Schema, s.sized = true → Sound R ((s.codec cfg).parse P) (s.dec cfg)
  | .unit, _ => .of_refines (Schema.parses cfg .unit S.lawful) (Schema.tame_dec cfg .unit rfl)
  | .bool, _ => .of_refines (Schema.parses cfg .bool S.lawful) (Schema.tame_dec cfg .bool rfl)
  | .int t, _ => .of_refines (Schema.parses cfg (.int t) S.lawful) (Schema.tame_dec cfg (.int t) rfl)
  | .f64, _ => .of_refines (Schema.parses cfg .f64 S.lawful) (Schema.tame_dec cfg .f64 rfl)
  | .rangedInt t min max, _ =>
    .of_refines (Schema.parses cfg (.rangedInt t min max) S.lawful) (Schema.tame_dec cfg (.rangedInt t min max) rfl)
  | .rangedFloat min max, _ =>
    .of_refines (Schema.parses cfg (.rangedFloat min max) S.lawful) (Schema.tame_dec cfg (.rangedFloat min max) rfl)
  | .zarithN, _ => .of_refines (Schema.parses cfg .zarithN S.lawful) (Schema.tame_dec cfg .zarithN rfl)
  | .zarithZ, _ => .of_refines (Schema.parses cfg .zarithZ S.lawful) (Schema.tame_dec cfg .zarithZ rfl)
  | .bytes, _ => .of_refines (Schema.parses cfg .bytes S.lawful) (Schema.tame_dec cfg .bytes rfl)
  | .vecU8, _ => .of_refines (Schema.parses cfg .vecU8 S.lawful) (Schema.tame_dec cfg .vecU8 rfl)
  | .string, _ => .of_refines (Schema.parses cfg .string S.lawful) (Schema.tame_dec cfg .string rfl)
  | .fixedBytes n, h => .bind (.takeFixed S (of_decide_eq_true h)) fun _ => .dite (fun _ => .pure _) fun _ => .panic
  | .fixedString n, h => .bind (.takeFixed S (of_decide_eq_true h)) fun _ => .dite (fun _ => .pure _) fun _ => .panic
  | .option s, h => .option S (s.sound h)
  | .nullable s, h => .ifEmpty S.lawful (.map some (s.sound h)) (.pure none)
  | .dynamic lp s, h => .dynamic S cfg lp (s.sound h) (S.closed.schema cfg s)
  | .vpadded n s, h => by
    simp only [Schema.sized, Bool.and_eq_true, decide_eq_true_eq] at h
    exact .vpadded S cfg h.1 (s.sound h.2) (S.closed.schema cfg s)
  | .padded n s, h => by
    simp only [Schema.sized, Bool.and_eq_true, decide_eq_true_eq] at h
    exact .bind (s.sound h.2) fun _ => .bind (.consume S h.1) fun _ => .ite (.throw _ _) (.pure _)
  | .seq s, h => .congr (.many S.lawful (s.sound h) (s.readsPrefix cfg) []) fun v => by
    show _ = D.many (s.dec cfg) v
    cases D.many (s.dec cfg) v <;> rfl
  | .fixSeq n s, h => .bind (.congr (.fixLoop S.lawful (s.sound h) n n [] (by simp)) fun v => D.map_nil_append _ v) fun _ =>
    .ite (.pure _) (.throw _ _)
  | .limSeq n s, h => .congr (.limLoop S.lawful (s.sound h) n _ n [] (by simp)) fun v => D.map_nil_append _ v
  | .autobox s, h => s.sound h
  | .hole _, _ => fun _ _ _ _ _ _ ho => nomatch ho
  | .cstyle w tags, _ => .of_refines (Schema.parses cfg (.cstyle w tags) S.lawful) (Schema.tame_dec cfg (.cstyle w tags) rfl)
  | .data w vs, h => by
    have := Sound.bind (Sound.tag S w (vs.codec cfg).tags) fun t => vs.sound h t
    show Sound R _ (Dec.data w vs.tags (vs.dec cfg))
    rw [← Variants.codec_tags cfg vs]
    exact this
  | .record fs, h => fs.sound h
theorem Variants.sound : ∀ vs : Variants, vs.sized = true → ∀ t, Sound R ((vs.codec cfg).parse P t) (vs.dec cfg t)
  | .nil, _, _ => .panic
  | .cons tag s vs, h, t => by
    simp only [Variants.sized, Bool.and_eq_true] at h
    exact .ite (.map _ (s.sound h.1)) (.map _ (vs.sound h.2 t))
theorem Fields.sound : ∀ fs : Fields, fs.sized = true → Sound R ((fs.codec cfg).parse P) (fs.dec cfg)
  | .nil, _ => .pure _
  | .cons s fs, h => by
    simp only [Fields.sized, Bool.and_eq_true] at h
    exact .bind (s.sound h.1) fun _ => .bind (fs.sound h.2) fun _ => .pure _
end

end

/-- If decoding returns a value on one of the parsers, the wire format says so. -/
theorem Schema.inv (cfg : Cfg) (s : Schema) (h : s.sized = true) {k : Backend} {v : Bytes} {vs : List Bytes}
    {st st' : k.State} {x : s.Val} (hs : k.Holds v vs st) (he : (s.codec cfg).parse (k.ops cfg.prof) st = .ok x st') :
    ∃ rest, s.dec cfg v = .ok x rest ∧ k.Holds rest vs st' := by
  obtain ⟨I, S⟩ := k.sturdy cfg.prof
  exact s.sound S cfg h v vs st x st' hs he

/-! ### the complete-parse check is no business of the codecs -/

mutual
theorem Schema.codec_complete (p : Profile) (enc pad b : Bool) : ∀ s : Schema,
    s.codec ⟨p, enc, pad, b⟩ = s.codec ⟨p, enc, pad, false⟩
  | .unit | .bool | .int _ | .f64 | .rangedInt _ _ _ | .rangedFloat _ _ | .zarithN | .zarithZ | .bytes | .vecU8
  | .string | .fixedBytes _ | .fixedString _ | .cstyle _ _ | .hole _ => rfl
  | .option s => congrArg Codec.option (s.codec_complete p enc pad b)
  | .nullable s => congrArg Codec.nullable (s.codec_complete p enc pad b)
  | .dynamic S s => congrArg (Codec.dynamic ⟨p, enc, pad, false⟩ S) (s.codec_complete p enc pad b)
  | .vpadded n s => congrArg (Codec.vpadded ⟨p, enc, pad, false⟩ n) (s.codec_complete p enc pad b)
  | .padded n s => congrArg (Codec.padded ⟨p, enc, pad, false⟩ n) (s.codec_complete p enc pad b)
  | .seq s => congrArg Codec.seq (s.codec_complete p enc pad b)
  | .fixSeq n s => congrArg (Codec.fixSeq n) (s.codec_complete p enc pad b)
  | .limSeq n s => congrArg (Codec.limSeq n) (s.codec_complete p enc pad b)
  | .autobox s => congrArg Codec.autobox (s.codec_complete p enc pad b)
  | .data w vs => congrArg (Codec.data w) (vs.codec_complete p enc pad b)
  | .record fs => congrArg Codec.record (fs.codec_complete p enc pad b)
theorem Variants.codec_complete (p : Profile) (enc pad b : Bool) : ∀ vs : Variants,
    vs.codec ⟨p, enc, pad, b⟩ = vs.codec ⟨p, enc, pad, false⟩
  | .nil => rfl
  | .cons tag s vs => by
    show VCodec.cons tag (s.codec _) (vs.codec _) = VCodec.cons tag (s.codec _) (vs.codec _)
    rw [s.codec_complete p enc pad b, vs.codec_complete p enc pad b]
theorem Fields.codec_complete (p : Profile) (enc pad b : Bool) : ∀ fs : Fields,
    fs.codec ⟨p, enc, pad, b⟩ = fs.codec ⟨p, enc, pad, false⟩
  | .nil => rfl
  | .cons s fs => by
    show FCodec.cons (s.codec _) (fs.codec _) = FCodec.cons (s.codec _) (fs.codec _)
    rw [s.codec_complete p enc pad b, fs.codec_complete p enc pad b]
end

end Verif
