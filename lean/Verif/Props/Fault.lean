import Verif.Lemmas.Fault
import Verif.Lemmas.Tame
import Verif.Lemmas.Recursive
import Verif.Props.RangeErrors
import Verif.Props.Decode
/-
C82: an error of decoding is the fault of a part of the type and of a stretch of the input.
-/
namespace Verif.Props

open Codec

mutual
/-- The type and all types it is made of. -/
def parts : Schema → List Schema
  | .option s => .option s :: parts s
  | .nullable s => .nullable s :: parts s
  | .dynamic S s => .dynamic S s :: parts s
  | .vpadded n s => .vpadded n s :: parts s
  | .padded n s => .padded n s :: parts s
  | .seq s => .seq s :: parts s
  | .fixSeq n s => .fixSeq n s :: parts s
  | .limSeq n s => .limSeq n s :: parts s
  | .autobox s => .autobox s :: parts s
  | .data w vs => .data w vs :: armParts vs
  | .record fs => .record fs :: fieldParts fs
  | s => [s]
def armParts : Variants → List Schema
  | .nil => []
  | .cons _ s vs => parts s ++ armParts vs
def fieldParts : Fields → List Schema
  | .nil => []
  | .cons s fs => parts s ++ fieldParts fs
end

/-- `q` is all that is left to read, and less than the `n` bytes that are wanted. -/
def Short (n : Nat) (q : Bytes) (e : ParseError) : Prop :=
  q.length < n ∧ ∃ pos lim, e = .window (.consumeWouldExceedLimit pos n lim) ∧ lim - pos = q.length

/-- No room for a window. -/
def NoRoom (e : ParseError) : Prop :=
  (∃ left n, e = .window (.openWouldExceedBuffer left n)) ∨ ∃ lim n, e = .window (.openWouldExceedWindow lim n)

/-- `q` is left over at the end of a window. -/
def Residue (q : Bytes) (e : ParseError) : Prop := q ≠ [] ∧ e = .window (.closeWithResidue q.length)

/-- `q` is none of the tags. -/
def BadTag (w : TagWidth) (tags : List Nat) (q : Bytes) (e : ParseError) : Prop :=
  Short w.len q e ∨ (q.length = w.len ∧ ofBe q ∉ tags ∧
    ((tags ≠ [] ∧ e = .token (.invalidTag w (ofBe q) (some tags))) ∨ (tags = [] ∧ e = .internal .noValidTags)))

/-- The bound of a ranged float that is violated. -/
inductive FloatBlames (min max x : BitVec 64) : BoundsError (BitVec 64) → Prop
  | bounds : ¬ FloatLe min max → FloatBlames min max x (.invalidBounds min max)
  | below : FloatLe min max → ¬ FloatLe min x → FloatBlames min max x (.underflow min x)
  | above : FloatLe min x → ¬ FloatLe x max → FloatBlames min max x (.overflow max x)

/-- `e` is what is wrong with the bytes `q` as (a part of) an encoding of the type itself, whatever its parts. -/
def Own (cfg : Cfg) (t : Schema) (q : Bytes) (e : ParseError) : Prop :=
  match t with
  | .bool => Short 1 q e ∨ ∃ b, q = [b] ∧ b ≠ 0x00 ∧ b ≠ 0xff ∧ e = .token (.invalidBoolean b)
  | .int t => Short t.len q e
  | .f64 => Short 8 q e
  | .rangedInt t min max => Short t.len q e ∨ (q.length = t.len ∧ ∃ e', e = .external (.intRangeViolation e') ∧
      Blames min max (t.toInt (BitVec.ofNat _ (ofBe q))) e')
  | .rangedFloat min max => Short 8 q e ∨ (q.length = 8 ∧ ∃ e', e = .external (.floatRangeViolation e') ∧
      FloatBlames min max (BitVec.ofNat _ (ofBe q)) e')
  | .zarithN | .zarithZ => (∀ b ∈ q, 128 ≤ b.toNat) ∧ e = .token (.nonTerminating q)
  | .fixedBytes n | .fixedString n => Short n q e
  | .option _ => BadTag .u8 [0x00, 0xff] q e
  | .dynamic S _ => Short S.len q e ∨
      (q.length = S.len ∧ S.maxLen < ofBe q ∧ e = .external (.intRangeViolation (.overflow S.maxLen (ofBe q)))) ∨
      (∃ p r, q = p ++ r ∧ p.length = S.len ∧ r.length < ofBe p ∧ ofBe p ≤ S.maxLen ∧ NoRoom e) ∨ Residue q e
  | .vpadded _ _ => Residue q e
  | .padded n _ => Short n q e ∨ (cfg.checkPadding = true ∧ q.length = n ∧ q ≠ List.replicate n 0 ∧
      e = .token (.nonNullPaddingByte q))
  | .fixSeq n _ => ∃ m, m < n ∧ e = .external (.lengthViolation (.wrongLength n m))
  | .limSeq n _ => e = .external (.lengthViolation (.tooLong n (n + 1)))
  | .cstyle w tags => BadTag w tags q e
  | .data w vs => BadTag w vs.tags q e
  | .unit | .bytes | .vecU8 | .string | .nullable _ | .seq _ | .autobox _ | .hole _ | .record _ => False

/-- `e` is the fault of a part of the type. -/
def Fault (cfg : Cfg) (s : Schema) (q : Bytes) (e : ParseError) : Prop := ∃ t ∈ parts s, Own cfg t q e

/-! ### the decoders of the wire format -/

theorem short_err {n : Nat} {q : Bytes} (h : q.length < n) : Short n q (D.shortErr n q.length) :=
  ⟨h, 0, q.length, rfl, rfl⟩

theorem tag_finds {F : Bytes → ParseError → Prop} {w : TagWidth} {tags : List Nat} (h : ∀ q e, BadTag w tags q e → F q e) :
    Finds F (Dec.tag w tags) := by
  have : Finds F (D.take w.len >>= fun q => if ofBe q ∈ tags then (pure (ofBe q) : D Nat)
      else if tags = [] then D.throw (.internal .noValidTags)
      else D.throw (.token (.invalidTag w (ofBe q) (some tags)))) := by
    refine Finds.takeCheck (fun q hq => h _ _ (.inl (short_err hq))) fun q v e hq he => h _ _ (.inr ⟨hq, ?_⟩)
    split at he
    · cases he
    · rename_i hm
      split at he
      · rename_i ht; cases he; exact ⟨hm, .inr ⟨ht, rfl⟩⟩
      · rename_i ht; cases he; exact ⟨hm, .inl ⟨ht, rfl⟩⟩
  intro v e hd
  refine this v e ?_
  rw [← hd]
  simp only [Dec.tag, D.bind_run, D.map_run]
  cases D.take w.len v <;> rfl

theorem dynamic_finds {α : Type} {F : Bytes → ParseError → Prop} {cfg : Cfg} {S : LenPref} {s : Schema} {d : D α}
    (hr : ReadsPrefix d) (h : Finds F d) (ho : ∀ q e, Own cfg (.dynamic S s) q e → F q e) :
    Finds F (Dec.dynamic S d) := by
  intro v e hd
  simp only [Dec.dynamic, Dec.lenPref, D.bind_run, D.map_run] at hd
  unfold D.take at hd
  split at hd
  · rename_i hl
    have hp : (v.take S.len).length = S.len := by rw [List.length_take]; omega
    simp only [DecRes.bind_ok] at hd
    split at hd
    · rename_i hm
      rw [D.pure_run, DecRes.bind_ok] at hd
      by_cases hn : ofBe (v.take S.len) ≤ (v.drop S.len).length
      · obtain ⟨q, hq, hF⟩ := Finds.windowIn hr h (fun q hq => ho _ _ (.inr (.inr (.inr ⟨hq, rfl⟩)))) hn hd
        exact ⟨q, hq.trans (List.drop_suffix _ v).isInfix, hF⟩
      · unfold D.window at hd
        rw [if_neg hn] at hd
        unfold D.short at hd
        split at hd <;> cases hd
        exact ⟨v, List.infix_rfl, ho _ _ (.inr (.inr (.inl ⟨_, _, (List.take_append_drop S.len v).symm, hp, by omega, hm,
          .inr ⟨_, _, rfl⟩⟩)))⟩
    · rename_i hm
      cases hd
      exact ⟨_, (List.take_prefix S.len v).isInfix, ho _ _ (.inr (.inl ⟨hp, by omega, rfl⟩))⟩
  · rename_i hl
    unfold D.short at hd
    split at hd <;> cases hd
    exact ⟨v, List.infix_rfl, ho _ _ (.inl (short_err (by omega)))⟩

theorem rangedInt_finds {cfg : Cfg} (t : IntTy) (min max : Int) :
    Finds (Own cfg (.rangedInt t min max)) (Dec.rangedInt t min max) := by
  have : Finds (Own cfg (.rangedInt t min max)) (D.take t.len >>= fun q =>
      Dec.check ((restrict (t.toInt (BitVec.ofNat _ (ofBe q))) min max).map fun _ => (BitVec.ofNat _ (ofBe q) : t.Val))
        (fun e => .external (.intRangeViolation e))) := by
    refine Finds.takeCheck (fun q hq => .inl (short_err hq)) fun q v e hq he => .inr ⟨hq, ?_⟩
    unfold Dec.check at he
    cases hr : restrict (t.toInt (BitVec.ofNat _ (ofBe q))) min max with
    | ok => rw [hr] at he; cases he
    | error e' => rw [hr] at he; cases he; exact ⟨e', rfl, restrict_blames.mp hr⟩
  intro v e hd
  refine this v e ?_
  rw [← hd]
  simp only [Dec.rangedInt, Dec.int, D.bind_run, D.map_run]
  cases D.take t.len v <;> rfl

theorem restrictFloat_blames {min max x : BitVec 64} {e : BoundsError (BitVec 64)} (h : restrictFloat x min max = .error e) :
    FloatBlames min max x e := by
  simp only [restrictFloat] at h
  split at h
  · rename_i h1
    split at h
    · rename_i h2
      split at h
      · cases h
      · rename_i h3
        cases h
        exact .above ((le_iff_floatLe _ _).mp h2) fun h => h3 ((le_iff_floatLe _ _).mpr h)
    · rename_i h2
      cases h
      exact .below ((le_iff_floatLe _ _).mp h1) fun h => h2 ((le_iff_floatLe _ _).mpr h)
  · rename_i h1
    cases h
    exact .bounds fun h => h1 ((le_iff_floatLe _ _).mpr h)

theorem rangedFloat_finds {cfg : Cfg} (min max : BitVec 64) :
    Finds (Own cfg (.rangedFloat min max)) (Dec.rangedFloat min max) := by
  have : Finds (Own cfg (.rangedFloat min max)) (D.take 8 >>= fun q =>
      Dec.check (restrictFloat (BitVec.ofNat _ (ofBe q)) min max) (fun e => .external (.floatRangeViolation e))) := by
    refine Finds.takeCheck (fun q hq => .inl (short_err hq)) fun q v e hq he => .inr ⟨hq, ?_⟩
    unfold Dec.check at he
    cases hr : restrictFloat (BitVec.ofNat _ (ofBe q)) min max with
    | ok => rw [hr] at he; cases he
    | error e' => rw [hr] at he; cases he; exact ⟨e', rfl, restrictFloat_blames hr⟩
  intro v e hd
  refine this v e ?_
  rw [← hd]
  simp only [Dec.rangedFloat, Dec.f64, D.bind_run, D.map_run]
  cases D.take 8 v <;> rfl

theorem terminated_finds {F : Bytes → ParseError → Prop}
    (h : ∀ q : Bytes, (∀ b ∈ q, 128 ≤ b.toNat) → F q (.token (.nonTerminating q))) : Finds F Dec.terminated :=
  Finds.until_ fun q hq => h q fun b hb => by simpa using hq b hb

theorem Fault.self {cfg : Cfg} {s : Schema} {q : Bytes} {e : ParseError} (h : Own cfg s q e) : Fault cfg s q e :=
  ⟨s, by cases s <;> simp only [parts] <;> exact .head _, h⟩

theorem Finds.atom {α : Type} {cfg : Cfg} {s : Schema} {d : D α} (h : Finds (Own cfg s) d) : Finds (Fault cfg s) d :=
  h.mono fun _ _ => Fault.self

theorem Finds.within {α : Type} {cfg : Cfg} {s : Schema} {F : Bytes → ParseError → Prop} {d : D α}
    (h : Finds (Fault cfg s) d) (hF : ∀ t ∈ parts s, ∀ q e, Own cfg t q e → F q e) : Finds F d :=
  h.mono fun q e ⟨t, ht, ho⟩ => hF t ht q e ho

mutual
theorem dec_finds (cfg : Cfg) : ∀ s : Schema, Finds (Fault cfg s) (s.dec cfg)
  | .unit => .pure _
  | .bool => Finds.atom (Finds.byteCheck (.inl (short_err Nat.one_pos)) fun b v e he => by
      split at he
      · cases he
      · split at he
        · cases he
        · rename_i h1 h2; cases he; exact .inr ⟨b, rfl, h2, h1, rfl⟩)
  | .int t => Finds.atom (.map (.take fun _ h => short_err h) _)
  | .f64 => Finds.atom (.map (.take fun _ h => short_err h) _)
  | .rangedInt t min max => Finds.atom (rangedInt_finds t min max)
  | .rangedFloat min max => Finds.atom (rangedFloat_finds min max)
  | .zarithN => Finds.atom (.map (terminated_finds fun _ h => ⟨h, rfl⟩) _)
  | .zarithZ => Finds.atom (.map (terminated_finds fun _ h => ⟨h, rfl⟩) _)
  | .bytes => .rest
  | .vecU8 => .rest
  | .string => .map .rest _
  | .fixedBytes n => Finds.atom (.bind (.take n) (.take fun _ h => short_err h) fun _ => .dite (fun _ => .pure _) fun _ => .panic)
  | .fixedString n => Finds.atom (.bind (.take n) (.take fun _ h => short_err h) fun _ => .dite (fun _ => .pure _) fun _ => .panic)
  | .option s => .bind (.tag _ _) (tag_finds fun _ _ h => Fault.self h) fun _ =>
      .ite (.map (Finds.within (dec_finds cfg s) fun t ht _ _ ho => ⟨t, .tail _ ht, ho⟩) _) (.pure _)
  | .nullable s => .ifEmpty (.pure _) (.map (Finds.within (dec_finds cfg s) fun t ht _ _ ho => ⟨t, .tail _ ht, ho⟩) _)
  | .dynamic S s => dynamic_finds (s := s) (s.readsPrefix cfg)
      (Finds.within (dec_finds cfg s) fun t ht _ _ ho => ⟨t, .tail _ ht, ho⟩) fun _ _ h => Fault.self h
  | .vpadded n s => fun v e hd => by
      unfold Schema.dec Dec.vpadded at hd
      split at hd
      · exact Finds.windowIn (F := Fault cfg (.vpadded n s)) (s.readsPrefix cfg)
          (Finds.within (dec_finds cfg s) fun t ht _ _ ho => ⟨t, .tail _ ht, ho⟩)
          (fun q hq => Fault.self (s := .vpadded n s) ⟨hq, rfl⟩) (Nat.sub_le _ _) hd
      · split at hd <;> cases hd
  | .padded n s => .bind (s.readsPrefix cfg) (Finds.within (dec_finds cfg s) fun t ht _ _ ho => ⟨t, .tail _ ht, ho⟩) fun _ =>
      .takeCheck (fun _ h => Fault.self (.inl (short_err h))) fun q v e hq he => Fault.self (by
        split at he
        · rename_i h; cases he; exact .inr ⟨h.1, hq, h.2, rfl⟩
        · cases he)
  | .seq s => .many (s.readsPrefix cfg) (Finds.within (dec_finds cfg s) fun t ht _ _ ho => ⟨t, .tail _ ht, ho⟩)
  | .fixSeq n s => .fixSeq (s.readsPrefix cfg) (Finds.within (dec_finds cfg s) fun t ht _ _ ho => ⟨t, .tail _ ht, ho⟩)
      fun m hm => Fault.self ⟨m, hm, rfl⟩
  | .limSeq n s => .manyMax (s.readsPrefix cfg) (Finds.within (dec_finds cfg s) fun t ht _ _ ho => ⟨t, .tail _ ht, ho⟩)
      (Fault.self (s := .limSeq n s) (q := []) rfl) n
  | .autobox s => Finds.within (dec_finds cfg s) fun t ht _ _ ho => ⟨t, .tail _ ht, ho⟩
  | .hole _ => fun _ _ h => nomatch h
  | .cstyle w tags => Finds.atom (.bind (.tag _ _) (tag_finds fun _ _ h => h) fun _ => .dite (fun _ => .pure _) fun _ => .panic)
  | .data w vs => .bind (.tag _ _) (tag_finds fun _ _ h => Fault.self h) fun t =>
      (arms_finds cfg vs t).mono fun _ _ ⟨t, ht, ho⟩ => ⟨t, .tail _ ht, ho⟩
  | .record fs => (fields_finds cfg fs).mono fun _ _ ⟨t, ht, ho⟩ => ⟨t, .tail _ ht, ho⟩
theorem arms_finds (cfg : Cfg) : ∀ (vs : Variants) (t : Nat),
    Finds (fun q e => ∃ t ∈ armParts vs, Own cfg t q e) (vs.dec cfg t)
  | .nil, _ => .panic
  | .cons _ s vs, t => .ite
      (.map (Finds.within (dec_finds cfg s) fun t ht _ _ ho => ⟨t, List.mem_append_left _ ht, ho⟩) _)
      (.map ((arms_finds cfg vs t).mono fun _ _ ⟨t, ht, ho⟩ => ⟨t, List.mem_append_right _ ht, ho⟩) _)
theorem fields_finds (cfg : Cfg) : ∀ fs : Fields, Finds (fun q e => ∃ t ∈ fieldParts fs, Own cfg t q e) (fs.dec cfg)
  | .nil => .pure _
  | .cons s fs => .bind (s.readsPrefix cfg)
      (Finds.within (dec_finds cfg s) fun t ht _ _ ho => ⟨t, List.mem_append_left _ ht, ho⟩) fun _ =>
      .bind (fs.readsPrefix cfg) ((fields_finds cfg fs).mono fun _ _ ⟨t, ht, ho⟩ => ⟨t, List.mem_append_right _ ht, ho⟩)
        fun _ => .pure _
end

/-! ### positions in errors -/

theorem short_kind {n : Nat} {q : Bytes} {e : ParseError} (h : Short n q e.kind) : Short n q e := by
  obtain ⟨hl, pos, lim, he, hq⟩ := h
  refine ⟨hl, ?_⟩
  cases e with
  | window e =>
    cases e with
    | consumeWouldExceedLimit pos' n' lim' => cases he; exact ⟨pos', lim', rfl, hq⟩
    | _ => cases he
  | _ => cases he

theorem noRoom_kind {e : ParseError} (h : NoRoom e.kind) : NoRoom e := by
  cases e with
  | window e =>
    cases e with
    | openWouldExceedBuffer => exact .inl ⟨_, _, rfl⟩
    | openWouldExceedWindow => exact .inr ⟨_, _, rfl⟩
    | consumeWouldExceedLimit => rcases h with ⟨_, _, h⟩ | ⟨_, _, h⟩ <;> cases h
    | _ => exact h
  | _ => exact h

theorem kind_eq_of {e e' : ParseError} (h : e.kind = e') (hs : ∀ a b c, e' ≠ .window (.consumeWouldExceedLimit a b c))
    (ho : e' ≠ Cursor.openErr) : e = e' := by
  cases e with
  | window e =>
    cases e with
    | consumeWouldExceedLimit => exact absurd h.symm (hs _ _ _)
    | openWouldExceedBuffer => exact absurd h.symm ho
    | openWouldExceedWindow => exact absurd h.symm ho
    | _ => exact h
  | _ => exact h

theorem badTag_kind {w : TagWidth} {tags : List Nat} {q : Bytes} {e : ParseError} (h : BadTag w tags q e.kind) :
    BadTag w tags q e := by
  rcases h with h | ⟨h1, h2, ⟨h3, h4⟩ | ⟨h3, h4⟩⟩
  · exact .inl (short_kind h)
  · exact .inr ⟨h1, h2, .inl ⟨h3, kind_eq_of h4 nofun nofun⟩⟩
  · exact .inr ⟨h1, h2, .inr ⟨h3, kind_eq_of h4 nofun nofun⟩⟩

theorem residue_kind {q : Bytes} {e : ParseError} (h : Residue q e.kind) : Residue q e :=
  ⟨h.1, kind_eq_of h.2 nofun nofun⟩

theorem own_kind {cfg : Cfg} {t : Schema} {q : Bytes} {e : ParseError} (h : Own cfg t q e.kind) : Own cfg t q e := by
  cases t with
  | bool => exact h.imp short_kind fun ⟨b, h1, h2, h3, h4⟩ => ⟨b, h1, h2, h3, kind_eq_of h4 nofun nofun⟩
  | int | f64 | fixedBytes | fixedString => exact short_kind h
  | rangedInt => exact h.imp short_kind fun ⟨h1, e', h2, h3⟩ => ⟨h1, e', kind_eq_of h2 nofun nofun, h3⟩
  | rangedFloat => exact h.imp short_kind fun ⟨h1, e', h2, h3⟩ => ⟨h1, e', kind_eq_of h2 nofun nofun, h3⟩
  | zarithN | zarithZ => exact ⟨h.1, kind_eq_of h.2 nofun nofun⟩
  | option | cstyle | data => exact badTag_kind h
  | dynamic =>
    rcases h with h | ⟨h1, h2, h3⟩ | ⟨p, r, h1, h2, h3, h4, h5⟩ | h
    · exact .inl (short_kind h)
    · exact .inr (.inl ⟨h1, h2, kind_eq_of h3 nofun nofun⟩)
    · exact .inr (.inr (.inl ⟨p, r, h1, h2, h3, h4, noRoom_kind h5⟩))
    · exact .inr (.inr (.inr (residue_kind h)))
  | vpadded => exact residue_kind h
  | padded => exact h.imp short_kind fun ⟨h1, h2, h3, h4⟩ => ⟨h1, h2, h3, kind_eq_of h4 nofun nofun⟩
  | fixSeq => exact h.imp fun m h => ⟨h.1, kind_eq_of h.2 nofun nofun⟩
  | limSeq => exact kind_eq_of h nofun nofun
  | _ => exact h

/-! ### C82 -/

/-- C82: when decoding fails, a part of the type is to blame together with a stretch of the readable bytes, and the error
says truthfully what is wrong with them: bytes are missing (how many are wanted and how many there are), left over
(how many), a tag that is none of the valid ones (which tag, which ones), a bound that is violated (by which number),
padding that is not zero (which bytes), a number without end (which bytes), too few or too many elements.  (Missing:
types with `VPadded` in release builds, and arrays larger than memory, see `C82_wrapped`.) -/
theorem C82_fault_partial (cfg : Cfg) (s : Schema) (ht : s.tame cfg.prof = true) (k : Backend) (v : Bytes) (vs : List Bytes)
    (st st' : k.State) (hs : k.Holds v vs st) (e : ParseError) (he : (s.codec cfg).parse (k.ops cfg.prof) st = .err e st') :
    ∃ q, q <:+: v ∧ Fault cfg s q e := by
  have hm := Parses.on (s.parses cfg) cfg k v vs st hs
  rw [he] at hm
  cases hd : s.dec cfg v with
  | wild => exact absurd hd (s.tame_dec cfg ht v)
  | ok a r => rw [hd] at hm; obtain ⟨_, h, _⟩ := hm; cases h
  | panic => rw [hd] at hm; cases hm
  | diverge => rw [hd] at hm; cases hm
  | err e' =>
    rw [hd] at hm
    rcases hm with ⟨e1, s1, h1, hk⟩ | ⟨_, h1⟩
    · cases h1
      subst hk
      obtain ⟨q, hq, t, ht, ho⟩ := dec_finds cfg s v _ hd
      exact ⟨q, hq, t, ht, own_kind ho⟩
    · cases h1

theorem finish_parse {α : Type} {cfg : Cfg} {k : Backend} {a : α} {r : Bytes} {st : k.State} {e : ParseError}
    (hs : k.Holds r [] st) (h : k.finish cfg a st = .err (.parse e) ()) : False := by
  cases hc : cfg.completeParse with
  | false => rw [finish_plain hc] at h; cases h
  | true =>
    by_cases hk : k = .slice
    · subst hk
      obtain ⟨l, h1, _⟩ := finish_slice hc a hs
      rw [h1] at h
      cases h
    · rw [finish_complete hc hk a hs] at h
      split at h <;> cases h

/-- C82 for `try_decode`, whether or not it checks that all input is used. -/
theorem C82_try_decode_partial (cfg : Cfg) (s : Schema) (ht : s.tame cfg.prof = true) (k : Backend) (buf : Bytes)
    (hb : buf.length ≤ isizeMax) (e : ParseError) (he : (s.codec cfg).tryDecode cfg k buf = .err (.parse e) ()) :
    ∃ q, q <:+: buf ∧ Fault cfg s q e := by
  have h := tryDecode_cases (Parses.on (s.parses cfg) cfg) k hb
  cases hd : s.dec cfg buf with
  | wild => exact absurd hd (s.tame_dec cfg ht buf)
  | ok a r =>
    rw [hd] at h
    obtain ⟨st, hs, h⟩ := h
    rw [h] at he
    exact (finish_parse hs he).elim
  | panic => rw [hd] at h; rw [show _ = _ from h] at he; cases he
  | diverge => rw [hd] at h; rw [show _ = _ from h] at he; cases he
  | err e' =>
    rw [hd] at h
    rcases h with ⟨e1, h1, hk⟩ | ⟨_, _, _, h1⟩
    · rw [h1] at he
      cases he
      subst hk
      obtain ⟨q, hq, t, ht, ho⟩ := dec_finds cfg s buf _ hd
      exact ⟨q, hq, t, ht, own_kind ho⟩
    · rw [h1] at he; cases he

/-- C82: so the errors that would be bugs of the library or of the caller are never reported: a position beyond the end of a
window, a window closed that was not open, bytes that do not fit an array, numbers that cannot be converted, text
that is no UTF-8 (it is repaired), errors of other crates; and that there are no valid tags only of enums that have none. -/
theorem C82_never (cfg : Cfg) (s : Schema) (q : Bytes) (e : ParseError) (h : Fault cfg s q e) :
    (∀ n, e ≠ .window (.offsetOverflow n)) ∧ e ≠ .window .closeWithoutWindow ∧ e ≠ .internal .sliceCoerceFailure ∧
    e ≠ .external .uncoercableString ∧ e ≠ .external .genericError ∧ e ≠ .external (.intRangeViolation .failed) ∧
    e ≠ .external (.floatRangeViolation .failed) ∧ (∀ w, e ≠ .external (.widthViolation w)) ∧
    (e = .internal .noValidTags → ∃ w, .cstyle w [] ∈ parts s ∨ .data w .nil ∈ parts s) := by
  obtain ⟨t, ht, ho⟩ := h
  have htag : ∀ {w tags}, BadTag w tags q e → (∃ p n l, e = .window (.consumeWouldExceedLimit p n l)) ∨
      (∃ x, e = .token x) ∨ (tags = [] ∧ e = .internal .noValidTags) := fun h => by
    rcases h with ⟨_, p, l, h, _⟩ | ⟨_, _, ⟨_, h⟩ | h⟩
    · exact .inl ⟨_, _, _, h⟩
    · exact .inr (.inl ⟨_, h⟩)
    · exact .inr (.inr h)
  cases t
  case bool =>
    rcases ho with ⟨_, _, _, rfl, _⟩ | ⟨_, _, _, _, rfl⟩ <;> simp
  case int => obtain ⟨_, _, _, rfl, _⟩ := ho; simp
  case f64 => obtain ⟨_, _, _, rfl, _⟩ := ho; simp
  case rangedInt =>
    rcases ho with ⟨_, _, _, rfl, _⟩ | ⟨_, e', rfl, ⟨_, h⟩ | ⟨_, h⟩⟩
    · simp
    · cases h <;> simp
    · cases h <;> simp
  case rangedFloat =>
    rcases ho with ⟨_, _, _, rfl, _⟩ | ⟨_, e', rfl, h⟩
    · simp
    · cases h <;> simp
  case zarithN => obtain ⟨_, rfl⟩ := ho; simp
  case zarithZ => obtain ⟨_, rfl⟩ := ho; simp
  case fixedBytes => obtain ⟨_, _, _, rfl, _⟩ := ho; simp
  case fixedString => obtain ⟨_, _, _, rfl, _⟩ := ho; simp
  case option =>
    rcases htag ho with ⟨_, _, _, rfl⟩ | ⟨_, rfl⟩ | ⟨h, _⟩
    · simp
    · simp
    · cases h
  case dynamic =>
    rcases ho with ⟨_, _, _, rfl, _⟩ | ⟨_, _, rfl⟩ | ⟨_, _, _, _, _, _, ⟨_, _, rfl⟩ | ⟨_, _, rfl⟩⟩ | ⟨_, rfl⟩ <;> simp
  case vpadded => obtain ⟨_, rfl⟩ := ho; simp
  case padded =>
    rcases ho with ⟨_, _, _, rfl, _⟩ | ⟨_, _, _, rfl⟩ <;> simp
  case fixSeq => obtain ⟨_, _, rfl⟩ := ho; simp
  case limSeq => cases ho; simp
  case cstyle w tags =>
    rcases htag ho with ⟨_, _, _, rfl⟩ | ⟨_, rfl⟩ | ⟨rfl, rfl⟩
    · simp
    · simp
    · refine ⟨by simp, by simp, by simp, by simp, by simp, by simp, by simp, by simp, fun _ => ⟨w, .inl ht⟩⟩
  case data w vs =>
    rcases htag ho with ⟨_, _, _, rfl⟩ | ⟨_, rfl⟩ | ⟨h, rfl⟩
    · simp
    · simp
    · cases vs with
      | nil => refine ⟨by simp, by simp, by simp, by simp, by simp, by simp, by simp, by simp, fun _ => ⟨w, .inr ht⟩⟩
      | cons => cases h
  all_goals exact False.elim ho

/-- C82 for recursive types: the part is one of the type written out far enough. -/
theorem C82_recursive_partial (cfg : Cfg) (d : Decls) {i : Nat} (ht : ∀ j, (d.body j).tame cfg.prof = true)
    (k : Backend) (v : Bytes) (vs : List Bytes) (st st' : k.State) (hs : k.Holds v vs st) (e : ParseError)
    (he : (d.codec cfg i).parse (k.ops cfg.prof) st = .err e st') :
    ∃ n q, q <:+: v ∧ Fault cfg (d.unfold n i) q e := by
  by_cases hex : ∃ n, ((d.unfold n i).codec cfg).parse (k.ops cfg.prof) st ≠ .diverge
  · obtain ⟨n, hn⟩ := hex
    rw [d.parse_eq hn, M.map_run] at he
    refine ⟨n, ?_⟩
    cases h : ((d.unfold n i).codec cfg).parse (k.ops cfg.prof) st with
    | err e' s' => rw [h] at he; cases he; exact C82_fault_partial cfg _ (d.tame cfg.prof ht n i) k v vs st _ hs e h
    | _ => rw [h] at he; cases he
  · rw [show (d.codec cfg i).parse (k.ops cfg.prof) st = .diverge from dif_neg hex] at he
    cases he

/-- C82 fails for `VPadded` in release builds: bytes that are missing are reported as a window that was asked for with
`usize::MAX` bytes, though nothing in the type has a length prefix. -/
theorem C82_wrapped (enc pad compl : Bool) :
    ∃ e, (badSchema.codec ⟨.release, enc, pad, compl⟩).tryDecode ⟨.release, enc, pad, compl⟩ .slice [7, 8, 9, 10] =
      .err (.parse e) () ∧ ∀ q, ¬ Fault ⟨.release, enc, pad, compl⟩ badSchema q e := by
  refine ⟨_, (C09_fails enc pad compl).2.2, ?_⟩
  rintro q ⟨t, ht, ho⟩
  simp only [badSchema, parts, fieldParts, List.mem_cons, List.mem_append, List.not_mem_nil, or_false, List.append_nil] at ht
  rcases ht with rfl | rfl | rfl | rfl
  · exact ho
  · obtain ⟨_, _, _, h, _⟩ := ho; cases h
  · obtain ⟨_, h⟩ := ho; cases h
  · exact ho

/-- The hypotheses are met: an invalid tag within a window within a record. -/
example (cfg : Cfg) (k : Backend) :
    let s : Schema := .record (.cons (.int .u8) (.cons (.dynamic .u8 (.option (.int .u16))) .nil))
    s.tame cfg.prof = true ∧
    (s.codec cfg).tryDecode cfg k [1, 2, 5, 0] = .err (.parse (.token (.invalidTag .u8 5 (some [0, 255])))) () ∧
    Own cfg (.option (.int .u16)) [5] (.token (.invalidTag .u8 5 (some [0, 255]))) := by
  refine ⟨by cases cfg; rename_i p _ _ _; cases p <;> rfl, by cases cfg; rename_i p _ _ _; cases k <;> cases p <;> rfl, ?_⟩
  exact .inr ⟨rfl, by decide, .inl ⟨nofun, rfl⟩⟩

end Verif.Props
