import Verif.Refine.Decode
import Verif.Refine.Target
import Verif.Lemmas.Num
/-
Each codec implements its wire format: `Writes c e` – on every lawful target `write_to` appends the encoding
and returns its length, or panics if there is none; `Parses win c d` – on every lawful parser `parse`
refines the pure decoder, and may panic where the decoder fails only if `win` (the codec opens windows of
untrusted size) and the parser is one that panics on such windows.
-/
namespace Verif

def Codec.Writes {α : Type} (c : Codec α) (e : Enc α) : Prop :=
  ∀ {τ : Type} {T : TargetOps τ} {R : Bytes → τ → Prop}, LawfulTarget T R → ∀ x, Appends R (c.write T x) (e x)

def Codec.Parses {α : Type} (win : Prop) (c : Codec α) (d : D α) : Prop :=
  ∀ {σ : Type} {P : ParserOps σ} {pan : Prop} {R : Bytes → List Bytes → σ → Prop}, Lawful P pan R →
    Refines (win ∧ pan) R (c.parse P) d

def VCodec.Writes {β : Type} (v : VCodec β) (e : TagWidth → Enc β) : Prop :=
  ∀ {τ : Type} {T : TargetOps τ} {R : Bytes → τ → Prop}, LawfulTarget T R →
    ∀ w x, Appends R (v.write w T x) (e w x)

def VCodec.Parses {β : Type} (win : Prop) (v : VCodec β) (d : Nat → D β) : Prop :=
  ∀ {σ : Type} {P : ParserOps σ} {pan : Prop} {R : Bytes → List Bytes → σ → Prop}, Lawful P pan R →
    ∀ t, Refines (win ∧ pan) R (v.parse P t) (d t)

def FCodec.Writes {β : Type} (f : FCodec β) (e : Enc β) : Prop :=
  ∀ {τ : Type} {T : TargetOps τ} {R : Bytes → τ → Prop}, LawfulTarget T R → ∀ x, Appends R (f.write T x) (e x)

def FCodec.Parses {β : Type} (win : Prop) (f : FCodec β) (d : D β) : Prop :=
  ∀ {σ : Type} {P : ParserOps σ} {pan : Prop} {R : Bytes → List Bytes → σ → Prop}, Lawful P pan R →
    Refines (win ∧ pan) R (f.parse P) d

namespace Codec

variable {α β : Type} {win : Prop}

/-! ### primitives -/

theorem unit_writes : unit.Writes Enc.unit := fun _ _ => Appends.zero
theorem unit_parses : unit.Parses win Dec.unit := fun _ => Refines.pure ()

theorem bool_writes : bool.Writes Enc.bool := fun L x => by
  refine ((Appends.pushOne L _).addResolve L).cast ?_
  cases x <;> rfl

theorem bool_parses : bool.Parses win Dec.bool := fun L =>
  Refines.bind (Refines.consumeByte L) fun _ =>
    Refines.ite (Refines.pure true) (Refines.ite (Refines.pure false) (Refines.throw rfl))

theorem int_writes (t : IntTy) : (int t).Writes (Enc.int t) := fun L _ => (Appends.pushAll L _).addResolve L
theorem int_parses (t : IntTy) : (int t).Parses win (Dec.int t) := fun L => Refines.map _ (Refines.consumeArr L _)

theorem f64_writes : f64.Writes Enc.f64 := int_writes .u64
theorem f64_parses : f64.Parses win Dec.f64 := int_parses .u64

theorem _root_.Verif.Refines.ofExcept {σ ε : Type} {pan : Prop} {R : Bytes → List Bytes → σ → Prop}
    (r : Except ε α) (f : ε → ParseError) (hf : ∀ e, (f e).kind = f e) :
    Refines pan R (M.ofExcept r f : PM σ α) (Dec.check r f) := by
  cases r with
  | ok a => exact Refines.pure a
  | error e => exact Refines.throw (hf e)

theorem _root_.Verif.RangedInt.tryFromUnderlying_eq (t : IntTy) (min max : Int) (x : t.Val) :
    RangedInt.tryFromUnderlying t min max x = (restrict (t.toInt x) min max).map fun _ => x := by
  unfold RangedInt.tryFromUnderlying
  split <;> rename_i h <;> rw [h] <;> rfl

theorem rangedInt_writes (t : IntTy) (min max : Int) : (rangedInt t min max).Writes (Enc.rangedInt t min max) :=
  fun L x => by
  simp only [rangedInt, RangedInt.toUnderlying, Enc.rangedInt]
  cases h : restrict (t.toInt x) min max with
  | ok u =>
    rw [if_pos (restrict_ok_iff.mp h)]
    exact (int_writes t L x).addResolve L
  | error e =>
    rw [if_neg fun hr => by rw [restrict_ok_iff.mpr hr] at h; cases h]
    exact Appends.panic

theorem rangedInt_parses (t : IntTy) (min max : Int) : (rangedInt t min max).Parses win (Dec.rangedInt t min max) :=
  fun L => Refines.bind (int_parses t L) fun x => by
    rw [RangedInt.tryFromUnderlying_eq]
    exact Refines.ofExcept _ _ fun _ => rfl

theorem rangedFloat_writes (min max : BitVec 64) : (rangedFloat min max).Writes Enc.f64 := f64_writes
theorem rangedFloat_parses (min max : BitVec 64) : (rangedFloat min max).Parses win (Dec.rangedFloat min max) :=
  fun L => Refines.bind (f64_parses L) fun _ => Refines.ofExcept _ _ fun _ => rfl

theorem fixedBytes_writes (n : Nat) : (fixedBytes n).Writes (Enc.byteArr n) := fun L _ =>
  (Appends.pushMany L _).addResolve L
theorem fixedBytes_parses (n : Nat) : (fixedBytes n).Parses win (Dec.byteArr n) := fun L =>
  Refines.bind (Refines.consumeArr L _) fun _ => Refines.dite (fun _ => Refines.pure _) fun _ => Refines.panic

theorem fixedString_writes (n : Nat) : (fixedString n).Writes (Enc.byteArr n) := fun L _ =>
  (Appends.pushAll L _).addResolve L
theorem fixedString_parses (n : Nat) : (fixedString n).Parses win (Dec.byteArr n) := fun L =>
  Refines.bind (Refines.consumeArr L _) fun _ => Refines.dite (fun _ => Refines.pure _) fun _ => Refines.panic

theorem vecU8_writes : vecU8.Writes Enc.bytes := fun L _ => (Appends.pushAll L _).addResolve L
theorem vecU8_parses : vecU8.Parses win Dec.bytes := fun L => Refines.takeRest L
theorem bytes_writes : bytes.Writes Enc.bytes := vecU8_writes
theorem bytes_parses : bytes.Parses win Dec.bytes := vecU8_parses

theorem string_writes : string.Writes Enc.string := fun L _ => (Appends.pushAll L _).addResolve L
theorem string_parses : string.Parses win Dec.string := fun {_ _ pan _} L v vs s h => by
  have := Refines.map lossy (Refines.takeRest (pan' := win ∧ pan) L) v vs s h
  obtain ⟨s1, h1, r1⟩ := L.remainder h
  simpa [string, M.bind_run, M.map_run, h1, Dec.string] using this

theorem _root_.Verif.Refines.congr {σ : Type} {pan : Prop} {R : Bytes → List Bytes → σ → Prop} {f : PM σ α}
    {d d' : D α} (h : Refines pan R f d) (he : ∀ v, d v = d' v) : Refines pan R f d' :=
  fun v vs s hr => he v ▸ h v vs s hr

theorem zarithN_writes : zarithN.Writes Enc.zarithN := fun L _ =>
  ((Appends.pushAll L _).addResolve L).cast (by rw [serializeN_eq]; rfl)

theorem zarithN_parses : zarithN.Parses win Dec.zarithN := fun L => by
  refine Refines.congr (d := (D.until_ fun b : Byte => b &&& 0x80 = 0) >>= fun bs => pure (Dec.val7 bs))
    (Refines.bind (Refines.selfTerm L _) fun bs => ?_) fun v => ?_
  · rw [deserializeN_eq]
    exact Refines.pure _
  · rw [terminal_eq]; rfl

theorem _root_.Verif.D.until'_ne_nil {f : Byte → Bool} {bs rest : Bytes} : ∀ {acc v : Bytes},
    D.until' f acc v = .ok bs rest → bs ≠ []
  | _, [], h => by cases h
  | acc, b :: v, h => by
    simp only [D.until'] at h
    split at h
    · cases h
      simp
    · exact D.until'_ne_nil h

theorem zarithZ_writes : zarithZ.Writes Enc.zarithZ := fun L _ =>
  ((Appends.pushAll L _).addResolve L).cast (by rw [serializeZ_eq]; rfl)

theorem zarithZ_parses : zarithZ.Parses win Dec.zarithZ := fun {_ _ pan _} L v vs s h => by
  have h1 := Refines.selfTerm (pan' := win ∧ pan) L (fun b : Byte => b &&& 0x80 = 0) v vs s h
  simp only [zarithZ, Dec.zarithZ, Dec.terminated, M.bind_run, D.map_run, ← terminal_eq]
  generalize hr : D.until_ _ v = r at h1 ⊢
  generalize ho : ParserOps.takeSelfTerminating _ _ s = o at h1 ⊢
  cases r with
  | ok bs rest =>
    obtain ⟨s', rfl, r'⟩ := h1
    have hne : bs ≠ [] := D.until'_ne_nil hr
    simp only [Out.bind_ok, deserializeZ_eq hne, M.ofOption, DecRes.bind_ok]
    exact ⟨s', rfl, r'⟩
  | err e =>
    rcases h1 with ⟨e', s', rfl, hk⟩ | ⟨hp, rfl⟩
    · exact .inl ⟨e', s', rfl, hk⟩
    · exact .inr ⟨hp, rfl⟩
  | panic => cases (show o = _ from h1); rfl
  | diverge => cases (show o = _ from h1); rfl
  | wild => trivial

/-! ### tags and prefixes -/

theorem _root_.Verif.TagWidth.write_appends {τ : Type} {T : TargetOps τ} {R : Bytes → τ → Prop}
    (L : LawfulTarget T R) (w : TagWidth) (tag : Nat) : Appends R (w.write T tag) (some (toBe w.len tag)) :=
  (Appends.pushAll L _).addResolve L

theorem _root_.Verif.Refines.tag {σ : Type} {P : ParserOps σ} {pan pan' : Prop} {R : Bytes → List Bytes → σ → Prop}
    (L : Lawful P pan R) (w : TagWidth) (tags : List Nat) :
    Refines pan' R (ParserOps.takeTagword w (w.parse P) tags) (Dec.tag w tags) := by
  refine Refines.bind (Refines.map _ (Refines.consumeArr L _)) fun t => ?_
  by_cases ht : t ∈ tags
  · simp only [List.contains_iff_mem.mpr ht, if_true, ht]
    exact Refines.pure t
  · have hc : tags.contains t = false := by simpa using ht
    simp only [hc, Bool.false_eq_true, if_false, ht]
    cases tags with
    | nil => exact Refines.throw rfl
    | cons a l => exact Refines.throw rfl

theorem _root_.Verif.LenPref.write_appends {τ : Type} {T : TargetOps τ} {R : Bytes → τ → Prop}
    (L : LawfulTarget T R) (S : LenPref) {l : Nat} (hl : l ≤ S.maxLen) :
    Appends R (S.write T l) (some (toBe S.len l)) := by
  cases S with
  | u8 =>
    simp only [LenPref.maxLen] at hl
    rw [LenPref.write, IntTy.tryFrom_nat rfl (by simp only [IntTy.len]; omega)]
    refine (int_writes .u8 L _).cast ?_
    simp only [Enc.int, IntTy.len, BitVec.toNat_ofNat, LenPref.len]
    rw [Nat.mod_eq_of_lt (by omega)]
  | u16 =>
    simp only [LenPref.maxLen] at hl
    rw [LenPref.write, IntTy.tryFrom_nat rfl (by simp only [IntTy.len]; omega)]
    refine (int_writes .u16 L _).cast ?_
    simp only [Enc.int, IntTy.len, BitVec.toNat_ofNat, LenPref.len]
    rw [Nat.mod_eq_of_lt (by omega)]
  | u30 =>
    simp only [LenPref.maxLen, LenPref.u30Max] at hl
    have hr : restrict (l : Int) 0 LenPref.u30Max = .ok () := by
      rw [restrict_ok_iff]
      simp only [Enc.inRange, LenPref.u30Max, Int.lt_irrefl, if_false]
      omega
    rw [LenPref.write]
    simp only [hr]
    rw [IntTy.tryFrom_nat rfl (by simp only [IntTy.len]; omega)]
    refine (rangedInt_writes .u32 0 LenPref.u30Max L _).cast ?_
    have hn : (BitVec.ofNat (8 * IntTy.u32.len) l).toNat = l := by
      simp only [IntTy.len, BitVec.toNat_ofNat]
      rw [Nat.mod_eq_of_lt (by omega)]
    have hv : IntTy.toInt .u32 (BitVec.ofNat _ l) = l := by
      simp only [IntTy.toInt, IntTy.signed, Bool.false_eq_true, if_false, hn]
    simp only [Enc.rangedInt, hv, hn]
    rw [if_pos (restrict_ok_iff.mp hr)]
    rfl

theorem _root_.Verif.Refines.lenPref {σ : Type} {P : ParserOps σ} {pan pan' : Prop} {R : Bytes → List Bytes → σ → Prop}
    (L : Lawful P pan R) (S : LenPref) : Refines pan' R (S.parse P) (Dec.lenPref S) := by
  have key : ∀ (t : IntTy) (v : Bytes), (BitVec.toNat <$> Dec.int t) v = (ofBe <$> D.take t.len) v := by
    intro t v
    simp only [Dec.int, D.map_run, D.take]
    split
    · rename_i h
      simp only [DecRes.bind_ok, BitVec.toNat_ofNat, IntTy.pow_eq]
      have := ofBe_lt (v.take t.len)
      rw [List.length_take, Nat.min_eq_left h] at this
      rw [Nat.mod_eq_of_lt this]
    · simp only [D.short]
      split <;> rfl
  have ranged : ∀ (t : IntTy) (v : Bytes) (m : Nat), t.signed = false →
      (BitVec.toNat <$> Dec.rangedInt t 0 m) v = (do
        let n ← ofBe <$> D.take t.len
        if n ≤ m then pure n else D.throw (.external (.intRangeViolation (.overflow m n))) : D Nat) v := by
    intro t v m hs
    have hk := key t v
    simp only [D.map_run, D.bind_run, Dec.rangedInt] at hk ⊢
    rw [← hk]
    cases Dec.int t v with
    | ok x rest =>
      simp only [DecRes.bind_ok, IntTy.toInt, hs, Bool.false_eq_true, if_false]
      by_cases hx : x.toNat ≤ m
      · have hr : restrict (x.toNat : Int) 0 m = .ok () := by
          rw [restrict_ok_iff]
          simp only [Enc.inRange, Int.lt_irrefl, if_false]
          omega
        rw [hr, if_pos hx]
        rfl
      · have hr : restrict (x.toNat : Int) 0 m = .error (.overflow m x.toNat) := by
          unfold restrict
          rw [if_neg (by omega), if_pos (by omega), if_neg (by omega), if_neg (by omega)]
        rw [hr, if_neg hx]
        rfl
    | err e => rfl
    | panic => rfl
    | diverge => rfl
    | wild => rfl
  have small : ∀ (k : Nat) (v : Bytes) (m : Nat), 256 ^ k ≤ m + 1 →
      ∀ e : Nat → ParseError, (ofBe <$> D.take k) v = (do let n ← ofBe <$> D.take k; if n ≤ m then pure n else D.throw (e n) : D Nat) v := by
    intro k v m hm e
    simp only [D.map_run, D.bind_run, D.take]
    split
    · rename_i h
      have := ofBe_lt (v.take k)
      rw [List.length_take, Nat.min_eq_left h] at this
      simp only [DecRes.bind_ok]
      rw [if_pos (by omega)]
      rfl
    · simp only [D.short]
      split <;> rfl
  cases S with
  | u8 =>
    refine Refines.congr (Refines.map _ ((int_parses (win := False) .u8 L).mono fun h => h.1.elim)) fun v => (key _ v).trans ?_
    exact small 1 v 0xff (by decide) _
  | u16 =>
    refine Refines.congr (Refines.map _ ((int_parses (win := False) .u16 L).mono fun h => h.1.elim)) fun v => (key _ v).trans ?_
    exact small 2 v 0xffff (by decide) _
  | u30 =>
    exact Refines.congr (Refines.map _ ((rangedInt_parses (win := False) .u32 0 LenPref.u30Max L).mono fun h => h.1.elim)) fun v =>
      ranged .u32 v LenPref.u30Max rfl

/-! ### type constructors -/

theorem option_writes {c : Codec α} {e : Enc α} (h : c.Writes e) : (option c).Writes (Enc.option e) := fun L x => by
  cases x with
  | none => exact (Appends.pushOne L _).addResolve L
  | some x => exact ((Appends.pushOne L _).add (h L x)).addResolve L

theorem option_refines {σ : Type} {P : ParserOps σ} {pan pan' : Prop}
    {R : Bytes → List Bytes → σ → Prop} (L : Lawful P pan R) {c : Codec α} {d : D α}
    (h : Refines pan' R (c.parse P) d) : Refines pan' R ((option c).parse P) (Dec.option d) := by
  intro v vs s hr
  have ht := Refines.tag (pan' := pan') L .u8 [0x00, 0xff] v vs s hr
  simp only [option, Dec.option, M.bind_run, D.bind_run]
  generalize ho : ParserOps.takeTagword _ _ _ s = o at ht ⊢
  have hmem : ∀ t rest, Dec.tag .u8 [0x00, 0xff] v = .ok t rest → t = 0xff ∨ t = 0 := by
    intro t rest ht
    simp only [Dec.tag, D.bind_run] at ht
    generalize (ofBe <$> D.take TagWidth.u8.len) v = r at ht
    cases r with
    | ok t' rest' =>
      simp only [DecRes.bind_ok] at ht
      split at ht
      · rename_i hm
        cases ht
        simp at hm
        omega
      · split at ht <;> cases ht
    | err e => cases ht
    | panic => cases ht
    | diverge => cases ht
    | wild => cases ht
  generalize hd : Dec.tag .u8 [0x00, 0xff] v = r at ht ⊢
  cases r with
  | ok t rest =>
    obtain ⟨s', rfl, r'⟩ := ht
    simp only [Out.bind_ok, DecRes.bind_ok]
    rcases hmem t rest hd with rfl | rfl
    · simp only [if_true]
      exact Refines.map some h _ _ _ r'
    · exact ⟨s', rfl, r'⟩
  | err e =>
    rcases ht with ⟨e', s', rfl, hk⟩ | ⟨hp, rfl⟩
    · exact .inl ⟨e', s', rfl, hk⟩
    · exact .inr ⟨hp, rfl⟩
  | panic => cases (show o = _ from ht); rfl
  | diverge => cases (show o = _ from ht); rfl
  | wild => trivial

theorem option_parses {c : Codec α} {d : D α} (h : c.Parses win d) : (option c).Parses win (Dec.option d) :=
  fun L => option_refines L (h L)

theorem nullable_writes {c : Codec α} {e : Enc α} (h : c.Writes e) : (nullable c).Writes (Enc.nullable e) :=
  fun L x => by
  cases x with
  | none => exact Appends.resolveZero L
  | some x => exact (h L x).addResolve L

theorem nullable_refines {σ : Type} {P : ParserOps σ} {pan pan' : Prop}
    {R : Bytes → List Bytes → σ → Prop} (L : Lawful P pan R) {c : Codec α} {d : D α}
    (h : Refines pan' R (c.parse P) d) : Refines pan' R ((nullable c).parse P) (Dec.nullable d) :=
  Refines.ifEmpty L (Refines.map some h) (Refines.pure none)

theorem nullable_parses {c : Codec α} {d : D α} (h : c.Parses win d) : (nullable c).Parses win (Dec.nullable d) :=
  fun L => nullable_refines L (h L)

theorem encLen_eq {c : Codec α} {e : Enc α} (h : c.Writes e) (cfg : Cfg) (x : α) :
    c.encLen cfg x = Enc.lenOf cfg c.estimate e x := by
  unfold encLen Enc.lenOf
  split
  · rfl
  · have := h sinkLawful x [] sinkTarget.create trivial
    cases he : e x with
    | none => rw [he] at this; simp only at this; simp [this]
    | some b =>
      rw [he] at this
      obtain ⟨t', ht, _⟩ := this
      simp [ht]

theorem dynamic_writes {c : Codec α} {e : Enc α} (cfg : Cfg) (S : LenPref) (h : c.Writes e) :
    (dynamic cfg S c).Writes (Enc.dynamic S (Enc.lenOf cfg c.estimate e) e) := fun L x => by
  simp only [dynamic, Enc.dynamic, encLen_eq h]
  cases Enc.lenOf cfg c.estimate e x with
  | none => exact Appends.panic
  | some l =>
    simp only
    split
    · rename_i hl
      intro w t hr
      exact ((LenPref.write_appends L S hl).add ((h L x).addResolve L)) w _ (L.anticipate _ hr)
    · exact Appends.panic

theorem Parses.mono {win' : Prop} (hw : win → win') {c : Codec α} {d : D α} (h : c.Parses win d) : c.Parses win' d :=
  fun L => (h L).mono fun ⟨h1, h2⟩ => ⟨hw h1, h2⟩

theorem _root_.Verif.VCodec.Parses.mono {win' : Prop} (hw : win → win') {v : VCodec β} {d : Nat → D β}
    (h : v.Parses win d) : v.Parses win' d := fun L t => (h L t).mono fun ⟨h1, h2⟩ => ⟨hw h1, h2⟩

theorem _root_.Verif.FCodec.Parses.mono {win' : Prop} (hw : win → win') {f : FCodec β} {d : D β}
    (h : f.Parses win d) : f.Parses win' d := fun L => (h L).mono fun ⟨h1, h2⟩ => ⟨hw h1, h2⟩

theorem dynamic_refines {σ : Type} {P : ParserOps σ} {pan pan' : Prop}
    {R : Bytes → List Bytes → σ → Prop} (L : Lawful P pan R) (hp : pan → pan') {c : Codec α}
    {d : D α} (cfg : Cfg) (S : LenPref) (h : Refines pan' R (c.parse P) d) :
    Refines pan' R ((dynamic cfg S c).parse P) (Dec.dynamic S d) :=
  Refines.bind (Refines.lenPref L S) fun n => Refines.window L hp n h

/-- Windows that fit never make the parser panic. -/
theorem dynamic_meets {σ : Type} {P : ParserOps σ} {pan pan' : Prop}
    {R : Bytes → List Bytes → σ → Prop} (L : Lawful P pan R) {c : Codec α} {d : D α} (cfg : Cfg)
    (S : LenPref) (h : Refines pan' R (c.parse P) d) {v rest : Bytes} {vs : List Bytes} {s : σ} {n : Nat}
    (hr : R v vs s) (hl : Dec.lenPref S v = .ok n rest) (hn : n ≤ rest.length) :
    Meets pan' R vs ((dynamic cfg S c).parse P s) (D.window n d rest) := by
  have h1 := Refines.lenPref (pan' := pan') L S v vs s hr
  rw [hl] at h1
  obtain ⟨s1, h1, r1⟩ := h1
  have h2 := Meets.window L h r1 hn
  simp only [dynamic, M.bind_run, h1, Out.bind_ok] at h2 ⊢
  exact h2

theorem dynamic_parses {c : Codec α} {d : D α} (cfg : Cfg) (S : LenPref) (h : c.Parses win d) :
    (dynamic cfg S c).Parses True (Dec.dynamic S d) := fun L =>
  dynamic_refines L (fun h => ⟨trivial, h⟩) cfg S (Parses.mono (fun _ => trivial) h L)

theorem vpadded_writes {c : Codec α} {e : Enc α} (cfg : Cfg) (n : Nat) (h : c.Writes e) :
    (vpadded cfg n c).Writes e := h

theorem vpadded_refines {σ : Type} {P : ParserOps σ} {pan pan' : Prop}
    {R : Bytes → List Bytes → σ → Prop} (L : Lawful P pan R) {c : Codec α} {d : D α} (cfg : Cfg)
    (n : Nat) (h : Refines pan' R (c.parse P) d) : Refines pan' R ((vpadded cfg n c).parse P) (Dec.vpadded cfg n d) := by
  refine Refines.remainder L fun v vs s hr => ?_
  simp only [Dec.vpadded]
  by_cases hn : n ≤ v.length
  · rw [if_neg (by omega), usub_of_le hn, if_pos hn]
    exact Meets.window L h hr (Nat.sub_le _ _)
  · rw [if_neg hn]
    cases hp : cfg.prof with
    | debug => rw [if_pos ⟨rfl, by omega⟩]; rfl
    | release => trivial

theorem vpadded_parses {c : Codec α} {d : D α} (cfg : Cfg) (n : Nat) (h : c.Parses win d) :
    (vpadded cfg n c).Parses win (Dec.vpadded cfg n d) := fun L => vpadded_refines L cfg n (h L)

theorem padded_writes {c : Codec α} {e : Enc α} (cfg : Cfg) (n : Nat) (h : c.Writes e) :
    (padded cfg n c).Writes (Enc.padded n e) := fun L x =>
  ((h L x).add (Appends.pushMany L _)).addResolve L

theorem padded_refines {σ : Type} {P : ParserOps σ} {pan pan' : Prop}
    {R : Bytes → List Bytes → σ → Prop} (L : Lawful P pan R) {c : Codec α} {d : D α} (cfg : Cfg)
    (n : Nat) (h : Refines pan' R (c.parse P) d) : Refines pan' R ((padded cfg n c).parse P) (Dec.padded cfg n d) :=
  Refines.bind h fun _ => Refines.bind (Refines.consume L n) fun _ =>
    Refines.ite (Refines.throw rfl) (Refines.pure _)

theorem padded_parses {c : Codec α} {d : D α} (cfg : Cfg) (n : Nat) (h : c.Parses win d) :
    (padded cfg n c).Parses win (Dec.padded cfg n d) := fun L => padded_refines L cfg n (h L)

theorem writeList_appends {c : Codec α} {e : Enc α} (h : c.Writes e) {τ : Type} {T : TargetOps τ}
    {R : Bytes → τ → Prop} (L : LawfulTarget T R) :
    ∀ xs, Appends R (c.writeList T xs) (Enc.list e xs)
  | [] => Appends.zero
  | x :: xs => (h L x).add (writeList_appends h L xs)

theorem seq_writes {c : Codec α} {e : Enc α} (h : c.Writes e) : (seq c).Writes (Enc.list e) := fun L xs =>
  (writeList_appends h L xs).addResolve L

theorem seq_refines {σ : Type} {P : ParserOps σ} {pan pan' : Prop}
    {R : Bytes → List Bytes → σ → Prop} (L : Lawful P pan R) {c : Codec α} {d : D α}
    (h : Refines pan' R (c.parse P) d) : Refines pan' R ((seq c).parse P) (Dec.seq d) := by
  refine Refines.congr (Refines.many L h []) fun v => ?_
  simp only [Dec.seq]
  cases D.many d v <;> rfl

theorem seq_parses {c : Codec α} {d : D α} (h : c.Parses win d) : (seq c).Parses win (Dec.seq d) :=
  fun L => seq_refines L (h L)

theorem fixSeq_writes {c : Codec α} {e : Enc α} (n : Nat) (h : c.Writes e) : (fixSeq n c).Writes (Enc.list e) :=
  fun L xs => (writeList_appends h L xs).addResolve L

theorem limSeq_writes {c : Codec α} {e : Enc α} (n : Nat) (h : c.Writes e) : (limSeq n c).Writes (Enc.list e) :=
  fun L xs => (writeList_appends h L xs).addResolve L

/-- Prepend what has been read already. -/
theorem _root_.Verif.D.map_append_cons (acc : List α) (a : α) (d : D (List α)) (v : Bytes) :
    ((acc ++ [a] ++ ·) <$> d) v = ((acc ++ ·) <$> (do let as ← d; pure (a :: as) : D (List α))) v := by
  simp only [D.map_run, D.bind_run]
  cases d v <;> simp

theorem fixLoop {σ : Type} {P : ParserOps σ} {pan pan' : Prop} {R : Bytes → List Bytes → σ → Prop} (L : Lawful P pan R)
    {f : PM σ α} {d : D α} (hf : Refines pan' R f d) (n : Nat) :
    ∀ (k : Nat) (acc : List α), acc.length + k = n →
      Refines pan' R (iterM (fixBody n P f) acc) ((acc ++ ·) <$> D.upTo d k) := by
  intro k
  induction k with
  | zero =>
    intro acc hk v vs s h
    obtain ⟨s1, h1, r1⟩ := L.remainder h
    rw [iterM_unfold]
    simp only [fixBody, M.bind_run, h1, Out.bind_ok]
    rw [if_neg (by omega)]
    exact ⟨s1, by simp, r1⟩
  | succ k ih =>
    intro acc hk v vs s h
    obtain ⟨s1, h1, r1⟩ := L.remainder h
    rw [iterM_unfold]
    simp only [fixBody, M.bind_run, h1, Out.bind_ok, D.upTo, D.map_run, D.ifEmpty]
    by_cases hv : v = []
    · subst hv
      rw [if_neg (by simp)]
      exact ⟨s1, by simp, r1⟩
    · have hv' : v.length ≠ 0 := fun h0 => hv (List.eq_nil_of_length_eq_zero h0)
      rw [if_pos ⟨hv', by omega⟩, if_neg hv]
      simp only [M.bind_run, D.bind_run]
      have h2 := hf v vs s1 r1
      generalize hd : d v = r at h2
      generalize ho : f s1 = o at h2
      cases r with
      | ok a rest =>
        obtain ⟨s2, rfl, r2⟩ := h2
        simp only [Out.bind_ok, tryPush]
        rw [if_pos (by omega)]
        simp only [M.pure_run, Out.bind_ok, DecRes.bind_ok]
        have := ih (acc ++ [a]) (by simp; omega) rest vs s2 r2
        rw [D.map_append_cons] at this
        exact this
      | err e =>
        rcases h2 with ⟨e', s', rfl, hk⟩ | ⟨hp, rfl⟩
        · exact .inl ⟨e', s', rfl, hk⟩
        · exact .inr ⟨hp, rfl⟩
      | panic => cases (show o = _ from h2); rfl
      | diverge => cases (show o = _ from h2); rfl
      | wild => trivial

theorem limLoop {σ : Type} {P : ParserOps σ} {pan pan' : Prop} {R : Bytes → List Bytes → σ → Prop} (L : Lawful P pan R)
    {f : PM σ α} {d : D α} (hf : Refines pan' R f d) (n : Nat) :
    ∀ (k : Nat) (acc : List α), acc.length + k = n →
      Refines pan' R (iterM (limBody n P f) acc)
        ((acc ++ ·) <$> D.manyMax (.external (.lengthViolation (.tooLong n (n + 1)))) d k) := by
  intro k
  induction k with
  | zero =>
    intro acc hk v vs s h
    obtain ⟨s1, h1, r1⟩ := L.remainder h
    rw [iterM_unfold]
    simp only [limBody, M.bind_run, h1, Out.bind_ok, D.manyMax, D.map_run, D.ifEmpty]
    by_cases hv : v = []
    · subst hv
      rw [if_neg (by simp)]
      exact ⟨s1, by simp, r1⟩
    · have hv' : v.length ≠ 0 := fun h0 => hv (List.eq_nil_of_length_eq_zero h0)
      rw [if_pos hv', if_neg hv]
      simp only [M.bind_run, D.bind_run]
      have h2 := hf v vs s1 r1
      generalize hd : d v = r at h2
      generalize ho : f s1 = o at h2
      cases r with
      | ok a rest =>
        obtain ⟨s2, rfl, r2⟩ := h2
        simp only [Out.bind_ok, tryPush]
        rw [if_neg (by omega)]
        exact .inl ⟨_, s2, rfl, rfl⟩
      | err e =>
        rcases h2 with ⟨e', s', rfl, hk⟩ | ⟨hp, rfl⟩
        · exact .inl ⟨e', s', rfl, hk⟩
        · exact .inr ⟨hp, rfl⟩
      | panic => cases (show o = _ from h2); rfl
      | diverge => cases (show o = _ from h2); rfl
      | wild => trivial
  | succ k ih =>
    intro acc hk v vs s h
    obtain ⟨s1, h1, r1⟩ := L.remainder h
    rw [iterM_unfold]
    simp only [limBody, M.bind_run, h1, Out.bind_ok, D.manyMax, D.map_run, D.ifEmpty]
    by_cases hv : v = []
    · subst hv
      rw [if_neg (by simp)]
      exact ⟨s1, by simp, r1⟩
    · have hv' : v.length ≠ 0 := fun h0 => hv (List.eq_nil_of_length_eq_zero h0)
      rw [if_pos hv', if_neg hv]
      simp only [M.bind_run, D.bind_run]
      have h2 := hf v vs s1 r1
      generalize hd : d v = r at h2
      generalize ho : f s1 = o at h2
      cases r with
      | ok a rest =>
        obtain ⟨s2, rfl, r2⟩ := h2
        simp only [Out.bind_ok, tryPush]
        rw [if_pos (by omega)]
        simp only [M.pure_run, Out.bind_ok, DecRes.bind_ok]
        have := ih (acc ++ [a]) (by simp; omega) rest vs s2 r2
        rw [D.map_append_cons] at this
        exact this
      | err e =>
        rcases h2 with ⟨e', s', rfl, hk⟩ | ⟨hp, rfl⟩
        · exact .inl ⟨e', s', rfl, hk⟩
        · exact .inr ⟨hp, rfl⟩
      | panic => cases (show o = _ from h2); rfl
      | diverge => cases (show o = _ from h2); rfl
      | wild => trivial

theorem _root_.Verif.D.map_nil_append (d : D (List α)) (v : Bytes) : (([] ++ ·) <$> d) v = d v := by
  simp only [D.map_run]
  cases d v <;> rfl

theorem fixSeq_refines {σ : Type} {P : ParserOps σ} {pan pan' : Prop}
    {R : Bytes → List Bytes → σ → Prop} (L : Lawful P pan R) {c : Codec α} {d : D α} (n : Nat)
    (h : Refines pan' R (c.parse P) d) : Refines pan' R ((fixSeq n c).parse P) (Dec.fixSeq n d) :=
  Refines.bind (Refines.congr (fixLoop L h n n [] (by simp)) fun v => D.map_nil_append _ v) fun _ =>
    Refines.ite (Refines.pure _) (Refines.throw rfl)

theorem fixSeq_parses {c : Codec α} {d : D α} (n : Nat) (h : c.Parses win d) : (fixSeq n c).Parses win (Dec.fixSeq n d) :=
  fun L => fixSeq_refines L n (h L)

theorem limSeq_refines {σ : Type} {P : ParserOps σ} {pan pan' : Prop}
    {R : Bytes → List Bytes → σ → Prop} (L : Lawful P pan R) {c : Codec α} {d : D α} (n : Nat)
    (h : Refines pan' R (c.parse P) d) : Refines pan' R ((limSeq n c).parse P) (Dec.limSeq n d) :=
  Refines.congr (limLoop L h n n [] (by simp)) fun v => D.map_nil_append _ v

theorem limSeq_parses {c : Codec α} {d : D α} (n : Nat) (h : c.Parses win d) : (limSeq n c).Parses win (Dec.limSeq n d) :=
  fun L => limSeq_refines L n (h L)

theorem autobox_writes {c : Codec α} {e : Enc α} (h : c.Writes e) : (autobox c).Writes e := h
theorem autobox_parses {c : Codec α} {d : D α} (h : c.Parses win d) : (autobox c).Parses win d := h

theorem hole_writes : hole.Writes Enc.hole := fun _ x => nomatch x
theorem hole_parses : hole.Parses False Dec.hole := fun _ _ _ _ _ => rfl

theorem cstyle_writes (w : TagWidth) (tags : List Nat) : (cstyle w tags).Writes (Enc.cstyle w tags) :=
  fun L _ => TagWidth.write_appends L w _

theorem cstyle_parses (w : TagWidth) (tags : List Nat) : (cstyle w tags).Parses win (Dec.cstyle w tags) :=
  fun L => Refines.bind (Refines.tag L w tags) fun _ => Refines.dite (fun _ => Refines.pure _) fun _ => Refines.panic

theorem vnil_writes : VCodec.nil.Writes Enc.vnil := fun _ _ x => nomatch x
theorem vnil_parses : VCodec.nil.Parses win Dec.vnil := fun _ _ => Refines.panic

theorem vcons_writes {c : Codec α} {e : Enc α} {v : VCodec β} {ev : TagWidth → Enc β} (tag : Nat) (h : c.Writes e)
    (hv : v.Writes ev) : (VCodec.cons tag c v).Writes (Enc.vcons tag e ev) := fun L w x => by
  cases x with
  | inl x => exact (TagWidth.write_appends L w tag).add ((h L x).addResolve L)
  | inr y => exact hv L w y

theorem vcons_parses {c : Codec α} {d : D α} {v : VCodec β} {dv : Nat → D β} (tag : Nat) (h : c.Parses win d)
    (hv : v.Parses win dv) : (VCodec.cons tag c v).Parses win (Dec.vcons tag d dv) := fun L t =>
  Refines.ite (Refines.map _ (h L)) (Refines.map _ (hv L t))

theorem data_writes {v : VCodec β} {ev : TagWidth → Enc β} (w : TagWidth) (hv : v.Writes ev) :
    (data w v).Writes (ev w) := fun L x => hv L w x

theorem data_parses {v : VCodec β} {dv : Nat → D β} (w : TagWidth) (hv : v.Parses win dv) :
    (data w v).Parses win (Dec.data w v.tags dv) := fun L =>
  Refines.bind (Refines.tag L w v.tags) fun t => hv L t

theorem fnil_writes : FCodec.nil.Writes Enc.fnil := fun _ _ => Appends.zero
theorem fnil_parses : FCodec.nil.Parses win Dec.fnil := fun _ => Refines.pure ()

theorem fcons_writes {c : Codec α} {e : Enc α} {f : FCodec β} {ef : Enc β} (h : c.Writes e) (hf : f.Writes ef) :
    (FCodec.cons c f).Writes (Enc.fcons e ef) := fun L x => (h L x.1).add (hf L x.2)

theorem fcons_parses {c : Codec α} {d : D α} {f : FCodec β} {df : D β} (h : c.Parses win d) (hf : f.Parses win df) :
    (FCodec.cons c f).Parses win (Dec.fcons d df) := fun L =>
  Refines.bind (h L) fun _ => Refines.bind (hf L) fun _ => Refines.pure _

theorem record_writes {f : FCodec β} {ef : Enc β} (hf : f.Writes ef) : (record f).Writes ef := fun L x =>
  (hf L x).addResolve L

theorem record_parses {f : FCodec β} {df : D β} (hf : f.Parses win df) : (record f).Parses win df := fun L => hf L

end Codec

end Verif
