import Verif.Refine.Memo
import Verif.Refine.Slice
/-
The common interface the codecs rely on: `Lawful P pan R` says that `R v vs s` – "in state `s` the readable
bytes are `v` and the enclosing scopes hold `vs`" – is kept by all operations of `P` used in a
well-bracketed way.  All three parsers are lawful.
-/
namespace Verif

/-- Error class of a read of `n` bytes of which only `avail` are there. -/
def shortKind (n avail : Nat) : ParseError := .window (.consumeWouldExceedLimit 0 n avail)

structure Lawful {σ : Type} (P : ParserOps σ) (pan : Prop) (R : Bytes → List Bytes → σ → Prop) : Prop where
  small : ∀ {v vs s}, R v vs s → v.length ≤ isizeMax
  remainder : ∀ {v vs s}, R v vs s → ∃ s', P.remainder s = .ok v.length s' ∧ R v vs s'
  consumeByte_ok : ∀ {b v vs s}, R (b :: v) vs s → ∃ s', P.consumeByte s = .ok b s' ∧ R v vs s'
  consumeByte_err : ∀ {vs s}, R [] vs s → ∃ e s', P.consumeByte s = .err e s' ∧ e.kind = shortKind 1 0 ∧ R [] vs s'
  consume_ok : ∀ {v vs s} (n : Nat), R v vs s → n ≤ v.length →
    ∃ s', P.consume n s = .ok (v.take n) s' ∧ R (v.drop n) vs s'
  consume_err : ∀ {v vs s} (n : Nat), R v vs s → v.length < n → n ≤ isizeMax + 1 →
    ∃ e s', P.consume n s = .err e s' ∧ e.kind = shortKind n v.length ∧ R v vs s'
  setFit_ok : ∀ {v vs s} (n : Nat), R v vs s → n ≤ v.length →
    ∃ s', P.setFit n s = .ok () s' ∧ R (v.take n) (v.drop n :: vs) s'
  setFit_err : ∀ {v vs s} (n : Nat), R v vs s → v.length < n → n ≤ isizeMax + 1 →
    (∃ e s', P.setFit n s = .err e s' ∧ e.kind = Cursor.openErr ∧ R v vs s') ∨ (pan ∧ P.setFit n s = .panic)
  testTarget : ∀ {v w vs s}, R v (w :: vs) s → ∃ s', P.testTarget s = .ok v.isEmpty s' ∧ R v (w :: vs) s'
  enforce_ok : ∀ {w vs s}, R [] (w :: vs) s → ∃ s', P.enforceTarget s = .ok () s' ∧ R w vs s'
  enforce_err : ∀ {v w vs s}, R v (w :: vs) s → v ≠ [] →
    ∃ s', P.enforceTarget s = .err (.window (.closeWithResidue v.length)) s'
  skip : ∀ {v vs s} (n : Nat), R v vs s →
    ∃ s', P.skip n s = .ok (min v.length n) s' ∧ R (v.drop n) vs s'
  skipExactly_ok : ∀ {v vs s} (n : Nat), R v vs s → n ≤ v.length →
    ∃ s', P.skipExactly n s = .ok () s' ∧ R (v.drop n) vs s'
  skipExactly_err : ∀ {v vs s} (n : Nat), R v vs s → v.length < n → n ≤ isizeMax + 1 →
    ∃ e s', P.skipExactly n s = .err e s' ∧ e.kind = shortKind n v.length ∧ R v vs s'

theorem kind_eraseOpen (e : ParseError) : e.eraseOpen.kind = e.kind := by
  unfold ParseError.eraseOpen
  split <;> rfl

theorem StepRefines.mono {σ : Type} {A : σ → Cursor → Prop} {pan : Prop} {out : Out σ ParseError Obs}
    {r : Except ParseError Obs × Cursor} (h : StepRefines A ParseError.eraseOpen pan out r) :
    StepRefines A ParseError.kind pan out r := by
  obtain ⟨r, c'⟩ := r
  cases r with
  | ok o => exact h
  | error e =>
    rcases h with ⟨e', s', he, hk, ha⟩ | h
    · left
      refine ⟨e', s', he, ?_, ha⟩
      rw [← kind_eraseOpen e', hk, kind_eraseOpen]
    · exact .inr h

variable {σ : Type} {P : ParserOps σ}

theorem run_ok_of_map {α : Type} {x : PM σ α} {f : α → Obs} {s s' : σ} {o : Obs}
    (h : (f <$> x) s = .ok o s') : ∃ a, x s = .ok a s' ∧ f a = o := by
  simp only [M.map_run] at h
  cases hx : x s with
  | ok a t =>
    rw [hx] at h
    simp only [Out.bind_ok, Out.ok.injEq] at h
    obtain ⟨rfl, rfl⟩ := h
    exact ⟨a, rfl, rfl⟩
  | err e t => rw [hx] at h; cases h
  | panic => rw [hx] at h; cases h
  | ub => rw [hx] at h; cases h
  | diverge => rw [hx] at h; cases h

theorem run_err_of_map {α : Type} {x : PM σ α} {f : α → Obs} {s s' : σ} {e : ParseError}
    (h : (f <$> x) s = .err e s') : x s = .err e s' := by
  simp only [M.map_run] at h
  cases hx : x s with
  | ok a t => rw [hx] at h; cases h
  | err e t => rw [hx] at h; cases h; rfl
  | panic => rw [hx] at h; cases h
  | ub => rw [hx] at h; cases h
  | diverge => rw [hx] at h; cases h

theorem run_panic_of_map {α : Type} {x : PM σ α} {f : α → Obs} {s : σ}
    (h : (f <$> x) s = .panic) : x s = .panic := by
  simp only [M.map_run] at h
  cases hx : x s with
  | ok a t => rw [hx] at h; cases h
  | err e t => rw [hx] at h; cases h
  | panic => rfl
  | ub => rw [hx] at h; cases h
  | diverge => rw [hx] at h; cases h

/-- A parser whose well-bracketed operations refine the cursor is lawful. -/
theorem Lawful.of_step {A : σ → Cursor → Prop} {pan : Prop}
    (hsmall : ∀ {s c}, A s c → c.top.length ≤ isizeMax)
    (hstep : ∀ {s c} (op : Op), A s c → c.WB op → op.arg ≤ isizeMax + 1 →
      StepRefines A ParseError.kind (pan ∧ ∃ n, op = .setFit n) (P.run op s) (c.step op))
    (hres : ∀ {s c v vs}, A s c → c.outer = v :: vs → c.top ≠ [] →
      ∃ s', P.enforceTarget s = .err (.window (.closeWithResidue c.top.length)) s') :
    Lawful P pan (fun v vs s => ∃ pos, A s { pos, top := v, outer := vs }) where
  small := fun ⟨_, h⟩ => hsmall h
  remainder := by
    rintro v vs s ⟨pos, h⟩
    obtain ⟨s', he, ha⟩ := hstep .remainder h trivial (Nat.zero_le _)
    obtain ⟨a, hx, hf⟩ := run_ok_of_map he
    cases hf
    exact ⟨s', hx, pos, ha⟩
  consumeByte_ok := by
    rintro b v vs s ⟨pos, h⟩
    obtain ⟨s', he, ha⟩ := hstep .consumeByte h trivial (Nat.zero_le _)
    obtain ⟨a, hx, hf⟩ := run_ok_of_map he
    cases hf
    exact ⟨s', hx, pos + 1, ha⟩
  consumeByte_err := by
    rintro vs s ⟨pos, h⟩
    rcases hstep .consumeByte h trivial (Nat.zero_le _) with ⟨e', s', he, hk, ha⟩ | ⟨⟨_, n, hn⟩, _⟩
    · exact ⟨e', s', run_err_of_map he, hk.trans (Cursor.kind_shortErr _ _), pos, ha⟩
    · cases hn
  consume_ok := by
    rintro v vs s n ⟨pos, h⟩ hn
    have hs := hsmall h
    have := hstep (.consume n) h trivial (by simp only [Op.arg] at *; omega)
    simp only [Cursor.step, if_pos hn] at this
    obtain ⟨s', he, ha⟩ := this
    obtain ⟨a, hx, hf⟩ := run_ok_of_map he
    cases hf
    exact ⟨s', hx, _, ha⟩
  consume_err := by
    rintro v vs s n ⟨pos, h⟩ hn hn'
    have := hstep (.consume n) h trivial hn'
    simp only [Cursor.step, if_neg (Nat.not_le_of_lt hn)] at this
    rcases this with ⟨e', s', he, hk, ha⟩ | ⟨⟨_, n, hn⟩, _⟩
    · exact ⟨e', s', run_err_of_map he, hk.trans (Cursor.kind_shortErr _ _), pos, ha⟩
    · cases hn
  setFit_ok := by
    rintro v vs s n ⟨pos, h⟩ hn
    have hs := hsmall h
    have := hstep (.setFit n) h trivial (by simp only [Op.arg] at *; omega)
    simp only [Cursor.step, if_pos hn] at this
    obtain ⟨s', he, ha⟩ := this
    obtain ⟨a, hx, hf⟩ := run_ok_of_map he
    exact ⟨s', hx, _, ha⟩
  setFit_err := by
    rintro v vs s n ⟨pos, h⟩ hn hn'
    have := hstep (.setFit n) h trivial hn'
    simp only [Cursor.step, if_neg (Nat.not_le_of_lt hn)] at this
    rcases this with ⟨e', s', he, hk, ha⟩ | ⟨⟨hp, _⟩, he⟩
    · exact .inl ⟨e', s', run_err_of_map he, hk, pos, ha⟩
    · exact .inr ⟨hp, run_panic_of_map he⟩
  testTarget := by
    rintro v w vs s ⟨pos, h⟩
    obtain ⟨s', he, ha⟩ := hstep .testTarget h (by simp [Cursor.WB]) (Nat.zero_le _)
    obtain ⟨a, hx, hf⟩ := run_ok_of_map he
    simp only [List.isEmpty_cons, Bool.not_false, Bool.true_and, Obs.bool.injEq] at hf
    subst hf
    exact ⟨s', hx, pos, ha⟩
  enforce_ok := by
    rintro w vs s ⟨pos, h⟩
    have := hstep .enforceTarget h ⟨by simp, rfl⟩ (Nat.zero_le _)
    simp only [Cursor.step, if_true] at this
    obtain ⟨s', he, ha⟩ := this
    obtain ⟨a, hx, hf⟩ := run_ok_of_map he
    exact ⟨s', hx, pos, ha⟩
  enforce_err := by
    rintro v w vs s ⟨pos, h⟩ hv
    exact hres h rfl hv
  skip := by
    rintro v vs s n ⟨pos, h⟩
    obtain ⟨s', he, ha⟩ := hstep (.skip n) h trivial (Nat.zero_le _)
    obtain ⟨a, hx, hf⟩ := run_ok_of_map he
    cases hf
    refine ⟨s', hx, pos + min v.length n, ?_⟩
    simp only [Cursor.adv] at ha
    have e : v.drop (min v.length n) = v.drop n := by
      by_cases hn : n ≤ v.length
      · rw [Nat.min_eq_right hn]
      · rw [Nat.min_eq_left (by omega), List.drop_length, List.drop_eq_nil_of_le (by omega)]
    rw [e] at ha
    exact ha
  skipExactly_ok := by
    rintro v vs s n ⟨pos, h⟩ hn
    have hs := hsmall h
    have := hstep (.skipExactly n) h trivial (by simp only [Op.arg] at *; omega)
    simp only [Cursor.step, if_pos hn] at this
    obtain ⟨s', he, ha⟩ := this
    obtain ⟨a, hx, hf⟩ := run_ok_of_map he
    exact ⟨s', hx, _, ha⟩
  skipExactly_err := by
    rintro v vs s n ⟨pos, h⟩ hn hn'
    have := hstep (.skipExactly n) h trivial hn'
    simp only [Cursor.step, if_neg (Nat.not_le_of_lt hn)] at this
    rcases this with ⟨e', s', he, hk, ha⟩ | ⟨⟨_, n, hn⟩, _⟩
    · exact ⟨e', s', run_err_of_map he, hk.trans (Cursor.kind_shortErr _ _), pos, ha⟩
    · cases hn

theorem Op.mayPanic_setFit {p : Profile} {buf : Bytes} {op : Op} (hs : op.arg ≤ isizeMax + 1)
    (h : op.mayPanic p buf) : p = .debug ∧ ∃ n, op = .setFit n := by
  cases op <;> simp only [Op.mayPanic, Op.arg] at h hs
  · omega
  · exact ⟨h.1, _, rfl⟩
  · omega

theorem StepRefines.imp_pan {A : σ → Cursor → Prop} {norm : ParseError → ParseError} {pan pan' : Prop}
    (hp : pan → pan') {out : Out σ ParseError Obs} {r : Except ParseError Obs × Cursor}
    (h : StepRefines A norm pan out r) : StepRefines A norm pan' out r := by
  obtain ⟨r, c'⟩ := r
  cases r with
  | ok o => exact h
  | error e => exact h.imp id fun ⟨h1, h2⟩ => ⟨hp h1, h2⟩

/-- `R v vs s` for `ByteParser`s over `buf`. -/
def ByteR (buf v : Bytes) (vs : List Bytes) (s : ByteParser) : Prop :=
  ∃ pos, ByteRep buf s { pos, top := v, outer := vs }
def MemoR (buf v : Bytes) (vs : List Bytes) (s : MemoParser) : Prop :=
  ∃ pos, MemoRep buf s { pos, top := v, outer := vs }
/-- Slices are at most `isize::MAX` bytes long. -/
def SliceR (v : Bytes) (vs : List Bytes) (s : SliceParser) : Prop :=
  ∃ pos, SliceRep s { pos, top := v, outer := vs } ∧ (v ++ vs.flatten).length ≤ isizeMax

theorem byteRep_small {buf : Bytes} {s : ByteParser} {c : Cursor} (h : ByteRep buf s c) :
    c.top.length ≤ isizeMax := by
  obtain ⟨rfl, hi, rfl⟩ := h
  have h1 := hi.length_top
  have h2 := hi.limit_le
  have h3 := hi.small
  omega

theorem byteLawful (p : Profile) (buf : Bytes) : Lawful (ByteParser.ops p) (p = .debug) (ByteR buf) := by
  apply Lawful.of_step (A := ByteRep buf) byteRep_small
  · intro s c op h _ hs
    exact (byte_step p h op (.inr hs)).mono.imp_pan (Op.mayPanic_setFit hs)
  · intro s c v vs h ho ht
    have := byte_step p h .enforceTarget (.inr (Nat.zero_le _))
    simp only [Cursor.step, ho, if_neg ht] at this
    rcases this with ⟨e', s', he, hk, _⟩ | ⟨hf, _⟩
    · refine ⟨s', ?_⟩
      have : e' = .window (.closeWithResidue c.top.length) := by
        revert hk
        unfold ParseError.eraseOpen Cursor.openErr
        split <;> simp
      rw [← this]
      exact run_err_of_map he
    · exact hf.elim

theorem memoLawful (p : Profile) (buf : Bytes) : Lawful (MemoParser.ops p) (p = .debug) (MemoR buf) := by
  apply Lawful.of_step (A := MemoRep buf)
  · intro s c h
    exact byteRep_small (s := s.toByte) ⟨h.1.buf_eq, h.1.off, h.2⟩
  · intro s c op h _ hs
    exact (memo_step p h op (.inr hs)).mono.imp_pan (Op.mayPanic_setFit hs)
  · intro s c v vs h ho ht
    have := memo_step p h .enforceTarget (.inr (Nat.zero_le _))
    simp only [Cursor.step, ho, if_neg ht] at this
    rcases this with ⟨e', s', he, hk, _⟩ | ⟨hf, _⟩
    · refine ⟨s', ?_⟩
      have : e' = .window (.closeWithResidue c.top.length) := by
        revert hk
        unfold ParseError.eraseOpen Cursor.openErr
        split <;> simp
      rw [← this]
      exact run_err_of_map he
    · exact hf.elim

/-- Operations never make more bytes unread. -/
theorem Cursor.unread_step (c : Cursor) (op : Op) : (c.step op).2.unread.length ≤ c.unread.length := by
  obtain ⟨pos, top, outer⟩ := c
  cases op <;> simp only [Cursor.step, Cursor.unread, Cursor.adv] <;> (repeat' split) <;>
    simp_all <;> omega

theorem sliceLawful : Lawful SliceParser.ops False SliceR := by
  have := Lawful.of_step (P := SliceParser.ops) (pan := False)
    (A := fun s c => SliceRep s c ∧ c.unread.length ≤ isizeMax) ?_ ?_ ?_
  · exact this
  · rintro s c ⟨_, h⟩
    simp only [Cursor.unread, List.length_append] at h; omega
  · rintro s c op ⟨h, hl⟩ hw hs
    have h1 := slice_step h op hw
    have h2 := c.unread_step op
    revert h1 h2
    cases c.step op with
    | mk r c' =>
      cases r with
      | ok o => rintro ⟨s', he, ha⟩ h2; exact ⟨s', he, ha, by simp only at h2; omega⟩
      | error e =>
        rintro (⟨e', s', he, hk, ha⟩ | ⟨hf, _⟩) h2
        · exact .inl ⟨e', s', he, hk, ha, by simp only at h2; omega⟩
        · exact hf.elim
  · rintro s c v vs ⟨h, _⟩ ho ht
    exact ⟨_, slice_close_residue h ho ht⟩

theorem ByteR.start {buf : Bytes} (hb : buf.length ≤ isizeMax) : ByteR buf buf [] (ByteParser.fromBuffer buf) :=
  ⟨0, ByteRep.start hb⟩
theorem MemoR.start {buf : Bytes} (hb : buf.length ≤ isizeMax) : MemoR buf buf [] (MemoParser.fromBuffer buf) :=
  ⟨0, MemoRep.start hb⟩
theorem SliceR.start {buf : Bytes} (hb : buf.length ≤ isizeMax) : SliceR buf [] (SliceParser.fromBuffer buf) :=
  ⟨0, SliceRep.start buf, by simpa using hb⟩

end Verif
