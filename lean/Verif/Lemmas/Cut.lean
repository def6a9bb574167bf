import Verif.Spec.Cut
import Verif.Lemmas.Schema
/-
Decoding what is left of an encoding that has lost its end.
-/
namespace Verif

variable {α β : Type}

theorem ParseError.WantsMore.mono {m m' : Nat} {e : ParseError} (h : e.WantsMore m) (hm : m ≤ m') : e.WantsMore m' := by
  unfold ParseError.WantsMore at h ⊢
  split at h
  · exact ⟨h.1, by omega⟩
  · trivial
  · trivial
  · trivial
  · exact h
  · exact h.elim

/-- The actual error has the same numbers as its class. -/
theorem ParseError.WantsMore.of_kind {m : Nat} {e : ParseError} (h : e.kind.WantsMore m) : e.WantsMore m := by
  unfold ParseError.kind at h
  split at h
  · trivial
  · trivial
  · exact h
  · exact h

/-- What comes of decoding when `m` bytes are missing. -/
def CutRes (k : Tail) (m : Nat) (r : DecRes α) : Prop :=
  (∃ e, r = .err e ∧ e.WantsMore m) ∨ (k ≠ .any ∧ ∃ a, r = .ok a [])

def Cuts (e : Enc α) (d : D α) (V : α → Prop) (k : Tail) : Prop :=
  ∀ x v t, V x → e x = some (v ++ t) → t ≠ [] → (v ++ t).length ≤ isizeMax + 1 → CutRes k t.length (d v)

theorem CutRes.mono {k : Tail} {m m' : Nat} {r : DecRes α} (h : CutRes k m r) (hm : m ≤ m') : CutRes k m' r :=
  h.imp (fun ⟨e, h1, h2⟩ => ⟨e, h1, h2.mono hm⟩) id

theorem CutRes.of_any {k : Tail} {m : Nat} {r : DecRes α} (h : CutRes .any m r) : CutRes k m r :=
  h.imp id fun h => (h.1 rfl).elim

theorem CutRes.map {k : Tail} {m : Nat} {r : DecRes α} (f : α → β) (h : CutRes k m r) :
    CutRes k m (r.bind fun a rest => .ok (f a) rest) := by
  rcases h with ⟨e, rfl, h⟩ | ⟨h, a, rfl⟩
  · exact .inl ⟨e, rfl, h⟩
  · exact .inr ⟨h, _, rfl⟩

/-- Where the end is missing. -/
theorem cut_append {v t b1 b2 : Bytes} (h : v ++ t = b1 ++ b2) :
    (∃ t', t' ≠ [] ∧ b1 = v ++ t' ∧ t = t' ++ b2) ∨ (∃ v', v = b1 ++ v' ∧ b2 = v' ++ t) := by
  rcases List.append_eq_append_iff.mp h with ⟨as, h1, h2⟩ | ⟨bs, h1, h2⟩
  · by_cases ha : as = []
    · subst ha
      exact .inr ⟨[], by simpa using h1.symm, by simpa using h2.symm⟩
    · exact .inl ⟨as, ha, h1, h2⟩
  · exact .inr ⟨bs, h1, h2⟩

theorem D.take_cut {n m : Nat} {v : Bytes} (h : v.length < n) (hm : n ≤ v.length + m) (hn : n ≤ isizeMax + 1) :
    ∃ e, D.take n v = .err e ∧ e.WantsMore m :=
  ⟨D.shortErr n v.length, by rw [D.take, if_neg (Nat.not_le.mpr h), D.short, if_pos hn], h, hm⟩

/-- Reading a number of bytes and then going on. -/
theorem CutRes.take {k : Tail} {n m : Nat} {v : Bytes} (f : Bytes → D α) (h : v.length < n) (hm : n ≤ v.length + m)
    (hn : n ≤ isizeMax + 1) : CutRes k m ((D.take n >>= f) v) := by
  obtain ⟨e, h1, h2⟩ := D.take_cut h hm hn
  exact .inl ⟨e, by rw [D.bind_run, h1]; rfl, h2⟩

theorem CutRes.bind {k : Tail} {m : Nat} {d : D α} {v : Bytes} (f : α → D β) (h : CutRes .any m (d v)) :
    CutRes k m ((d >>= f) v) := by
  rcases h with ⟨e, h1, h⟩ | ⟨h, _⟩
  · exact .inl ⟨e, by rw [D.bind_run, h1]; rfl, h⟩
  · exact (h rfl).elim

theorem length_pos {t : Bytes} (h : t ≠ []) : 0 < t.length := List.length_pos_iff.mpr h

namespace Cuts

theorem unit : Cuts Enc.unit Dec.unit (fun _ => True) .any := by
  intro x v t _ h ht _
  have : v ++ t = [] := (Option.some.inj h).symm
  exact (ht (List.append_eq_nil_iff.mp this).2).elim

/-- Encodings of known length. -/
theorem ofTake {e : Enc α} {V : α → Prop} {k : Tail} (n : Nat) (f : Bytes → D β) (he : ∀ x b, e x = some b → b.length = n) :
    ∀ x v t, V x → e x = some (v ++ t) → t ≠ [] → (v ++ t).length ≤ isizeMax + 1 → CutRes k t.length ((D.take n >>= f) v) := by
  intro x v t _ h ht hl
  have := he x _ h
  have := length_pos ht
  rw [List.length_append] at *
  exact .take f (by omega) (by omega) (by omega)

theorem bool : Cuts Enc.bool Dec.bool (fun _ => True) .any := by
  intro x v t _ h ht _
  have h : [_] = v ++ t := Option.some.inj h
  cases v with
  | nil => exact .inl ⟨D.shortErr 1 0, rfl, by decide, by have := length_pos ht; omega⟩
  | cons b v =>
    have h1 := congrArg List.length h
    have := length_pos ht
    simp only [List.length_cons, List.length_nil, List.length_append] at h1
    omega

theorem int (ty : IntTy) : Cuts (Enc.int ty) (Dec.int ty) (fun _ => True) .any :=
  ofTake ty.len _ fun x b h => by cases h; exact toBe_length _ _

theorem f64 : Cuts Enc.f64 Dec.f64 (fun _ => True) .any := int .u64

theorem rangedInt (ty : IntTy) (min max : Int) : Cuts (Enc.rangedInt ty min max) (Dec.rangedInt ty min max) (fun _ => True) .any := by
  intro x v t hv h ht hl
  refine .bind _ (int ty x v t hv ?_ ht hl)
  simp only [Enc.rangedInt] at h
  split at h
  · exact h
  · cases h

theorem rangedFloat (min max : BitVec 64) (V : BitVec 64 → Prop) : Cuts Enc.f64 (Dec.rangedFloat min max) V .any :=
  fun x v t _ h ht hl => .bind _ (f64 x v t trivial h ht hl)

theorem byteArr (n : Nat) : Cuts (Enc.byteArr n) (Dec.byteArr n) (fun _ => True) .any :=
  ofTake n _ fun x b h => by cases h; exact x.2

theorem bytes : Cuts Enc.bytes Dec.bytes (fun _ => True) (.exact 0) := fun _ _ _ _ _ _ _ => .inr ⟨nofun, _, rfl⟩

theorem string : Cuts Enc.string Dec.string (fun _ => True) (.exact 0) := fun _ _ _ _ _ _ _ => .inr ⟨nofun, _, rfl⟩

/-- A number without its last byte. -/
theorem _root_.Verif.D.until'_cut (f : Byte → Bool) : ∀ (v t acc b : Bytes), t ≠ [] →
    D.until' f acc (v ++ t) = .ok b [] → ∃ b', D.until' f acc v = .err (.token (.nonTerminating b'))
  | [], _, acc, _, _, _ => ⟨acc, rfl⟩
  | c :: v, t, acc, b, ht, h => by
    simp only [List.cons_append, D.until'] at h ⊢
    split at h
    · have := ((DecRes.ok.injEq ..).mp h).2
      exact (ht (List.append_eq_nil_iff.mp this).2).elim
    · rename_i hf
      rw [if_neg hf]
      exact D.until'_cut f v t _ b ht h

theorem zarithN : Cuts Enc.zarithN Dec.zarithN (fun _ => True) .any := by
  intro x v t _ h ht _
  have h : Enc.nat7 x = v ++ t := Option.some.inj h
  have h1 := D.until'_nat7 x [] []
  rw [List.append_nil, h] at h1
  obtain ⟨b', h2⟩ := D.until'_cut _ v t [] _ ht h1
  exact .inl ⟨.token (.nonTerminating b'), by rw [Dec.zarithN, Dec.terminated, D.map_run, D.until_, h2]; rfl, trivial⟩

theorem zarithZ : Cuts Enc.zarithZ Dec.zarithZ (fun _ => True) .any := by
  intro x v t _ h ht _
  have h : Enc.int7 x = v ++ t := Option.some.inj h
  have h1 := D.until'_int7 x []
  rw [List.append_nil, h] at h1
  obtain ⟨b', h2⟩ := D.until'_cut _ v t [] _ ht h1
  exact .inl ⟨.token (.nonTerminating b'), by rw [Dec.zarithZ, Dec.terminated, D.map_run, D.until_, h2]; rfl, trivial⟩

/-- A tag that is cut off. -/
theorem tag {k : Tail} (w : TagWidth) (tags : List Nat) {n m : Nat} {v t : Bytes} (f : Nat → D α) (h : toBe w.len n = v ++ t)
    (ht : t ≠ []) (hm : t.length ≤ m) : CutRes k m ((Dec.tag w tags >>= f) v) := by
  have h1 := congrArg List.length h
  have := length_pos ht
  rw [toBe_length, List.length_append] at h1
  refine .bind _ ?_
  obtain ⟨e, h2, h3⟩ := D.take_cut (v := v) (n := w.len) (m := m) (by omega) (by omega) w.len_le
  exact .inl ⟨e, by rw [Dec.tag, D.bind_run, D.map_run, h2]; rfl, h3⟩

theorem option {e : Enc α} {d : D α} {V : α → Prop} {k : Tail} (h : Cuts e d V k) :
    Cuts (Enc.option e) (Dec.option d) (fun o => ∀ x, o = some x → V x) k := by
  intro x v t hv he ht hl
  cases x with
  | none =>
    have he : [0x00] = v ++ t := Option.some.inj he
    exact tag .u8 _ (n := 0) _ he ht (Nat.le_refl _)
  | some x =>
    obtain ⟨b1, b2, h1, h2, hb⟩ := cat_eq_some.mp he
    cases h1
    rcases cut_append hb with ⟨t', h3, h4, rfl⟩ | ⟨v', rfl, rfl⟩
    · exact tag .u8 _ (n := 0xff) _ h4 h3 (by simp)
    · have := h x v' t (hv x rfl) h2 ht (by simp at hl ⊢; omega)
      simp only [Dec.option, D.bind_run]
      rw [show [0xff] ++ v' = toBe TagWidth.u8.len 0xff ++ v' from rfl, Dec.tag_append _ (by simp) (by decide)]
      simp only [DecRes.bind_ok, if_true, D.map_run]
      exact this.map some

theorem nullable {e : Enc α} {d : D α} {V : α → Prop} {k : Tail} (h : Cuts e d V k) (hk : k = .any ∨ k = .exact 0) :
    Cuts (Enc.nullable e) (Dec.nullable d) (fun o => ∀ x, o = some x → V x) (.exact 0) := by
  intro x v t hv he ht hl
  simp only [Dec.nullable, D.ifEmpty]
  split
  · rename_i h0
    subst h0
    exact .inr ⟨nofun, none, rfl⟩
  · cases x with
    | none =>
      have : v ++ t = [] := (Option.some.inj he).symm
      exact (ht (List.append_eq_nil_iff.mp this).2).elim
    | some x =>
      have := h x v t (hv x rfl) he ht hl
      rcases hk with rfl | rfl
      · exact (this.of_any).map some
      · exact this.map some

theorem dynamic (S : LenPref) {len : α → Option Nat} {e : Enc α} {d : D α} {V : α → Prop}
    (hl : ∀ x b l, V x → e x = some b → len x = some l → l = b.length) :
    Cuts (Enc.dynamic S len e) (Dec.dynamic S d) V .any := by
  intro x v t hv he ht _
  simp only [Enc.dynamic] at he
  split at he
  · cases he
  · rename_i l hlen
    split at he
    · rename_i hmax
      obtain ⟨b1, b2, h1, h2, hb⟩ := cat_eq_some.mp he
      cases h1
      cases hl x b2 l hv h2 hlen
      rcases cut_append hb with ⟨t', h3, h4, rfl⟩ | ⟨v', rfl, rfl⟩
      · have h5 := congrArg List.length h4
        have := length_pos h3
        rw [toBe_length, List.length_append] at h5
        refine .bind _ ?_
        obtain ⟨e, h6, h7⟩ := D.take_cut (v := v) (n := S.len) (m := (t' ++ b2).length) (by omega) (by simp; omega) S.len_le
        exact .inl ⟨e, by rw [Dec.lenPref, D.bind_run, D.map_run, h6]; rfl, h7⟩
      · simp only [Dec.dynamic, D.bind_run, Dec.lenPref_append S hmax, DecRes.bind_ok]
        refine .inl ⟨Cursor.openErr, ?_, trivial⟩
        have := length_pos ht
        have := S.maxLen_le
        rw [D.window, if_neg (by simp; omega), D.short, if_pos (by omega)]
    · cases he

theorem padded (cfg : Cfg) (n : Nat) {e : Enc α} {d : D α} {V : α → Prop} (h : Cuts e d V .any) (hr : RoundTrips e d V .any) :
    Cuts (Enc.padded n e) (Dec.padded cfg n d) V .any := by
  intro x v t hv he ht hl
  obtain ⟨b1, b2, h1, h2, hb⟩ := cat_eq_some.mp he
  rcases cut_append hb with ⟨t', h3, rfl, rfl⟩ | ⟨v', rfl, rfl⟩
  · exact .bind _ ((h x v t' hv h1 h3 (by simp at hl ⊢; omega)).mono (by simp))
  · have h3 := congrArg List.length (Option.some.inj h2)
    have := length_pos ht
    simp at h3 hl
    simp only [Dec.padded, D.bind_run, hr x b1 v' hv h1 trivial, DecRes.bind_ok]
    exact CutRes.take _ (by omega) (by omega) (by omega)

/-- Nothing is added after contents that take whatever is there. -/
theorem padded_zero (cfg : Cfg) {e : Enc α} {d : D α} {V : α → Prop} {k : Tail} (h : Cuts e d V k) :
    Cuts (Enc.padded 0 e) (Dec.padded cfg 0 d) V k := by
  intro x v t hv he ht hl
  obtain ⟨b1, b2, h1, h2, hb⟩ := cat_eq_some.mp he
  have h2 : [] = b2 := Option.some.inj h2
  subst h2
  rw [List.append_nil] at hb
  subst hb
  rcases h x v t hv h1 ht hl with ⟨e, h3, h4⟩ | ⟨hk, a, h3⟩
  · exact .inl ⟨e, by rw [Dec.padded, D.bind_run, h3]; rfl, h4⟩
  · refine .inr ⟨hk, a, ?_⟩
    rw [Dec.padded, D.bind_run, h3, DecRes.bind_ok, D.bind_run]
    simp [D.take]

theorem seq {e : Enc α} {d : D α} {V : α → Prop} (h : Cuts e d V .any) (hr : RoundTrips e d V .any) (hn : NonEmpty e V) :
    Cuts (Enc.list e) (Dec.seq d) (fun xs => ∀ x ∈ xs, V x) (.exact 0) := by
  intro xs v t hv he ht hl
  simp only [Dec.seq]
  induction xs generalizing v with
  | nil =>
    have : v ++ t = [] := (Option.some.inj he).symm
    exact (ht (List.append_eq_nil_iff.mp this).2).elim
  | cons x xs ih =>
    obtain ⟨b1, b2, h1, h2, hb⟩ := cat_eq_some.mp he
    unfold D.many
    split
    · exact .inr ⟨nofun, _, rfl⟩
    · rcases cut_append hb with ⟨t', h3, rfl, rfl⟩ | ⟨v', rfl, rfl⟩
      · rcases h x v t' (hv x (by simp)) h1 h3 (by simp at hl ⊢; omega) with ⟨e, h4, h5⟩ | ⟨h4, _⟩
        · rw [h4]
          exact .inl ⟨e, rfl, h5.mono (by simp)⟩
        · exact (h4 rfl).elim
      · have := length_pos (hn x b1 (hv x (by simp)) h1)
        have h3 := ih v' (fun y hy => hv y (by simp [hy])) h2 (by simp at hl ⊢; omega)
        rw [hr x b1 v' (hv x (by simp)) h1 trivial]
        simp only
        rw [if_pos (by simp; exact this)]
        exact h3.map _

theorem upTo {e : Enc α} {d : D α} {V : α → Prop} (h : Cuts e d V .any) (hr : RoundTrips e d V .any) :
    ∀ (xs : List α) (v t : Bytes), (∀ x ∈ xs, V x) → Enc.list e xs = some (v ++ t) → t ≠ [] → (v ++ t).length ≤ isizeMax + 1 →
      (∃ e, D.upTo d xs.length v = .err e ∧ e.WantsMore t.length) ∨
      ∃ l, D.upTo d xs.length v = .ok l [] ∧ l.length < xs.length
  | [], v, t, _, he, ht, _ => by
    have : v ++ t = [] := (Option.some.inj he).symm
    exact (ht (List.append_eq_nil_iff.mp this).2).elim
  | x :: xs, v, t, hv, he, ht, hl => by
    obtain ⟨b1, b2, h1, h2, hb⟩ := cat_eq_some.mp he
    simp only [D.upTo, List.length_cons, D.ifEmpty]
    split
    · rename_i h0
      subst h0
      exact .inr ⟨[], rfl, by simp⟩
    · rcases cut_append hb with ⟨t', h3, rfl, rfl⟩ | ⟨v', rfl, rfl⟩
      · rcases h x v t' (hv x (by simp)) h1 h3 (by simp at hl ⊢; omega) with ⟨e, h4, h5⟩ | ⟨h4, _⟩
        · rw [D.bind_run, h4]
          exact .inl ⟨e, rfl, h5.mono (by simp)⟩
        · exact (h4 rfl).elim
      · rw [D.bind_run, hr x b1 v' (hv x (by simp)) h1 trivial, DecRes.bind_ok, D.bind_run]
        rcases upTo h hr xs v' t (fun y hy => hv y (by simp [hy])) h2 ht (by simp at hl ⊢; omega) with
          ⟨e, h4, h5⟩ | ⟨l, h4, h5⟩
        · rw [h4]
          exact .inl ⟨e, rfl, h5⟩
        · rw [h4]
          exact .inr ⟨_, rfl, by simpa using h5⟩

theorem fixSeq (n : Nat) {e : Enc α} {d : D α} {V : α → Prop} (h : Cuts e d V .any) (hr : RoundTrips e d V .any) :
    Cuts (Enc.list e) (Dec.fixSeq n d) (fun xs => xs.length = n ∧ ∀ x ∈ xs, V x) .any := by
  intro xs v t hv he ht hl
  obtain ⟨rfl, hv⟩ := hv
  simp only [Dec.fixSeq, D.bind_run]
  rcases upTo h hr xs v t hv he ht hl with ⟨e, h1, h2⟩ | ⟨l, h1, h2⟩
  · rw [h1]
    exact .inl ⟨e, rfl, h2⟩
  · rw [h1, DecRes.bind_ok, if_neg (by omega)]
    exact .inl ⟨_, rfl, h2⟩

theorem manyMax {e : Enc α} {d : D α} {V : α → Prop} (h : Cuts e d V .any) (hr : RoundTrips e d V .any)
    (er : ParseError) : ∀ (n : Nat) (xs : List α) (v t : Bytes), xs.length ≤ n → (∀ x ∈ xs, V x) →
    Enc.list e xs = some (v ++ t) → t ≠ [] → (v ++ t).length ≤ isizeMax + 1 → CutRes (.exact 0) t.length (D.manyMax er d n v)
  | n, [], v, t, _, _, he, ht, _ => by
    have : v ++ t = [] := (Option.some.inj he).symm
    exact (ht (List.append_eq_nil_iff.mp this).2).elim
  | 0, x :: xs, _, _, hn, _, _, _, _ => by simp at hn
  | n + 1, x :: xs, v, t, hn, hv, he, ht, hl => by
    obtain ⟨b1, b2, h1, h2, hb⟩ := cat_eq_some.mp he
    simp only [D.manyMax, D.ifEmpty]
    split
    · rename_i h0
      subst h0
      exact .inr ⟨nofun, _, rfl⟩
    · rcases cut_append hb with ⟨t', h3, rfl, rfl⟩ | ⟨v', rfl, rfl⟩
      · exact .bind _ ((h x v t' (hv x (by simp)) h1 h3 (by simp at hl ⊢; omega)).mono (by simp))
      · rw [D.bind_run, hr x b1 v' (hv x (by simp)) h1 trivial, DecRes.bind_ok, D.bind_run]
        exact (manyMax h hr er n xs v' t (by simpa using hn) (fun y hy => hv y (by simp [hy])) h2 ht
          (by simp at hl ⊢; omega)).map _

theorem limSeq (n : Nat) {e : Enc α} {d : D α} {V : α → Prop} (h : Cuts e d V .any) (hr : RoundTrips e d V .any) :
    Cuts (Enc.list e) (Dec.limSeq n d) (fun xs => xs.length ≤ n ∧ ∀ x ∈ xs, V x) (.exact 0) :=
  fun xs v t hv he ht hl => manyMax h hr _ n xs v t hv.1 hv.2 he ht hl

theorem cstyle (w : TagWidth) (tags : List Nat) : Cuts (Enc.cstyle w tags) (Dec.cstyle w tags) (fun _ => True) .any :=
  fun _ _ _ _ he ht _ => tag w tags _ (Option.some.inj he) ht (Nat.le_refl _)

end Cuts

/-- Arms of an enum. -/
def VCuts (tags : List Nat) (w : TagWidth) (e : TagWidth → Enc β) (d : Nat → D β) (V : β → Prop) (k : Tail) : Prop :=
  ∀ x v t, V x → e w x = some (v ++ t) → t ≠ [] → (v ++ t).length ≤ isizeMax + 1 →
    ∃ tag p, tag ∈ tags ∧ v ++ t = toBe w.len tag ++ p ∧ ∀ v', p = v' ++ t → CutRes k t.length (d tag v')

theorem VCuts.nil (w : TagWidth) (k : Tail) : VCuts [] w Enc.vnil Dec.vnil (fun _ => True) k := fun x => nomatch x

theorem VCuts.cons {tags : List Nat} {w : TagWidth} {e : Enc α} {d : D α} {ev : TagWidth → Enc β}
    {dv : Nat → D β} {V : α → Prop} {V' : β → Prop} {k : Tail} (tag : Nat) (h : Cuts e d V k)
    (hv : VCuts tags w ev dv V' k) (ht : tag ∉ tags) :
    VCuts (tag :: tags) w (Enc.vcons tag e ev) (Dec.vcons tag d dv) (Sum.elim V V') k := by
  intro x v t hx he ht' hl
  cases x with
  | inl x =>
    obtain ⟨b1, b2, h1, h2, hb⟩ := cat_eq_some.mp he
    cases h1
    refine ⟨tag, b2, by simp, hb, fun v' hp => ?_⟩
    subst hp
    simp only [Dec.vcons, if_true, D.map_run]
    rw [hb] at hl
    exact (h x v' t hx h2 ht' (by simp at hl ⊢; omega)).map _
  | inr y =>
    obtain ⟨tag', p, h1, h2, h3⟩ := hv y v t hx he ht' hl
    refine ⟨tag', p, by simp [h1], h2, fun v' hp => ?_⟩
    have : tag' ≠ tag := fun h => ht (h ▸ h1)
    simp only [Dec.vcons, if_neg this, D.map_run]
    exact (h3 v' hp).map _

theorem Cuts.data {tags : List Nat} (w : TagWidth) {ev : TagWidth → Enc β} {dv : Nat → D β} {V : β → Prop}
    {k : Tail} (h : VCuts tags w ev dv V k) (hw : ∀ t ∈ tags, t < 256 ^ w.len) :
    Cuts (ev w) (Dec.data w tags dv) V k := by
  intro x v t hv he ht hl
  obtain ⟨n, p, h1, h2, h3⟩ := h x v t hv he ht hl
  rcases cut_append h2 with ⟨t', h4, h5, rfl⟩ | ⟨v', rfl, rfl⟩
  · exact Cuts.tag w tags _ h5 h4 (by simp)
  · simp only [Dec.data, D.bind_run, Dec.tag_append w h1 (hw _ h1), DecRes.bind_ok]
    exact h3 v' rfl

theorem Cuts.fnil : Cuts Enc.fnil Dec.fnil (fun _ => True) .any := Cuts.unit

theorem Cuts.fcons {e : Enc α} {d : D α} {ef : Enc β} {df : D β} {V : α → Prop} {V' : β → Prop} {k : Tail}
    (h : Cuts e d V .any) (hr : RoundTrips e d V .any) (hf : Cuts ef df V' k) :
    Cuts (Enc.fcons e ef) (Dec.fcons d df) (fun x => V x.1 ∧ V' x.2) k := by
  intro x v t hv he ht hl
  obtain ⟨b1, b2, h1, h2, hb⟩ := cat_eq_some.mp he
  rcases cut_append hb with ⟨t', h3, rfl, rfl⟩ | ⟨v', rfl, rfl⟩
  · exact .bind _ ((h x.1 v t' hv.1 h1 h3 (by simp at hl ⊢; omega)).mono (by simp))
  · simp only [Dec.fcons, D.bind_run, hr x.1 b1 _ hv.1 h1 trivial, DecRes.bind_ok]
    exact (hf x.2 v' t hv.2 h2 ht (by simp at hl ⊢; omega)).map _

/-- A field that takes all there is, followed by fields without any bytes. -/
theorem Cuts.fcons_last {e : Enc α} {d : D α} {ef : Enc β} {df : D β} {V : α → Prop} {V' : β → Prop}
    (h : Cuts e d V (.exact 0)) (hf : RoundTrips ef df V' .any) (hw : ∀ y b, V' y → ef y = some b → b = []) :
    Cuts (Enc.fcons e ef) (Dec.fcons d df) (fun x => V x.1 ∧ V' x.2) (.exact 0) := by
  intro x v t hv he ht hl
  obtain ⟨b1, b2, h1, h2, hb⟩ := cat_eq_some.mp he
  cases hw x.2 b2 hv.2 h2
  rw [List.append_nil] at hb
  subst hb
  have h3 := hf x.2 [] [] hv.2 h2 trivial
  rcases h x.1 v t hv.1 h1 ht hl with ⟨e, h4, h5⟩ | ⟨hk, a, h4⟩
  · exact .inl ⟨e, by rw [Dec.fcons, D.bind_run, h4]; rfl, h5⟩
  · refine .inr ⟨hk, (a, x.2), ?_⟩
    simp only [Dec.fcons, D.bind_run, h4, DecRes.bind_ok]
    rw [show df [] = .ok x.2 [] from h3]
    rfl


/-! ### schemas -/

theorem Tail.join_any {a b : Option Tail} (h : Tail.join a b = some .any) : a = some .any ∧ b = some .any := by
  rcases a with _ | _ | m <;> rcases b with _ | _ | n <;> simp only [Tail.join] at h <;> try cases h
  · exact ⟨rfl, rfl⟩
  · split at h <;> cases h

mutual
/-- Self-delimiting types reserve nothing. -/
theorem Schema.reserves_of_any : ∀ s : Schema, s.tail = some .any → s.reserves = false
  | .unit, _ | .bool, _ | .int _, _ | .f64, _ | .rangedInt _ _ _, _ | .rangedFloat _ _, _ | .zarithN, _ | .zarithZ, _
  | .bytes, _ | .vecU8, _ | .string, _ | .fixedBytes _, _ | .fixedString _, _ | .dynamic _ _, _ | .hole _, _
  | .cstyle _ _, _ => rfl
  | .option s, h => s.reserves_of_any h
  | .nullable s, h => by simp only [Schema.tail] at h; split at h <;> cases h
  | .vpadded n s, h => by simp only [Schema.tail] at h; split at h <;> cases h
  | .padded n s, h => by
    simp only [Schema.tail] at h
    split at h
    · rename_i hc; exact s.reserves_of_any hc
    · split at h <;> cases h
    · cases h
  | .seq s, h => by simp only [Schema.tail] at h; split at h <;> cases h
  | .fixSeq n s, h => by
    simp only [Schema.tail] at h
    split at h
    · rename_i hc; exact s.reserves_of_any hc.1
    · cases h
  | .limSeq n s, h => by simp only [Schema.tail] at h; split at h <;> cases h
  | .autobox s, h => s.reserves_of_any h
  | .data w vs, h => vs.reserves_of_any h
  | .record fs, h => fs.reserves_of_any h
theorem Variants.reserves_of_any : ∀ vs : Variants, vs.tail = some .any → vs.reserves = false
  | .nil, _ => rfl
  | .cons _ s vs, h => by
    obtain ⟨h1, h2⟩ := Tail.join_any h
    simp only [Variants.reserves, s.reserves_of_any h1, vs.reserves_of_any h2, Bool.or_false]
theorem Fields.reserves_of_any : ∀ fs : Fields, fs.tail = some .any → fs.reserves = false
  | .nil, _ => rfl
  | .cons s fs, h => by
    simp only [Fields.tail] at h
    split at h
    · rename_i hc
      simp only [Fields.reserves, s.reserves_of_any hc, fs.reserves_of_any h, Bool.or_false]
    · split at h
      · split at h <;> cases h
      · cases h
    · cases h
end

mutual
/-- Without `VPadded` nothing can follow a type that takes what is there. -/
theorem Schema.tail_zero : ∀ (s : Schema) {n : Nat}, s.reserves = false → s.tail = some (.exact n) → n = 0
  | .unit, _, _, h | .bool, _, _, h | .int _, _, _, h | .f64, _, _, h | .rangedInt _ _ _, _, _, h
  | .rangedFloat _ _, _, _, h | .zarithN, _, _, h | .zarithZ, _, _, h | .fixedBytes _, _, _, h
  | .fixedString _, _, _, h | .hole _, _, _, h | .cstyle _ _, _, _, h => by cases h
  | .bytes, _, _, h | .vecU8, _, _, h | .string, _, _, h => by cases h; rfl
  | .dynamic _ _, _, _, h => by simp only [Schema.tail] at h; split at h <;> cases h
  | .option s, _, hr, h => s.tail_zero hr h
  | .nullable s, _, _, h => by simp only [Schema.tail] at h; split at h <;> cases h; rfl
  | .vpadded n s, _, hr, _ => by cases hr
  | .padded n s, _, hr, h => by
    simp only [Schema.tail] at h
    split at h
    · cases h
    · rename_i hc
      cases s.tail_zero hr hc
      split at h
      · cases h; omega
      · cases h
    · cases h
  | .seq s, _, _, h => by simp only [Schema.tail] at h; split at h <;> cases h; rfl
  | .fixSeq n s, _, _, h => by simp only [Schema.tail] at h; split at h <;> cases h
  | .limSeq n s, _, _, h => by simp only [Schema.tail] at h; split at h <;> cases h; rfl
  | .autobox s, _, hr, h => s.tail_zero hr h
  | .data w vs, _, hr, h => vs.tail_zero hr h
  | .record fs, _, hr, h => fs.tail_zero hr h
theorem Variants.tail_zero : ∀ (vs : Variants) {n : Nat}, vs.reserves = false → vs.tail = some (.exact n) → n = 0
  | .nil, _, _, h => by cases h
  | .cons _ s vs, n, hr, h => by
    simp only [Variants.reserves, Bool.or_eq_false_iff] at hr
    simp only [Variants.tail] at h
    rcases h1 : s.tail with _ | _ | m <;> rcases h2 : vs.tail with _ | _ | m' <;> rw [h1, h2] at h <;>
      simp only [Tail.join] at h <;> try cases h
    · exact vs.tail_zero hr.2 h2
    · exact s.tail_zero hr.1 h1
    · split at h
      · cases h; exact s.tail_zero hr.1 h1
      · cases h
theorem Fields.tail_zero : ∀ (fs : Fields) {n : Nat}, fs.reserves = false → fs.tail = some (.exact n) → n = 0
  | .nil, _, _, h => by cases h
  | .cons s fs, n, hr, h => by
    simp only [Fields.reserves, Bool.or_eq_false_iff] at hr
    simp only [Fields.tail] at h
    split at h
    · exact fs.tail_zero hr.2 h
    · rename_i m hc
      cases s.tail_zero hr.1 hc
      split at h
      · split at h
        · cases h; omega
        · cases h
      · cases h
    · cases h
end

theorem Tail.end_cases {o : Option Tail} (h : Tail.allowsEnd o = true) : ∃ k, o = some k ∧ (k = .any ∨ k = .exact 0) := by
  obtain ⟨k, h1, h2⟩ := Tail.allowsEnd_some h
  refine ⟨k, h1, ?_⟩
  cases k with
  | any => exact .inl rfl
  | exact n => exact .inr (congrArg Tail.exact (show 0 = n from h2).symm)

theorem Cuts.weaken {e : Enc α} {d : D α} {V : α → Prop} {k k' : Tail} (h : Cuts e d V k) (hk : k' = .any → k = .any) :
    Cuts e d V k' := fun x v t h1 h2 h3 h4 =>
  (h x v t h1 h2 h3 h4).imp id fun ⟨h5, h6⟩ => ⟨fun h => h5 (hk h), h6⟩

theorem VCuts.weaken {tags : List Nat} {w : TagWidth} {e : TagWidth → Enc β} {d : Nat → D β} {V : β → Prop} {k k' : Tail}
    (h : VCuts tags w e d V k) (hk : k' = .any → k = .any) : VCuts tags w e d V k' := fun x v t h1 h2 h3 h4 => by
  obtain ⟨tag, p, h5, h6, h7⟩ := h x v t h1 h2 h3 h4
  exact ⟨tag, p, h5, h6, fun v' hv' => (h7 v' hv').imp id fun ⟨h8, h9⟩ => ⟨fun h => h8 (hk h), h9⟩⟩

mutual
theorem Schema.cuts (cfg : Cfg) : ∀ (s : Schema) {k : Tail}, s.tagsOk → s.reserves = false → s.tail = some k →
    Cuts s.wire (s.dec cfg) s.Valid k
  | .unit, _, _, _, h => by cases h; exact .unit
  | .bool, _, _, _, h => by cases h; exact .bool
  | .int t, _, _, _, h => by cases h; exact .int t
  | .f64, _, _, _, h => by cases h; exact .f64
  | .rangedInt t min max, _, _, _, h => by cases h; exact .rangedInt t min max
  | .rangedFloat min max, _, _, _, h => by cases h; exact .rangedFloat min max _
  | .zarithN, _, _, _, h => by cases h; exact .zarithN
  | .zarithZ, _, _, _, h => by cases h; exact .zarithZ
  | .bytes, _, _, _, h => by cases h; exact .bytes
  | .vecU8, _, _, _, h => by cases h; exact .bytes
  | .string, _, _, _, h => by cases h; exact .string
  | .fixedBytes n, _, _, _, h => by cases h; exact .byteArr n
  | .fixedString n, _, _, _, h => by cases h; exact .byteArr n
  | .option s, k, hw, hr, h => .option (s.cuts cfg hw hr h)
  | .nullable s, k, hw, hr, h => by
    simp only [Schema.tail] at h
    split at h
    · rename_i hc
      cases h
      simp only [Bool.and_eq_true] at hc
      obtain ⟨k, h1, h2⟩ := Tail.end_cases hc.1
      exact .nullable (s.cuts cfg hw hr h1) h2
    · cases h
  | .dynamic S s, k, hw, _, h => by
    simp only [Schema.tail] at h
    split at h
    · cases h
      refine .dynamic S ?_
      intro x b l _ hb hl
      rw [hb] at hl
      cases hl
      rfl
    · cases h
  | .vpadded n s, k, hw, hr, h => by cases hr
  | .padded n s, k, hw, hr, h => by
    simp only [Schema.tail] at h
    split at h
    · rename_i hc
      cases h
      exact .padded cfg n (s.cuts cfg hw hr hc) (s.roundTrips cfg hw hc)
    · rename_i m hc
      cases s.tail_zero hr hc
      split at h
      · rename_i hm
        cases h
        cases Nat.le_zero.mp hm
        exact .padded_zero cfg (s.cuts cfg hw hr hc)
      · cases h
    · cases h
  | .seq s, k, hw, hr, h => by
    simp only [Schema.tail] at h
    split at h
    · rename_i hc
      cases h
      exact .seq (s.cuts cfg hw hr hc.1) (s.roundTrips cfg hw hc.1) (s.nonEmpty hc.2)
    · cases h
  | .fixSeq n s, k, hw, hr, h => by
    simp only [Schema.tail] at h
    split at h
    · rename_i hc
      cases h
      exact .fixSeq n (s.cuts cfg hw hr hc.1) (s.roundTrips cfg hw hc.1)
    · cases h
  | .limSeq n s, k, hw, hr, h => by
    simp only [Schema.tail] at h
    split at h
    · rename_i hc
      cases h
      exact .limSeq n (s.cuts cfg hw hr hc.1) (s.roundTrips cfg hw hc.1)
    · cases h
  | .autobox s, k, hw, hr, h => s.cuts cfg hw hr h
  | .hole _, _, _, _, _ => fun x => nomatch x
  | .cstyle w tags, _, _, _, h => by cases h; exact .cstyle w tags
  | .data w vs, k, hw, hr, h => .data w (vs.cuts cfg w hw.2 hr h) hw.1
  | .record fs, k, hw, hr, h => fs.cuts cfg hw hr h
theorem Variants.cuts (cfg : Cfg) (w : TagWidth) : ∀ (vs : Variants) {k : Tail}, vs.tagsOk → vs.reserves = false →
    vs.tail = some k → VCuts vs.tags w vs.wire (vs.dec cfg) vs.Valid k
  | .nil, k, _, _, _ => .nil w k
  | .cons tag s vs, k, hw, hr, h => by
    simp only [Variants.reserves, Bool.or_eq_false_iff] at hr
    obtain ⟨k1, k2, h1, h2, _⟩ := Tail.join_allows h
    refine .cons tag ((s.cuts cfg hw.2.1 hr.1 h1).weaken fun hk => ?_) ((vs.cuts cfg w hw.2.2 hr.2 h2).weaken fun hk => ?_)
      hw.1
    · subst hk; exact Option.some.inj (h1.symm.trans (Tail.join_any h).1)
    · subst hk; exact Option.some.inj (h2.symm.trans (Tail.join_any h).2)
theorem Fields.cuts (cfg : Cfg) : ∀ (fs : Fields) {k : Tail}, fs.tagsOk → fs.reserves = false → fs.tail = some k →
    Cuts fs.wire (fs.dec cfg) fs.Valid k
  | .nil, _, _, _, h => by cases h; exact .fnil
  | .cons s fs, k, hw, hr, h => by
    simp only [Fields.reserves, Bool.or_eq_false_iff] at hr
    simp only [Fields.tail] at h
    split at h
    · rename_i hc
      exact .fcons (s.cuts cfg hw.1 hr.1 hc) (s.roundTrips cfg hw.1 hc) (fs.cuts cfg hw.2 hr.2 h)
    · rename_i m hc
      cases s.tail_zero hr.1 hc
      split at h
      · rename_i l hl
        split at h
        · rename_i hc2
          cases h
          cases Nat.le_zero.mp hc2.1
          exact .fcons_last (s.cuts cfg hw.1 hr.1 hc) (fs.roundTrips cfg hw.2 hc2.2) fun y b hy hb =>
            List.length_eq_zero_iff.mp (fs.width_eq hl y b hy hb)
        · cases h
      · cases h
    · cases h
end

end Verif
