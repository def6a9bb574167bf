import Verif.Lemmas.Chunks
import Verif.BoundedSeq
import Verif.Props.Prims
/-
C25 (`Sequence`), C26 (`FixSeq`), C27 (`LimSeq`, and the bound on both) and C42 (collecting and extending), over
arbitrary element codecs: of the elements only their behaviour on the bytes in question is assumed.
-/
namespace Verif.Props

open Codec

variable {α : Type} {c : Codec α} {cfg : Cfg}

/-- The encodings of the elements, one after the other; `none` if one of them does not encode. -/
def concatBytes (c : Codec α) (xs : List α) : Option Bytes := (xs.mapM c.toBytes).map List.flatten

theorem concatBytes_nil (c : Codec α) : concatBytes c [] = some [] := rfl

theorem concatBytes_cons (c : Codec α) (x : α) (xs : List α) :
    concatBytes c (x :: xs) = (c.toBytes x).bind fun b => (concatBytes c xs).map (b ++ ·) := by
  simp only [concatBytes, List.mapM_cons]
  cases c.toBytes x with
  | none => rfl
  | some b => cases xs.mapM c.toBytes <;> rfl

theorem list_eq_concat (c : Codec α) : ∀ xs, Enc.list c.toBytes xs = concatBytes c xs
  | [] => rfl
  | x :: xs => by
    rw [concatBytes_cons, Enc.list, list_eq_concat c xs]
    cases c.toBytes x with
    | none => rfl
    | some b => cases concatBytes c xs <;> rfl

/-- Elements that round-trip and do not encode to nothing are read back one after the other. -/
theorem chunks_concat {xs : List α} {b : Bytes} (t : Bytes)
    (h : ∀ x ∈ xs, ∀ b t, c.toBytes x = some b → b ≠ [] ∧ c.Decodes cfg (b ++ t) x t)
    (hb : concatBytes c xs = some b) : Chunks c cfg (b ++ t) xs t := by
  induction xs generalizing b with
  | nil => cases hb; exact .nil t
  | cons x xs ih =>
    rw [concatBytes_cons] at hb
    cases hx : c.toBytes x with
    | none => rw [hx] at hb; cases hb
    | some p =>
      cases hr : concatBytes c xs with
      | none => rw [hx, hr] at hb; cases hb
      | some q =>
        rw [hx, hr] at hb
        cases hb
        obtain ⟨h1, h2⟩ := h x (List.mem_cons_self ..) p (q ++ t) hx
        refine .cons ?_ ?_ (ih (fun y hy => h y (List.mem_cons_of_mem _ hy)) hr)
        · rw [List.append_assoc]
          intro h0
          exact h1 (List.append_eq_nil_iff.mp h0).1
        · rw [List.append_assoc]; exact h2

/-! ### C25 -/

/-- C25, encoding. -/
theorem C25_encode (hc : c.Appending) (xs : List α) : (seq c).toBytes xs = concatBytes c xs := by
  rw [Writes.toBytes (seq_writes hc), list_eq_concat]

/-- C25, decoding: elements are decoded one after the other until nothing is left. -/
theorem C25_decode {v : Bytes} {as : List α} (h : Chunks c cfg v as []) : (seq c).Decodes cfg v as [] :=
  fun k vs s hs => by
    obtain ⟨s1, h1, r1⟩ := loop_seq h k vs s [] hs
    obtain ⟨s2, h2, r2⟩ := seq_end (c := c) (cfg := cfg) ([] ++ as) r1
    exact ⟨s2, h1.trans h2, r2⟩

/-- C25, an element that fails to decode. -/
theorem C25_element_error {v r : Bytes} {as : List α} {e : ParseError} (h : Chunks c cfg v as r) (hr : r ≠ [])
    (he : c.Rejects cfg r e) : (seq c).Rejects cfg v e := fun k vs s hs => by
  obtain ⟨s1, h1, r1⟩ := loop_seq h k vs s [] hs
  obtain ⟨s2, h2, r2⟩ := (k.lawful cfg.prof).remainder r1
  obtain ⟨e', s3, h3, hk⟩ := he k vs s2 r2
  have hr' : r.length ≠ 0 := fun h0 => hr (List.eq_nil_of_length_eq_zero h0)
  refine ⟨e', s3, h1.trans ?_, hk⟩
  rw [iterM_unfold]
  simp [seqBody, M.bind_run, h2, hr', h3]

/-- C25, round trip. -/
theorem C25_roundtrip (hc : c.Appending) {xs : List α} {b : Bytes}
    (h : ∀ x ∈ xs, ∀ b t, c.toBytes x = some b → b ≠ [] ∧ c.Decodes cfg (b ++ t) x t)
    (hb : (seq c).toBytes xs = some b) : (seq c).Decodes cfg b xs [] := by
  rw [C25_encode hc] at hb
  have := chunks_concat [] h hb
  rw [List.append_nil] at this
  exact C25_decode this

/-- C25, termination: if the element codec returns on every nonempty input, consuming something whenever it
succeeds, then decoding the sequence returns on every input, and on success everything has been read. -/
theorem C25_terminates
    (h : ∀ w, w ≠ [] → (∃ a rest, c.Decodes cfg w a rest ∧ rest.length < w.length) ∨ ∃ e, c.Rejects cfg w e)
    (v : Bytes) : (∃ xs, Chunks c cfg v xs [] ∧ (seq c).Decodes cfg v xs []) ∨ ∃ e, (seq c).Rejects cfg v e := by
  have key : ∀ n (v : Bytes), v.length ≤ n →
      (∃ xs, Chunks c cfg v xs []) ∨ ∃ as r e, Chunks c cfg v as r ∧ r ≠ [] ∧ c.Rejects cfg r e := by
    intro n
    induction n with
    | zero => intro v hv; exact .inl ⟨[], by rw [List.eq_nil_of_length_eq_zero (Nat.le_zero.mp hv)]; exact .nil []⟩
    | succ n ih =>
      intro v hv
      by_cases h0 : v = []
      · subst h0; exact .inl ⟨[], .nil []⟩
      rcases h v h0 with ⟨a, rest, hd, hl⟩ | ⟨e, he⟩
      · rcases ih rest (by omega) with ⟨xs, hx⟩ | ⟨as, r, e, hx, hr, he⟩
        · exact .inl ⟨a :: xs, .cons h0 hd hx⟩
        · exact .inr ⟨a :: as, r, e, .cons h0 hd hx, hr, he⟩
      · exact .inr ⟨[], v, e, .nil v, h0, he⟩
  rcases key v.length v (Nat.le_refl _) with ⟨xs, hx⟩ | ⟨as, r, e, hx, hr, he⟩
  · exact .inl ⟨xs, hx, C25_decode hx⟩
  · exact .inr ⟨e, C25_element_error hx hr he⟩

/-- C25, the condition is needed: where an element decodes from a nonempty input without consuming anything, the
sequence never returns. -/
theorem C25_diverges {v : Bytes} {a : α} (hv : v ≠ []) (h : c.Decodes cfg v a v) : (seq c).Diverges cfg v :=
  fun k vs s hs => by
    have hv' : v.length ≠ 0 := fun h0 => hv (List.eq_nil_of_length_eq_zero h0)
    refine iterM_diverge_of_inv (fun _ s => k.Holds v vs s) (fun acc s hs => ?_) hs
    obtain ⟨s1, h1, r1⟩ := (k.lawful cfg.prof).remainder hs
    obtain ⟨s2, h2, r2⟩ := h k vs s1 r1
    exact ⟨acc ++ [a], s2, by simp [seqBody, M.bind_run, h1, hv', h2], r2⟩

theorem int_nonempty (t : IntTy) (x : t.Val) (b : Bytes) (h : (Codec.int t).toBytes x = some b) : b ≠ [] := by
  rw [Writes.toBytes (int_writes t)] at h
  rw [Option.some.inj h.symm]
  intro h0
  have := congrArg List.length h0
  rw [toBe_length] at this
  cases t <;> simp [IntTy.len] at this

example (cfg : Cfg) : (seq (Codec.int .u16)).toBytes [258, 3] = some [1, 2, 0, 3] ∧
    (seq (Codec.int .u16)).Decodes cfg [1, 2, 0, 3] [258, 3] [] :=
  ⟨by decide, C25_roundtrip (Writes.appending (int_writes .u16))
    (fun x _ b t h => ⟨int_nonempty _ _ _ h, C10_int_roundtrip cfg .u16 x b _ h⟩) (by decide)⟩
example (cfg : Cfg) : (seq Codec.unit).Diverges cfg [7] :=
  C25_diverges (a := ()) (by decide) (Parses.decodes (unit_parses (win := False)) rfl)

/-! ### C26 -/

/-- C26, encoding. -/
theorem C26_encode (hc : c.Appending) (n : Nat) (xs : List α) : (fixSeq n c).toBytes xs = concatBytes c xs := by
  rw [Writes.toBytes (fixSeq_writes n hc), list_eq_concat]

/-- C26: whatever the element codec, the parser and its state, a decoded `FixSeq<T, N>` has `N` elements. -/
theorem C26_exact (c : Codec α) (n : Nat) {σ : Type} (P : ParserOps σ) {s s' : σ} {xs : List α}
    (h : (fixSeq n c).parse P s = .ok xs s') : xs.length = n := by
  simp only [fixSeq, M.bind_run] at h
  cases hi : iterM (fixBody n P (c.parse P)) [] s with
  | ok ys s1 =>
    rw [hi] at h
    simp only [Out.bind_ok] at h
    by_cases hn : ys.length = n
    · rw [if_pos hn] at h
      rw [← (Out.ok.inj h).1]
      exact hn
    · rw [if_neg hn] at h
      cases h
  | err => rw [hi] at h; cases h
  | panic => rw [hi] at h; cases h
  | ub => rw [hi] at h; cases h
  | diverge => rw [hi] at h; cases h

/-- C26, decoding: `n` elements are decoded one after the other; what follows them is not touched. -/
theorem C26_decode {n : Nat} {v rest : Bytes} {as : List α} (h : Chunks c cfg v as rest) (hn : as.length = n) :
    (fixSeq n c).Decodes cfg v as rest := fun k vs s hs => by
  obtain ⟨s1, h1, r1⟩ := loop_fix (n := n) h k vs s [] (by simp [hn]) hs
  obtain ⟨s2, h2, r2⟩ := fix_end (c := c) (cfg := cfg) (n := n) ([] ++ as) (.inr (by simp [hn])) r1
  refine ⟨s2, ?_, r2⟩
  simp [fixSeq, M.bind_run, h1.trans h2, hn]

/-- C26, an input that ends before the last element. -/
theorem C26_short {n : Nat} {v : Bytes} {as : List α} (h : Chunks c cfg v as []) (hn : as.length < n) :
    (fixSeq n c).Rejects cfg v (.external (.lengthViolation (.wrongLength n as.length))) := fun k vs s hs => by
  obtain ⟨s1, h1, r1⟩ := loop_fix (n := n) h k vs s [] (by simp; omega) hs
  obtain ⟨s2, h2, r2⟩ := fix_end (c := c) (cfg := cfg) (n := n) ([] ++ as) (.inl rfl) r1
  have hne : as.length ≠ n := by omega
  exact ⟨.external (.lengthViolation (.wrongLength n as.length)), s2,
    by simp [fixSeq, M.bind_run, h1.trans h2, hne, M.throw], rfl⟩

/-- C26, an element that fails to decode. -/
theorem C26_element_error {n : Nat} {v r : Bytes} {as : List α} {e : ParseError} (h : Chunks c cfg v as r)
    (hn : as.length < n) (hr : r ≠ []) (he : c.Rejects cfg r e) : (fixSeq n c).Rejects cfg v e := fun k vs s hs => by
  obtain ⟨s1, h1, r1⟩ := loop_fix (n := n) h k vs s [] (by simp; omega) hs
  obtain ⟨s2, h2, r2⟩ := (k.lawful cfg.prof).remainder r1
  obtain ⟨e', s3, h3, hk⟩ := he k vs s2 r2
  have hr' : r.length ≠ 0 := fun h0 => hr (List.eq_nil_of_length_eq_zero h0)
  refine ⟨e', s3, ?_, hk⟩
  simp only [fixSeq, M.bind_run, h1]
  rw [iterM_unfold]
  simp [fixBody, M.bind_run, h2, hr', h3, hn]

/-- C26, round trip: in front of any bytes. -/
theorem C26_roundtrip (hc : c.Appending) {n : Nat} {xs : List α} {b : Bytes} (t : Bytes) (hn : xs.length = n)
    (h : ∀ x ∈ xs, ∀ b t, c.toBytes x = some b → b ≠ [] ∧ c.Decodes cfg (b ++ t) x t)
    (hb : (fixSeq n c).toBytes xs = some b) : (fixSeq n c).Decodes cfg (b ++ t) xs t := by
  rw [C26_encode hc] at hb
  exact C26_decode (chunks_concat t h hb) hn

/-- C26, decoding returns: at most `n` elements are decoded, so a `FixSeq` of an element codec that returns on every
nonempty input returns on every input, even if elements take no room. -/
theorem C26_terminates (n : Nat)
    (h : ∀ w, w ≠ [] → (∃ a rest, c.Decodes cfg w a rest) ∨ ∃ e, c.Rejects cfg w e)
    (v : Bytes) : (∃ xs rest, (fixSeq n c).Decodes cfg v xs rest) ∨ ∃ e, (fixSeq n c).Rejects cfg v e := by
  have key : ∀ m (v : Bytes), (∃ xs r, Chunks c cfg v xs r ∧ xs.length ≤ m ∧ (xs.length = m ∨ r = [])) ∨
      ∃ as r e, Chunks c cfg v as r ∧ as.length < m ∧ r ≠ [] ∧ c.Rejects cfg r e := by
    intro m
    induction m with
    | zero => intro v; exact .inl ⟨[], v, .nil v, Nat.le_refl _, .inl rfl⟩
    | succ m ih =>
      intro v
      by_cases h0 : v = []
      · subst h0; exact .inl ⟨[], [], .nil [], Nat.zero_le _, .inr rfl⟩
      rcases h v h0 with ⟨a, rest, hd⟩ | ⟨e, he⟩
      · rcases ih rest with ⟨xs, r, hx, hl, ho⟩ | ⟨as, r, e, hx, hl, hr, he⟩
        · refine .inl ⟨a :: xs, r, .cons h0 hd hx, by simpa using hl, ?_⟩
          exact ho.imp (fun h => by simpa using h) id
        · exact .inr ⟨a :: as, r, e, .cons h0 hd hx, by simpa using hl, hr, he⟩
      · exact .inr ⟨[], v, e, .nil v, Nat.succ_pos _, h0, he⟩
  rcases key n v with ⟨xs, r, hx, hl, ho⟩ | ⟨as, r, e, hx, hl, hr, he⟩
  · by_cases hn : xs.length = n
    · exact .inl ⟨xs, r, C26_decode hx hn⟩
    · have hr : r = [] := ho.resolve_left hn
      subst hr
      exact .inr ⟨_, C26_short hx (by omega)⟩
  · exact .inr ⟨e, C26_element_error hx hl hr he⟩

/-- C26, elements must not be empty: two units encode to nothing, and from nothing they do not come back. -/
theorem C26_zero_width (cfg : Cfg) : (fixSeq 2 Codec.unit).toBytes [(), ()] = some [] ∧
    (fixSeq 2 Codec.unit).Rejects cfg [] (.external (.lengthViolation (.wrongLength 2 0))) :=
  ⟨Writes.toBytes (fixSeq_writes 2 unit_writes) [(), ()], C26_short (.nil []) (by decide)⟩

example (cfg : Cfg) : (fixSeq 2 (Codec.int .u16)).Decodes cfg [1, 2, 0, 3, 9, 9] [258, 3] [9, 9] :=
  C26_roundtrip (b := [1, 2, 0, 3]) (Writes.appending (int_writes .u16)) [9, 9] rfl
    (fun x _ b t h => ⟨int_nonempty _ _ _ h, C10_int_roundtrip cfg .u16 x b _ h⟩) (by decide)
example (cfg : Cfg) : (fixSeq 2 (Codec.int .u16)).Rejects cfg [1, 2]
    (.external (.lengthViolation (.wrongLength 2 1))) :=
  C26_short (as := [258]) (.cons (by decide) (C10_int_roundtrip cfg .u16 258 [1, 2] [] (by decide)) (.nil []))
    (by decide)

/-! ### C27 -/

/-- C27, encoding. -/
theorem C27_encode (hc : c.Appending) (n : Nat) (xs : List α) : (limSeq n c).toBytes xs = concatBytes c xs := by
  rw [Writes.toBytes (limSeq_writes n hc), list_eq_concat]

/-- C27: whatever the element codec, the parser and its state, a decoded `LimSeq<T, N>` has at most `N` elements. -/
theorem C27_decode_bound (c : Codec α) (n : Nat) {σ : Type} (P : ParserOps σ) {s s' : σ} {xs : List α}
    (h : (limSeq n c).parse P s = .ok xs s') : xs.length ≤ n := by
  refine iterM_ok_of_inv (b := ([] : List α)) (fun acc : List α => acc.length ≤ n) (fun xs : List α => xs.length ≤ n) ?_ (Nat.zero_le n) h
  intro acc s r s' hacc hb
  simp only [limBody, M.bind_run] at hb
  cases h1 : P.remainder s with
  | ok m s1 =>
    rw [h1] at hb
    simp only [Out.bind_ok] at hb
    by_cases hm : m ≠ 0
    · rw [if_pos hm] at hb
      simp only [M.bind_run] at hb
      cases h2 : c.parse P s1 with
      | ok a s2 =>
        rw [h2] at hb
        simp only [Out.bind_ok, tryPush] at hb
        by_cases hl : acc.length < n
        · rw [if_pos hl] at hb
          rw [← (Out.ok.inj hb).1]
          simp only [List.length_append, List.length_singleton]
          omega
        · rw [if_neg hl] at hb
          cases hb
      | err => rw [h2] at hb; cases hb
      | panic => rw [h2] at hb; cases hb
      | ub => rw [h2] at hb; cases hb
      | diverge => rw [h2] at hb; cases hb
    · rw [if_neg hm] at hb
      rw [← (Out.ok.inj hb).1]
      exact hacc
  | err => rw [h1] at hb; cases hb
  | panic => rw [h1] at hb; cases hb
  | ub => rw [h1] at hb; cases hb
  | diverge => rw [h1] at hb; cases hb

/-- C27, decoding: elements are decoded one after the other until nothing is left. -/
theorem C27_decode {n : Nat} {v : Bytes} {as : List α} (h : Chunks c cfg v as []) (hn : as.length ≤ n) :
    (limSeq n c).Decodes cfg v as [] := fun k vs s hs => by
  obtain ⟨s1, h1, r1⟩ := loop_lim (n := n) h k vs s [] (by simpa using hn) hs
  obtain ⟨s2, h2, r2⟩ := lim_end (c := c) (cfg := cfg) (n := n) ([] ++ as) r1
  exact ⟨s2, h1.trans h2, r2⟩

/-- C27, an element that fails to decode. -/
theorem C27_element_error {n : Nat} {v r : Bytes} {as : List α} {e : ParseError} (h : Chunks c cfg v as r)
    (hn : as.length ≤ n) (hr : r ≠ []) (he : c.Rejects cfg r e) : (limSeq n c).Rejects cfg v e := fun k vs s hs => by
  obtain ⟨s1, h1, r1⟩ := loop_lim (n := n) h k vs s [] (by simpa using hn) hs
  obtain ⟨s2, h2, r2⟩ := (k.lawful cfg.prof).remainder r1
  obtain ⟨e', s3, h3, hk⟩ := he k vs s2 r2
  have hr' : r.length ≠ 0 := fun h0 => hr (List.eq_nil_of_length_eq_zero h0)
  refine ⟨e', s3, ?_, hk⟩
  simp only [limSeq, h1]
  rw [iterM_unfold]
  simp [limBody, M.bind_run, h2, hr', h3]

theorem Chunks.split {v rest : Bytes} {as bs : List α} (h : Chunks c cfg v (as ++ bs) rest) :
    ∃ r, Chunks c cfg v as r ∧ Chunks c cfg r bs rest := by
  induction as generalizing v with
  | nil => exact ⟨v, .nil v, h⟩
  | cons a as ih =>
    cases h with
    | cons hv hd t =>
      obtain ⟨r, h1, h2⟩ := ih t
      exact ⟨r, .cons hv hd h1, h2⟩

/-- C27, one element too many is an error, whatever follows. -/
theorem C27_too_many {n : Nat} {v rest : Bytes} {as : List α} (h : Chunks c cfg v as rest) (hn : n < as.length) :
    (limSeq n c).Rejects cfg v (.external (.lengthViolation (.tooLong n (n + 1)))) := fun k vs s hs => by
  rw [← List.take_append_drop n as] at h
  obtain ⟨r, hA, hB⟩ := Chunks.split h
  have hlen : (as.take n).length = n := by rw [List.length_take]; omega
  obtain ⟨s1, h1, r1⟩ := loop_lim (n := n) hA k vs s [] (by rw [hlen]; simp) hs
  cases hd : as.drop n with
  | nil =>
    have := congrArg List.length hd
    rw [List.length_drop, List.length_nil] at this
    omega
  | cons a bs =>
    rw [hd] at hB
    cases hB with
    | cons hv hdec _ =>
      obtain ⟨s2, h2, r2⟩ := (k.lawful cfg.prof).remainder r1
      obtain ⟨s3, h3, r3⟩ := hdec k vs s2 r2
      have hv' : r.length ≠ 0 := fun h0 => hv (List.eq_nil_of_length_eq_zero h0)
      have hlen' : ¬ ([] ++ as.take n).length < n := by rw [List.nil_append, hlen]; exact Nat.lt_irrefl n
      refine ⟨.external (.lengthViolation (.tooLong n (n + 1))), s3, ?_, rfl⟩
      simp only [limSeq, h1]
      rw [iterM_unfold]
      simp only [limBody, M.bind_run, h2, Out.bind_ok, ne_eq, hv', not_false_eq_true, if_true, h3, tryPush, if_neg hlen']
      rfl

/-- C27, round trip. -/
theorem C27_roundtrip (hc : c.Appending) {n : Nat} {xs : List α} {b : Bytes} (hn : xs.length ≤ n)
    (h : ∀ x ∈ xs, ∀ b t, c.toBytes x = some b → b ≠ [] ∧ c.Decodes cfg (b ++ t) x t)
    (hb : (limSeq n c).toBytes xs = some b) : (limSeq n c).Decodes cfg b xs [] := by
  rw [C27_encode hc] at hb
  have := chunks_concat [] h hb
  rw [List.append_nil] at this
  exact C27_decode this hn

/-- C27, decoding returns: even if elements take no room, since there are at most `n + 1` of them. -/
theorem C27_terminates (n : Nat)
    (h : ∀ w, w ≠ [] → (∃ a rest, c.Decodes cfg w a rest) ∨ ∃ e, c.Rejects cfg w e)
    (v : Bytes) : (∃ xs, (limSeq n c).Decodes cfg v xs []) ∨ ∃ e, (limSeq n c).Rejects cfg v e := by
  have key : ∀ m (v : Bytes), (∃ xs r, Chunks c cfg v xs r ∧ xs.length ≤ m ∧ (xs.length = m ∨ r = [])) ∨
      ∃ as r e, Chunks c cfg v as r ∧ as.length < m ∧ r ≠ [] ∧ c.Rejects cfg r e := by
    intro m
    induction m with
    | zero => intro v; exact .inl ⟨[], v, .nil v, Nat.le_refl _, .inl rfl⟩
    | succ m ih =>
      intro v
      by_cases h0 : v = []
      · subst h0; exact .inl ⟨[], [], .nil [], Nat.zero_le _, .inr rfl⟩
      rcases h v h0 with ⟨a, rest, hd⟩ | ⟨e, he⟩
      · rcases ih rest with ⟨xs, r, hx, hl, ho⟩ | ⟨as, r, e, hx, hl, hr, he⟩
        · refine .inl ⟨a :: xs, r, .cons h0 hd hx, by simpa using hl, ?_⟩
          exact ho.imp (fun h => by simpa using h) id
        · exact .inr ⟨a :: as, r, e, .cons h0 hd hx, by simpa using hl, hr, he⟩
      · exact .inr ⟨[], v, e, .nil v, Nat.succ_pos _, h0, he⟩
  rcases key (n + 1) v with ⟨xs, r, hx, hl, ho⟩ | ⟨as, r, e, hx, hl, hr, he⟩
  · by_cases hn : xs.length = n + 1
    · exact .inr ⟨_, C27_too_many hx (by omega)⟩
    · have hr : r = [] := ho.resolve_left hn
      subst hr
      exact .inl ⟨xs, C27_decode hx (by omega)⟩
  · exact .inr ⟨e, C27_element_error hx (by omega) hr he⟩

/-! #### constructors and mutations -/

theorem takeCollect_length (n : Nat) (it : Iter α) : (it.takeCollect n).length ≤ n := by
  induction n generalizing it with
  | zero => simp [Iter.takeCollect]
  | succ n ih =>
    simp only [Iter.takeCollect]
    split
    · simpa using ih _
    · simp

theorem fromIter_length {n : Nat} {it : Iter α} {xs : List α} (h : BoundedSeq.fromIter n it = some xs) :
    xs.length ≤ n := by
  simp only [BoundedSeq.fromIter] at h
  split at h
  · cases h
  · cases h; exact takeCollect_length _ _

theorem extend_length {n : Nat} {it : Iter α} {xs ys : List α} (h : BoundedSeq.extend n xs it = some ys) :
    ys.length ≤ n := by
  simp only [BoundedSeq.extend] at h
  split at h
  · cases h
  · split at h
    · cases h
    · rename_i hn _ it' _
      cases h
      have := takeCollect_length (n - xs.length) it'
      rw [List.length_append]
      omega

theorem op_length {n : Nat} {xs : List α} (hx : xs.length ≤ n) (op : BoundedSeq.Op α) :
    (op.run n xs).length ≤ n := by
  cases op with
  | tryPush x =>
    simp only [BoundedSeq.Op.run, BoundedSeq.tryPush]
    by_cases h : xs.length < n
    · rw [if_pos h]; simp only [List.length_append, List.length_singleton]; omega
    · rw [if_neg h]; exact hx
  | extend it =>
    simp only [BoundedSeq.Op.run]
    cases h : BoundedSeq.extend n xs it with
    | none => exact hx
    | some ys => exact extend_length h
  | set i x =>
    simp only [BoundedSeq.Op.run, BoundedSeq.set]
    split
    · simpa using hx
    · exact hx

theorem ops_length {n : Nat} {xs : List α} (hx : xs.length ≤ n) (ops : List (BoundedSeq.Op α)) :
    (ops.foldl (fun xs op => op.run n xs) xs).length ≤ n := by
  induction ops generalizing xs with
  | nil => exact hx
  | cons op ops ih => exact ih (op_length hx op)

/-- C27, `LimSeq`: no history of constructor and mutation calls, whatever iterators they are given, exceeds the
bound. -/
theorem C27_lim_bound (n : Nat) (i : BoundedSeq.LimInit α) (ops : List (BoundedSeq.Op α)) (xs : List α)
    (h : i.run n = some xs) : (ops.foldl (fun xs op => op.run n xs) xs).length ≤ n := by
  refine ops_length ?_ ops
  cases i with
  | new => cases h; exact Nat.zero_le n
  | fromIter it => exact fromIter_length h
  | tryFrom ys =>
    simp only [BoundedSeq.LimInit.run, BoundedSeq.limTryFrom] at h
    split at h
    · cases h
    · cases h; omega
  | fromVec ys =>
    simp only [BoundedSeq.LimInit.run, BoundedSeq.limFromVec] at h
    split at h
    · cases h; assumption
    · cases h

/-- C27, `FixSeq`. -/
theorem C27_fix_bound (n : Nat) (i : BoundedSeq.FixInit α) (ops : List (BoundedSeq.Op α)) (xs : List α)
    (h : i.run n = some xs) : (ops.foldl (fun xs op => op.run n xs) xs).length ≤ n := by
  refine ops_length ?_ ops
  cases i with
  | new => cases h; exact Nat.zero_le n
  | fromIter it => exact fromIter_length h
  | fromSlice ys =>
    simp only [BoundedSeq.FixInit.run, BoundedSeq.fixTryFromSlice] at h
    split at h
    · cases h
    · rename_i hn
      cases h
      omega
  | fromVec ys =>
    simp only [BoundedSeq.FixInit.run, BoundedSeq.fixTryFromVec] at h
    split at h
    · cases h
    · cases h; omega

/-- C27, within the bound the constructors keep what they are given, beyond it they refuse. -/
theorem C27_constructors (n : Nat) (xs : List α) :
    (xs.length ≤ n → BoundedSeq.limTryFrom n xs = .ok xs ∧ BoundedSeq.limFromVec n xs = some xs ∧
      BoundedSeq.fixTryFromVec n xs = .ok xs) ∧
    (n < xs.length → BoundedSeq.limTryFrom n xs = .error (.tooLong n xs.length) ∧ BoundedSeq.limFromVec n xs = none ∧
      BoundedSeq.fixTryFromVec n xs = .error (.tooLong n xs.length)) ∧
    (BoundedSeq.fixTryFromSlice n xs = .ok xs ↔ xs.length = n) ∧
    (xs.length ≠ n → BoundedSeq.fixTryFromSlice n xs = .error (.wrongLength n xs.length)) := by
  refine ⟨fun h => ?_, fun h => ?_, ?_, fun h => ?_⟩
  · simp only [BoundedSeq.limTryFrom, BoundedSeq.limFromVec, BoundedSeq.fixTryFromVec, if_neg (Nat.not_lt.mpr h), if_pos h,
      and_self]
  · simp only [BoundedSeq.limTryFrom, BoundedSeq.limFromVec, BoundedSeq.fixTryFromVec, if_pos h,
      if_neg (Nat.not_le.mpr h), and_self]
  · simp only [BoundedSeq.fixTryFromSlice]
    by_cases h : n = xs.length
    · rw [if_neg (fun hn => hn h)]; exact ⟨fun _ => h.symm, fun _ => rfl⟩
    · rw [if_pos h]; exact ⟨fun h' => (by cases h'), fun h' => absurd h'.symm h⟩
  · simp only [BoundedSeq.fixTryFromSlice]
    rw [if_pos (fun h' => h h'.symm)]

/-- C27, pushing: the element is added at the end while there is room, and refused otherwise. -/
theorem C27_push (n : Nat) (xs : List α) (x : α) :
    (xs.length < n → BoundedSeq.tryPush n xs x = .ok (xs ++ [x])) ∧
    (n ≤ xs.length → BoundedSeq.tryPush n xs x = .error (.tooLong n (n + 1))) :=
  ⟨fun h => if_pos h, fun h => if_neg (Nat.not_lt.mpr h)⟩

/-- C27, assignment through an index: that element is replaced and nothing else changes; an index out of range panics. -/
theorem C27_set (xs : List α) (i : Nat) (x : α) :
    (i < xs.length → ∃ ys, BoundedSeq.set xs i x = some ys ∧ ys.length = xs.length ∧ ys[i]? = some x ∧
      ∀ j, j ≠ i → ys[j]? = xs[j]?) ∧
    (xs.length ≤ i → BoundedSeq.set xs i x = none) := by
  refine ⟨fun h => ⟨xs.set i x, if_pos h, by simp, by simp [h], fun j hj => ?_⟩, fun h => if_neg (Nat.not_lt.mpr h)⟩
  simp [List.getElem?_set, Ne.symm hj]

example : ([.tryPush 4, .tryPush 5] : List (BoundedSeq.Op Nat)).foldl (fun xs op => op.run 3 xs) [1, 2] = [1, 2, 4] := rfl
example (cfg : Cfg) : (limSeq 3 (Codec.int .u16)).Decodes cfg [1, 2, 0, 3] [258, 3] [] :=
  C27_roundtrip (Writes.appending (int_writes .u16)) (by decide)
    (fun x _ b t h => ⟨int_nonempty _ _ _ h, C10_int_roundtrip cfg .u16 x b _ h⟩) (by decide)
example (cfg : Cfg) : (limSeq 1 (Codec.int .u16)).Rejects cfg [1, 2, 0, 3]
    (.external (.lengthViolation (.tooLong 1 2))) :=
  C27_too_many (as := [258, 3]) (rest := [])
    (chunks_concat (b := [1, 2, 0, 3]) []
      (fun x _ b t h => ⟨int_nonempty _ _ _ h, C10_int_roundtrip cfg .u16 x b _ h⟩) (by decide)) (by decide)

/-! ### C42 -/

theorem nth_ofList (n : Nat) (xs : List α) : (Iter.ofList xs).nth n =
    if n < xs.length then (xs[n]?, Iter.ofList (xs.drop (n + 1))) else (none, Iter.ofList []) := by
  induction n generalizing xs with
  | zero =>
    cases xs with
    | nil =>
      simp only [Iter.nth, List.length_nil, Nat.lt_irrefl, if_false]
      refine Prod.ext rfl (funext fun i => ?_)
      simp [Iter.skip, Iter.ofList]
    | cons x xs =>
      simp only [Iter.nth, List.length_cons, Nat.succ_pos, if_true]
      refine Prod.ext rfl (funext fun i => ?_)
      simp [Iter.skip, Iter.ofList, Nat.add_comm 1 i]
  | succ n ih =>
    cases xs with
    | nil =>
      simp only [Iter.nth, List.length_nil, Nat.not_lt_zero, if_false]
      refine Prod.ext rfl (funext fun i => ?_)
      simp [Iter.skip, Iter.ofList]
    | cons x xs =>
      have hs : (Iter.ofList (x :: xs)).skip 1 = Iter.ofList xs := funext fun i => by
        simp [Iter.skip, Iter.ofList, Nat.add_comm 1 i]
      show Iter.nth n ((Iter.ofList (x :: xs)).skip 1) = _
      rw [hs, ih]
      simp

theorem takeCollect_nil (n : Nat) : (Iter.ofList ([] : List α)).takeCollect n = [] := by cases n <;> rfl

/-- C42, the part that holds: collecting or extending from more elements than fit panics, from none at all keeps
the contents.  Missing: the elements are kept when they fit, which `C42_collect_loses` and `C42_extend_loses` refute. -/
theorem C42_collect_partial (n : Nat) (xs ys : List α) (hx : xs.length ≤ n) :
    (n < ys.length → BoundedSeq.fromIter n (.ofList ys) = none) ∧
    (n < xs.length + ys.length → BoundedSeq.extend n xs (.ofList ys) = none) ∧
    BoundedSeq.fromIter n (.ofList ([] : List α)) = some [] ∧
    BoundedSeq.extend n xs (.ofList []) = some xs := by
  refine ⟨fun h => ?_, fun h => ?_, ?_, ?_⟩
  · simp only [BoundedSeq.fromIter, nth_ofList, if_pos h, List.getElem?_eq_getElem h]
  · have h' : n - xs.length < ys.length := by omega
    simp only [BoundedSeq.extend, if_neg (Nat.not_lt.mpr hx), nth_ofList, if_pos h', List.getElem?_eq_getElem h']
  · simp [BoundedSeq.fromIter, nth_ofList, takeCollect_nil]
  · simp [BoundedSeq.extend, Nat.not_lt.mpr hx, nth_ofList, takeCollect_nil]

theorem nth_some {n : Nat} {it : Iter α} (h : ∀ i, i ≤ n → (it i).isSome) : ∃ a it', it.nth n = (some a, it') := by
  induction n generalizing it with
  | zero =>
    obtain ⟨a, ha⟩ := Option.isSome_iff_exists.1 (h 0 (Nat.le_refl 0))
    exact ⟨a, _, by rw [Iter.nth, ha]⟩
  | succ n ih =>
    obtain ⟨a, ha⟩ := Option.isSome_iff_exists.1 (h 0 (Nat.zero_le _))
    obtain ⟨b, it', e⟩ := ih (it := it.skip 1) fun i hi => h (1 + i) (by omega)
    exact ⟨b, it', by rw [Iter.nth, ha]; exact e⟩

theorem nth_none {n j : Nat} {it : Iter α} (hj : j ≤ n) (h : ∀ i, i < j → (it i).isSome) (h0 : it j = none) :
    it.nth n = (none, it.skip (j + 1)) := by
  induction j generalizing n it with
  | zero => cases n <;> simp only [Iter.nth, h0]
  | succ j ih =>
    cases n with
    | zero => omega
    | succ n =>
      obtain ⟨a, ha⟩ := Option.isSome_iff_exists.1 (h 0 (Nat.succ_pos j))
      have e := ih (n := n) (it := it.skip 1) (by omega) (fun i hi => h (1 + i) (by omega))
        (by show it (1 + j) = none; rw [Nat.add_comm]; exact h0)
      rw [Iter.nth, ha]
      refine e.trans (Prod.ext rfl (funext fun i => ?_))
      show it (1 + (j + 1 + i)) = it (j + 1 + 1 + i)
      congr 1
      omega

/-- What is taken from an iterator: its answers, up to the first `None` or as many as asked for. -/
theorem takeCollect_answers (n : Nat) (it : Iter α) : (it.takeCollect n).length ≤ n ∧
    (∀ i, i < (it.takeCollect n).length → (it.takeCollect n)[i]? = it i) ∧
    ((it.takeCollect n).length < n → it (it.takeCollect n).length = none) := by
  induction n generalizing it with
  | zero => exact ⟨Nat.le_refl 0, fun i h => absurd h (Nat.not_lt_zero i), fun h => absurd h (Nat.lt_irrefl 0)⟩
  | succ n ih =>
    cases h0 : it 0 with
    | none =>
      have e : it.takeCollect (n + 1) = [] := by rw [Iter.takeCollect, h0]
      rw [e]
      exact ⟨Nat.zero_le _, fun i h => absurd h (Nat.not_lt_zero i), fun _ => h0⟩
    | some a =>
      have e : it.takeCollect (n + 1) = a :: (it.skip 1).takeCollect n := by rw [Iter.takeCollect, h0]
      obtain ⟨h1, h2, h3⟩ := ih (it.skip 1)
      rw [e]
      refine ⟨Nat.succ_le_succ h1, fun i hi => ?_, fun hl => ?_⟩
      · cases i with
        | zero => exact h0.symm
        | succ i =>
          rw [List.getElem?_cons_succ, h2 i (Nat.lt_of_succ_lt_succ hi)]
          show it (1 + i) = _
          rw [Nat.add_comm]
      · have := h3 (Nat.lt_of_succ_lt_succ hl)
        rw [List.length_cons, Nat.add_comm]
        exact this

/-- C42, any iterator, also one that goes on after it has answered `None`.  If more answers come in a row than there is
room for, the calls panic.  Otherwise what came before the first `None` is lost, and what is kept are the answers behind
it, up to the next `None` or while there is room. -/
theorem C42_collect_any (n : Nat) (xs : List α) (hx : xs.length ≤ n) (it : Iter α) :
    ((∀ i, i ≤ n → (it i).isSome) → BoundedSeq.fromIter n it = none) ∧
    ((∀ i, i ≤ n - xs.length → (it i).isSome) → BoundedSeq.extend n xs it = none) ∧
    (∀ j, j ≤ n → (∀ i, i < j → (it i).isSome) → it j = none → ∃ ys, BoundedSeq.fromIter n it = some ys ∧
      ys.length ≤ n ∧ (∀ i, i < ys.length → ys[i]? = it (j + 1 + i)) ∧
      (ys.length < n → it (j + 1 + ys.length) = none)) ∧
    ∀ j, j ≤ n - xs.length → (∀ i, i < j → (it i).isSome) → it j = none → ∃ ys, BoundedSeq.extend n xs it = some (xs ++ ys) ∧
      xs.length + ys.length ≤ n ∧ (∀ i, i < ys.length → ys[i]? = it (j + 1 + i)) ∧
      (xs.length + ys.length < n → it (j + 1 + ys.length) = none) := by
  refine ⟨fun h => ?_, fun h => ?_, fun j hj h h0 => ?_, fun j hj h h0 => ?_⟩
  · obtain ⟨a, it', e⟩ := nth_some h
    simp only [BoundedSeq.fromIter, e]
  · obtain ⟨a, it', e⟩ := nth_some h
    simp only [BoundedSeq.extend, if_neg (Nat.not_lt.mpr hx), e]
  · obtain ⟨h1, h2, h3⟩ := takeCollect_answers n (it.skip (j + 1))
    exact ⟨_, by simp only [BoundedSeq.fromIter, nth_none hj h h0], h1, h2, h3⟩
  · obtain ⟨h1, h2, h3⟩ := takeCollect_answers (n - xs.length) (it.skip (j + 1))
    exact ⟨_, by simp only [BoundedSeq.extend, if_neg (Nat.not_lt.mpr hx), nth_none hj h h0], by omega, h2,
      fun hl => h3 (by omega)⟩

/-- An iterator that rests after one answer. -/
example : BoundedSeq.fromIter 2 (fun i => if i = 1 then none else some i) = some [2, 3] := rfl

/-- C42 fails: collecting elements that fit gives the empty sequence, always. -/
theorem C42_collect_loses (n : Nat) (ys : List α) (h : ys.length ≤ n) :
    BoundedSeq.fromIter n (.ofList ys) = some [] := by
  simp only [BoundedSeq.fromIter, nth_ofList, if_neg (Nat.not_lt.mpr h), takeCollect_nil]

/-- C42 fails: extending by elements that fit adds nothing, always. -/
theorem C42_extend_loses (n : Nat) (xs ys : List α) (h : xs.length + ys.length ≤ n) :
    BoundedSeq.extend n xs (.ofList ys) = some xs := by
  have hx : ¬ n < xs.length := by omega
  have hy : ¬ n - xs.length < ys.length := by omega
  simp only [BoundedSeq.extend, if_neg hx, nth_ofList, if_neg hy, takeCollect_nil, List.append_nil]

/-- C42 fails: the statement itself is refuted by collecting one element into a sequence of bound one. -/
theorem C42_collect_fails : ¬ ∀ (n : Nat) (ys : List Nat), ys.length ≤ n →
    BoundedSeq.fromIter n (.ofList ys) = some ys := fun h => by
  have h1 := h 1 [7] (by decide)
  rw [C42_collect_loses 1 [7] (by decide)] at h1
  cases h1

example : BoundedSeq.fromIter 3 (.ofList [1, 2, 3, 4]) = none := rfl
example : BoundedSeq.extend 3 [1] (.ofList [2, 3]) = some [1] := rfl

end Verif.Props
