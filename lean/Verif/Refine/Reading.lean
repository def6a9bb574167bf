import Verif.Refine.Lawful
/-
The derived reading methods of `Parser`/`ParserExt` over any lawful parser.
-/
namespace Verif

variable {σ : Type} {P : ParserOps σ} {pan : Prop} {R : Bytes → List Bytes → σ → Prop}

theorem Lawful.consumeArr_ok (L : Lawful P pan R) {v : Bytes} {vs : List Bytes} {s : σ} (n : Nat) (h : R v vs s)
    (hn : n ≤ v.length) : ∃ s', P.consumeArr n s = .ok (v.take n) s' ∧ R (v.drop n) vs s' := by
  obtain ⟨s', hx, h'⟩ := L.consume_ok n h hn
  exact ⟨s', by simp [ParserOps.consumeArr, M.bind_run, hx, hn], h'⟩

theorem Lawful.consumeArr_err (L : Lawful P pan R) {v : Bytes} {vs : List Bytes} {s : σ} (n : Nat) (h : R v vs s)
    (hn : v.length < n) (hs : n ≤ isizeMax + 1) :
    ∃ e s', P.consumeArr n s = .err e s' ∧ e.kind = shortKind n v.length ∧ R v vs s' := by
  obtain ⟨e, s', hx, hk, h'⟩ := L.consume_err n h hn hs
  exact ⟨e, s', by simp [ParserOps.consumeArr, M.bind_run, hx], hk, h'⟩

theorem selfTerm_loop_none (L : Lawful P pan R) (f : Byte → Bool) :
    ∀ (v acc : Bytes) {vs : List Bytes} {s : σ}, R v vs s → (∀ b ∈ v, f b = false) →
      ∃ s', iterM (P.selfTermBody f) acc s = .err (.token (.nonTerminating (acc ++ v))) s' ∧ R [] vs s'
  | [], acc, vs, s, h, _ => by
    obtain ⟨e, s', he, _, h'⟩ := L.consumeByte_err h
    refine ⟨s', ?_, h'⟩
    rw [iterM_unfold]
    simp [ParserOps.selfTermBody, he]
  | b :: v, acc, vs, s, h, hf => by
    obtain ⟨s', he, h'⟩ := L.consumeByte_ok h
    obtain ⟨s'', hi, h''⟩ := selfTerm_loop_none L f v (acc ++ [b]) h' (fun x hx => hf x (List.mem_cons_of_mem _ hx))
    refine ⟨s'', ?_, h''⟩
    rw [iterM_unfold]
    simp only [ParserOps.selfTermBody, he, hf b List.mem_cons_self, Bool.false_eq_true, if_false, Out.bind_ok]
    rw [hi]
    simp

theorem selfTerm_loop_some (L : Lawful P pan R) (f : Byte → Bool) :
    ∀ (init acc : Bytes) {last : Byte} {rest : Bytes} {vs : List Bytes} {s : σ},
      R (init ++ last :: rest) vs s → (∀ b ∈ init, f b = false) → f last = true →
      ∃ s', iterM (P.selfTermBody f) acc s = .ok (acc ++ init ++ [last]) s' ∧ R rest vs s'
  | [], acc, last, rest, vs, s, h, _, hl => by
    obtain ⟨s', he, h'⟩ := L.consumeByte_ok h
    refine ⟨s', ?_, h'⟩
    rw [iterM_unfold]
    simp [ParserOps.selfTermBody, he, hl]
  | b :: init, acc, last, rest, vs, s, h, hf, hl => by
    obtain ⟨s', he, h'⟩ := L.consumeByte_ok h
    obtain ⟨s'', hi, h''⟩ := selfTerm_loop_some L f init (acc ++ [b]) h'
      (fun x hx => hf x (List.mem_cons_of_mem _ hx)) hl
    refine ⟨s'', ?_, h''⟩
    rw [iterM_unfold]
    simp only [ParserOps.selfTermBody, he, hf b List.mem_cons_self, Bool.false_eq_true, if_false, Out.bind_ok]
    rw [hi]
    simp

theorem selfTerm_none (L : Lawful P pan R) (f : Byte → Bool) {v : Bytes} {vs : List Bytes} {s : σ} (h : R v vs s)
    (hf : ∀ b ∈ v, f b = false) :
    ∃ s', P.takeSelfTerminating f s = .err (.token (.nonTerminating v)) s' ∧ R [] vs s' := by
  obtain ⟨s1, h1, hr1⟩ := L.remainder h
  obtain ⟨s2, h2, hr2⟩ := selfTerm_loop_none L f v [] hr1 hf
  exact ⟨s2, by rw [ParserOps.takeSelfTerminating, M.bind_run, h1, Out.bind_ok, if_neg (Nat.not_lt.mpr (L.small h))]; exact h2, hr2⟩

theorem selfTerm_some (L : Lawful P pan R) (f : Byte → Bool) {init : Bytes} {last : Byte} {rest : Bytes}
    {vs : List Bytes} {s : σ} (h : R (init ++ last :: rest) vs s) (hf : ∀ b ∈ init, f b = false)
    (hl : f last = true) :
    ∃ s', P.takeSelfTerminating f s = .ok (init ++ [last]) s' ∧ R rest vs s' := by
  obtain ⟨s1, h1, hr1⟩ := L.remainder h
  obtain ⟨s2, h2, hr2⟩ := selfTerm_loop_some L f init [] hr1 hf hl
  exact ⟨s2, by rw [ParserOps.takeSelfTerminating, M.bind_run, h1, Out.bind_ok, if_neg (Nat.not_lt.mpr (L.small h))]; exact h2, hr2⟩

/-- One table entry that does not have the wanted key is passed over. -/
theorem kv_skip (L : Lawful P pan R) {V : Type} (key : Bytes) (N : Nat) (f : Bytes → V) {k x rest : Bytes}
    {vs : List Bytes} {s : σ} (h : R (k ++ x ++ rest) vs s) (hk : k.length = key.length) (hx : x.length = N)
    (hne : k ≠ key) : ∃ s', P.fastKvSearch key N f s = P.fastKvSearch key N f s' ∧ R rest vs s' := by
  obtain ⟨s1, h1, hr1⟩ := L.remainder h
  obtain ⟨s2, h2, hr2⟩ := L.consumeArr_ok key.length hr1 (by simp; omega)
  rw [List.append_assoc, ← hk, List.drop_left] at hr2
  rw [List.append_assoc, ← hk, List.take_left] at h2
  obtain ⟨s3, h3, hr3⟩ := L.skipExactly_ok N hr2 (by simp; omega)
  rw [← hx, List.drop_left] at hr3
  have hpos : (k ++ x ++ rest).length > 0 := by
    have : k.length ≠ 0 := by
      intro h0
      apply hne
      rw [List.eq_nil_of_length_eq_zero h0, List.eq_nil_of_length_eq_zero (by omega : key.length = 0)]
    simp; omega
  refine ⟨s3, ?_, hr3⟩
  have hb : P.kvBody key N f () s = .ok (.inl ()) s3 := by
    simp only [ParserOps.kvBody, M.bind_run, h1, Out.bind_ok, if_pos hpos, ← hk, h2]
    rw [if_neg (fun h => hne h.symm)]
    simp [M.bind_run, h3]
  rw [ParserOps.fastKvSearch, iterM_unfold, hb, Out.bind_ok]

theorem kv_skips (L : Lawful P pan R) {V : Type} (key : Bytes) (N : Nat) (f : Bytes → V) :
    ∀ (tbl : List (Bytes × Bytes)) {rest : Bytes} {vs : List Bytes} {s : σ},
      R ((tbl.map fun e => e.1 ++ e.2).flatten ++ rest) vs s →
      (∀ e ∈ tbl, e.1.length = key.length ∧ e.2.length = N ∧ e.1 ≠ key) →
      ∃ s', P.fastKvSearch key N f s = P.fastKvSearch key N f s' ∧ R rest vs s'
  | [], _, _, s, h, _ => ⟨s, rfl, h⟩
  | e :: tbl, rest, vs, s, h, ht => by
    obtain ⟨hk, hx, hne⟩ := ht e List.mem_cons_self
    have h' : R (e.1 ++ e.2 ++ ((tbl.map fun e => e.1 ++ e.2).flatten ++ rest)) vs s := by
      simpa using h
    obtain ⟨s1, h1, hr1⟩ := kv_skip L key N f h' hk hx hne
    obtain ⟨s2, h2, hr2⟩ := kv_skips L key N f tbl hr1 (fun x hx => ht x (List.mem_cons_of_mem _ hx))
    exact ⟨s2, h1.trans h2, hr2⟩

theorem kv_empty (L : Lawful P pan R) {V : Type} (key : Bytes) (N : Nat) (f : Bytes → V) {vs : List Bytes} {s : σ}
    (h : R [] vs s) : ∃ s', P.fastKvSearch key N f s = .ok none s' ∧ R [] vs s' := by
  obtain ⟨s1, h1, hr1⟩ := L.remainder h
  refine ⟨s1, ?_, hr1⟩
  rw [ParserOps.fastKvSearch, iterM_unfold]
  simp [ParserOps.kvBody, M.bind_run, h1]

theorem kv_hit (L : Lawful P pan R) {V : Type} (key : Bytes) (N : Nat) (f : Bytes → V) {x rest : Bytes}
    {vs : List Bytes} {s : σ} (h : R (key ++ x ++ rest) vs s) (hx : x.length = N) (hne : key ++ x ++ rest ≠ []) :
    ∃ s', P.fastKvSearch key N f s = .ok (some (f x)) s' ∧ R rest vs s' := by
  obtain ⟨s1, h1, hr1⟩ := L.remainder h
  obtain ⟨s2, h2, hr2⟩ := L.consumeArr_ok key.length hr1 (by simp)
  rw [List.append_assoc, List.drop_left] at hr2
  rw [List.append_assoc, List.take_left] at h2
  obtain ⟨s3, h3, hr3⟩ := L.consumeArr_ok N hr2 (by simp; omega)
  rw [← hx, List.drop_left] at hr3
  rw [← hx, List.take_left] at h3
  have hpos : (key ++ x ++ rest).length > 0 := List.length_pos_iff.mpr hne
  refine ⟨s3, ?_, hr3⟩
  have hb : P.kvBody key N f () s = .ok (.inr (some (f x))) s3 := by
    simp only [ParserOps.kvBody, M.bind_run, h1, Out.bind_ok, if_pos hpos, h2, if_true]
    simp [← hx, h3]
  rw [ParserOps.fastKvSearch, iterM_unfold, hb, Out.bind_ok]

theorem kv_shortKey (L : Lawful P pan R) {V : Type} (key : Bytes) (N : Nat) (f : Bytes → V) {v : Bytes}
    {vs : List Bytes} {s : σ} (h : R v vs s) (hne : v ≠ []) (hl : v.length < key.length)
    (hs : key.length ≤ isizeMax + 1) :
    ∃ e s', P.fastKvSearch key N f s = .err e s' ∧ e.kind = shortKind key.length v.length ∧ R v vs s' := by
  obtain ⟨s1, h1, hr1⟩ := L.remainder h
  obtain ⟨e, s2, h2, hk, hr2⟩ := L.consumeArr_err key.length hr1 hl hs
  have hpos : v.length > 0 := List.length_pos_iff.mpr hne
  refine ⟨e, s2, ?_, hk, hr2⟩
  rw [ParserOps.fastKvSearch, iterM_unfold]
  simp only [ParserOps.kvBody, M.bind_run, h1, Out.bind_ok, if_pos hpos, h2]
  rfl

theorem kv_shortVal (L : Lawful P pan R) {V : Type} (key : Bytes) (N : Nat) (f : Bytes → V) {k x : Bytes}
    {vs : List Bytes} {s : σ} (h : R (k ++ x) vs s) (hne : k ++ x ≠ []) (hk : k.length = key.length)
    (hl : x.length < N) (hs : N ≤ isizeMax + 1) :
    ∃ e s', P.fastKvSearch key N f s = .err e s' ∧ e.kind = shortKind N x.length ∧ R x vs s' := by
  obtain ⟨s1, h1, hr1⟩ := L.remainder h
  obtain ⟨s2, h2, hr2⟩ := L.consumeArr_ok key.length hr1 (by simp; omega)
  rw [← hk, List.drop_left] at hr2
  rw [← hk, List.take_left] at h2
  have hpos : (k ++ x).length > 0 := List.length_pos_iff.mpr hne
  by_cases he : key = k
  · obtain ⟨e, s3, h3, hkd, hr3⟩ := L.consumeArr_err N hr2 hl hs
    refine ⟨e, s3, ?_, hkd, hr3⟩
    rw [ParserOps.fastKvSearch, iterM_unfold]
    simp only [ParserOps.kvBody, M.bind_run, h1, Out.bind_ok, if_pos hpos, ← hk, h2, if_pos he, h3, Out.bind_err]
  · obtain ⟨e, s3, h3, hkd, hr3⟩ := L.skipExactly_err N hr2 hl hs
    refine ⟨e, s3, ?_, hkd, hr3⟩
    rw [ParserOps.fastKvSearch, iterM_unfold]
    simp only [ParserOps.kvBody, M.bind_run, h1, Out.bind_ok, if_pos hpos, ← hk, h2, if_neg he, h3, Out.bind_err]

end Verif
