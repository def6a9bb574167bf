import Verif.Refine.Backend
/-
Loops over the elements of a sequence, at the level of parser states and for arbitrary element codecs.
-/
namespace Verif.Codec

variable {α : Type}

/-- From the readable bytes `v` the element codec decodes `as` one after the other, each while something is left
to read, and leaves `rest`. -/
inductive Chunks (c : Codec α) (cfg : Cfg) : Bytes → List α → Bytes → Prop where
  | nil (v : Bytes) : Chunks c cfg v [] v
  | cons {v r rest : Bytes} {a : α} {as : List α} (hv : v ≠ []) (h : c.Decodes cfg v a r) (t : Chunks c cfg r as rest) :
      Chunks c cfg v (a :: as) rest

variable {c : Codec α} {cfg : Cfg}

theorem loop_seq {v rest : Bytes} {as : List α} (h : Chunks c cfg v as rest) :
    ∀ (k : Backend) (vs : List Bytes) (s : k.State) (acc : List α), k.Holds v vs s →
      ∃ s', iterM (seqBody (k.ops cfg.prof) (c.parse (k.ops cfg.prof))) acc s =
        iterM (seqBody (k.ops cfg.prof) (c.parse (k.ops cfg.prof))) (acc ++ as) s' ∧ k.Holds rest vs s' := by
  induction h with
  | nil v => intro k vs s acc hs; exact ⟨s, by simp, hs⟩
  | @cons v r rest a as hv hd _ ih =>
    intro k vs s acc hs
    obtain ⟨s1, h1, r1⟩ := (k.lawful cfg.prof).remainder hs
    obtain ⟨s2, h2, r2⟩ := hd k vs s1 r1
    obtain ⟨s3, h3, r3⟩ := ih k vs s2 (acc ++ [a]) r2
    refine ⟨s3, ?_, r3⟩
    have hv' : v.length ≠ 0 := fun h0 => hv (List.eq_nil_of_length_eq_zero h0)
    rw [iterM_unfold]
    simp only [seqBody, M.bind_run, h1, Out.bind_ok, ne_eq, hv', not_false_eq_true, if_true, h2, M.pure_run]
    rw [List.append_assoc] at h3
    exact h3

theorem loop_fix {n : Nat} {v rest : Bytes} {as : List α} (h : Chunks c cfg v as rest) :
    ∀ (k : Backend) (vs : List Bytes) (s : k.State) (acc : List α), acc.length + as.length ≤ n → k.Holds v vs s →
      ∃ s', iterM (fixBody n (k.ops cfg.prof) (c.parse (k.ops cfg.prof))) acc s =
        iterM (fixBody n (k.ops cfg.prof) (c.parse (k.ops cfg.prof))) (acc ++ as) s' ∧ k.Holds rest vs s' := by
  induction h with
  | nil v => intro k vs s acc _ hs; exact ⟨s, by simp, hs⟩
  | @cons v r rest a as hv hd _ ih =>
    intro k vs s acc hn hs
    rw [List.length_cons] at hn
    obtain ⟨s1, h1, r1⟩ := (k.lawful cfg.prof).remainder hs
    obtain ⟨s2, h2, r2⟩ := hd k vs s1 r1
    obtain ⟨s3, h3, r3⟩ := ih k vs s2 (acc ++ [a]) (by simp; omega) r2
    refine ⟨s3, ?_, r3⟩
    have hv' : v.length ≠ 0 := fun h0 => hv (List.eq_nil_of_length_eq_zero h0)
    rw [iterM_unfold]
    simp only [fixBody, M.bind_run, h1, Out.bind_ok]
    rw [if_pos ⟨hv', by omega⟩]
    simp only [M.bind_run, h2, Out.bind_ok, tryPush]
    rw [if_pos (by omega)]
    simp only [M.pure_run, Out.bind_ok]
    rw [List.append_assoc] at h3
    exact h3

theorem loop_lim {n : Nat} {v rest : Bytes} {as : List α} (h : Chunks c cfg v as rest) :
    ∀ (k : Backend) (vs : List Bytes) (s : k.State) (acc : List α), acc.length + as.length ≤ n → k.Holds v vs s →
      ∃ s', iterM (limBody n (k.ops cfg.prof) (c.parse (k.ops cfg.prof))) acc s =
        iterM (limBody n (k.ops cfg.prof) (c.parse (k.ops cfg.prof))) (acc ++ as) s' ∧ k.Holds rest vs s' := by
  induction h with
  | nil v => intro k vs s acc _ hs; exact ⟨s, by simp, hs⟩
  | @cons v r rest a as hv hd _ ih =>
    intro k vs s acc hn hs
    rw [List.length_cons] at hn
    obtain ⟨s1, h1, r1⟩ := (k.lawful cfg.prof).remainder hs
    obtain ⟨s2, h2, r2⟩ := hd k vs s1 r1
    obtain ⟨s3, h3, r3⟩ := ih k vs s2 (acc ++ [a]) (by simp; omega) r2
    refine ⟨s3, ?_, r3⟩
    have hv' : v.length ≠ 0 := fun h0 => hv (List.eq_nil_of_length_eq_zero h0)
    rw [iterM_unfold]
    simp only [limBody, M.bind_run, h1, Out.bind_ok]
    rw [if_pos hv']
    simp only [M.bind_run, h2, Out.bind_ok, tryPush]
    rw [if_pos (by omega)]
    simp only [M.pure_run, Out.bind_ok]
    rw [List.append_assoc] at h3
    exact h3

/-! ### what happens next -/

theorem seq_end {k : Backend} {vs : List Bytes} {s : k.State} (acc : List α) (hs : k.Holds [] vs s) :
    ∃ s', iterM (seqBody (k.ops cfg.prof) (c.parse (k.ops cfg.prof))) acc s = .ok acc s' ∧ k.Holds [] vs s' := by
  obtain ⟨s1, h1, r1⟩ := (k.lawful cfg.prof).remainder hs
  refine ⟨s1, ?_, r1⟩
  rw [iterM_unfold]
  simp [seqBody, M.bind_run, h1]

theorem lim_end {n : Nat} {k : Backend} {vs : List Bytes} {s : k.State} (acc : List α) (hs : k.Holds [] vs s) :
    ∃ s', iterM (limBody n (k.ops cfg.prof) (c.parse (k.ops cfg.prof))) acc s = .ok acc s' ∧ k.Holds [] vs s' := by
  obtain ⟨s1, h1, r1⟩ := (k.lawful cfg.prof).remainder hs
  refine ⟨s1, ?_, r1⟩
  rw [iterM_unfold]
  simp [limBody, M.bind_run, h1]

theorem fix_end {n : Nat} {k : Backend} {v : Bytes} {vs : List Bytes} {s : k.State} (acc : List α)
    (hn : v = [] ∨ n ≤ acc.length) (hs : k.Holds v vs s) :
    ∃ s', iterM (fixBody n (k.ops cfg.prof) (c.parse (k.ops cfg.prof))) acc s = .ok acc s' ∧ k.Holds v vs s' := by
  obtain ⟨s1, h1, r1⟩ := (k.lawful cfg.prof).remainder hs
  refine ⟨s1, ?_, r1⟩
  rw [iterM_unfold]
  simp only [fixBody, M.bind_run, h1, Out.bind_ok]
  rw [if_neg]
  · simp
  · rintro ⟨h2, h3⟩
    rcases hn with rfl | hn
    · exact h2 rfl
    · omega

end Verif.Codec
