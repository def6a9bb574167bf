import Verif.Lemmas.Work
import Verif.Props.Recursive
/-
C93: how much work it is to encode a value.
-/
namespace Verif.Props
open Codec

/-- What encoding a value costs if a push of `n` bytes costs `cost n`, over all targets that are written to; `none` if it panics. -/
noncomputable def effort (m : Costed α) (x : α) : Option Nat := (m.write vecTarget x ([], 0)).map fun r => r.2.2

/-! ### the counter -/

theorem effort_eq {m : Costed α} {c : Codec α} {k : α → Nat} (h : m.Counts c k) (x : α) :
    effort m x = (c.toBytes x).map fun _ => k x := by
  unfold effort Codec.toBytes Codec.writeToVec
  rw [h vecTarget x]
  cases c.write vecTarget x [] with
  | none => rfl
  | some r => simp

theorem effort_some {m : Costed α} {c : Codec α} {k : α → Nat} (h : m.Counts c k) {x : α} {e : Nat} (he : effort m x = some e) :
    (∃ b, c.toBytes x = some b) ∧ k x = e := by
  rw [effort_eq h, Option.map_eq_some_iff] at he
  obtain ⟨b, h1, h2⟩ := he
  exact ⟨⟨b, h1⟩, h2⟩

/-- C93: the counter does not change what is written: whatever the target and whatever has been written to it, `write_to` does
what it does without the counter, and adds to it what it adds when writing to a new vector. -/
theorem C93_counter (cost : Nat → Nat) (look : Nat) (cfg : Cfg) (s : Schema) (x : s.Val) :
    (effort (s.costed cost look cfg) x = none ↔ (s.codec cfg).toBytes x = none) ∧
    ∀ {τ : Type} (T : TargetOps τ) (t : τ) (n e : Nat), effort (s.costed cost look cfg) x = some e →
      (s.costed cost look cfg).write T x (t, n) = ((s.codec cfg).write T x t).map fun r => (r.1, (r.2, n + e)) := by
  refine ⟨by rw [effort_eq (s.counts cost look cfg)]; simp, fun T t n e he => ?_⟩
  rw [← (effort_some (s.counts cost look cfg) he).2]
  exact s.counts cost look cfg T x t n

/-- C93: the same for recursive types. -/
theorem C93_counter_recursive (cost : Nat → Nat) (look : Nat) (cfg : Cfg) (d : Decls) (i : Nat) (a : d.Val i) :
    (effort (d.costed cost look cfg i) a = none ↔ (d.codec cfg i).toBytes a = none) ∧
    ∀ {τ : Type} (T : TargetOps τ) (t : τ) (n e : Nat), effort (d.costed cost look cfg i) a = some e →
      (d.costed cost look cfg i).write T a (t, n) = ((d.codec cfg i).write T a t).map fun r => (r.1, (r.2, n + e)) := by
  refine ⟨by rw [effort_eq (d.counts cost look cfg i)]; simp, fun T t n e he => ?_⟩
  rw [← (effort_some (d.counts cost look cfg i) he).2]
  exact d.counts cost look cfg i T a t n

/-- C93: counting the calls of `unknown` does not change what lengths are estimated at. -/
theorem C93_gauge (cfg : Cfg) : (∀ (s : Schema) (x : s.Val), s.gauge.known = (s.codec cfg).known ∧
      (s.gauge.unknown x).1 = (s.codec cfg).unknown x ∧ (s.gauge.estimate x).1 = (s.codec cfg).estimate x) ∧
    ∀ (d : Decls) (i : Nat) (a : d.Val i), (d.gauge i).known = (d.codec cfg i).known ∧
      ((d.gauge i).unknown a).1 = (d.codec cfg i).unknown a ∧ ((d.gauge i).estimate a).1 = (d.codec cfg i).estimate a := by
  refine ⟨fun s x => ?_, fun d i a => ?_⟩
  · have h := s.gauge_eq cfg
    exact ⟨h.known.trans h.width.symm, by rw [h.unknown], by rw [h.estimate]⟩
  · have h := d.gauge_eq cfg i
    exact ⟨h.known.trans h.width.symm, by rw [h.unknown], by rw [h.estimate]⟩

/-! ### bounds -/

/-- C93: `write_to` of a `Dynamic` writes its contents twice: once to find their length, once to the target; with the feature
`enc_len_estimable_override` it estimates them instead of writing them the first time. -/
theorem C93_dynamic (cost : Nat → Nat) (look : Nat) (cfg : Cfg) (S : LenPref) (s : Schema) (x : s.Val) (e : Nat)
    (he : effort ((Schema.dynamic S s).costed cost look cfg) x = some e) :
    ∃ e', effort (s.costed cost look cfg) x = some e' ∧
      e = cost S.len + (if cfg.encLenOverride then look * (s.gauge.estimate x).2 else e') + e' := by
  obtain ⟨⟨b, hb⟩, hk⟩ := effort_some ((Schema.dynamic S s).counts cost look cfg) he
  obtain ⟨l, c, h1, h2, h3, rfl⟩ := Enc.dynamic_eq_some.mp ((Writes.toBytes ((Schema.dynamic S s).writes_out cfg) x).symm.trans hb)
  refine ⟨s.work cost (cfg.fee look) cfg.times x, ?_, ?_⟩
  · rw [effort_eq (s.counts cost look cfg), Writes.toBytes (Schema.writes_out cfg _), h3]
    rfl
  · rw [← hk, (s.gauge_eq cfg).estimate]
    show cost S.len + cfg.fee look * s.looks x + cfg.times * s.work cost (cfg.fee look) cfg.times x =
      cost S.len + (if cfg.encLenOverride then look * s.looks x else _) + _
    unfold Cfg.fee Cfg.times
    split <;> omega

/-- C93: for every type there is a constant, 2 to the power of how deep `Dynamic`s are nested in it, such that encoding pushes at most
that many times the bytes of the encoding; nothing is estimated. -/
theorem C93_linear (look : Nat) (cfg : Cfg) (ho : cfg.encLenOverride = false) (s : Schema) (x : s.Val) (b : Bytes)
    (hb : (s.codec cfg).toBytes x = some b) :
    ∃ e, effort (s.costed byBytes look cfg) x = some e ∧ b.length ≤ e ∧ e ≤ 2 ^ s.dynDepth * b.length := by
  refine ⟨s.work byBytes (cfg.fee look) cfg.times x, by rw [effort_eq (s.counts byBytes look cfg), hb]; rfl, ?_⟩
  rw [Writes.toBytes (s.writes_out cfg)] at hb
  have h1 := s.work_adds adds_once cfg x b hb
  have h2 := s.work_le byBytes x
  simp only [Cfg.times, Cfg.fee, ho]
  rw [h1] at h2
  exact h2

/-- C93: with the feature `enc_len_estimable_override` encoding pushes the bytes of the encoding; the calls of `unknown` it makes
are at most as many as one estimate of the value takes, times how deep `Dynamic`s are nested in the type, and at most half the square
of that number. -/
theorem C93_override (cfg : Cfg) (ho : cfg.encLenOverride = true) (s : Schema) (x : s.Val) (b : Bytes)
    (hb : (s.codec cfg).toBytes x = some b) :
    ∃ q, effort (s.costed free 1 cfg) x = some q ∧ q ≤ s.dynDepth * (s.gauge.estimate x).2 ∧ 2 * q ≤ (s.gauge.estimate x).2 ^ 2 ∧
      (∀ look, effort (s.costed byBytes look cfg) x = some (b.length + look * q)) ∧
      ∀ cost look e, effort (s.costed cost 0 cfg) x = some e → effort (s.costed cost look cfg) x = some (e + look * q) := by
  have hf : ∀ look, cfg.fee look = look := fun look => by simp [Cfg.fee, ho]
  have ht : cfg.times = 1 := by simp [Cfg.times, ho]
  have he : ∀ cost look, effort (s.costed cost look cfg) x = some (s.work cost look 1 x) := fun cost look => by
    rw [effort_eq (s.counts cost look cfg), hb, hf, ht]
    rfl
  refine ⟨s.work free 1 1 x, he free 1, ?_, ?_, fun look => ?_, fun cost look e h0 => ?_⟩
  · rw [(s.gauge_eq cfg).estimate]
    exact s.work_looks tallies_depth x
  · rw [(s.gauge_eq cfg).estimate, Nat.pow_two]
    exact s.work_looks tallies_square x
  · rw [Writes.toBytes (s.writes_out cfg)] at hb
    rw [he, s.work_split, s.work_adds adds_once cfg x b hb]
  · rw [he] at h0
    cases h0
    rw [he, s.work_split]

/-- C93: whatever a push costs, in calls or in bytes: finding lengths by writing costs at most that factor more than writing alone. -/
theorem C93_factor (cost : Nat → Nat) (look : Nat) (cfg cfg' : Cfg) (ho : cfg.encLenOverride = false) (ho' : cfg'.encLenOverride = true)
    (s : Schema) (x : s.Val) (e e' : Nat) (he : effort (s.costed cost look cfg) x = some e)
    (he' : effort (s.costed cost 0 cfg') x = some e') : e' ≤ e ∧ e ≤ 2 ^ s.dynDepth * e' := by
  obtain ⟨-, rfl⟩ := effort_some (s.counts cost look cfg) he
  obtain ⟨-, rfl⟩ := effort_some (s.counts cost 0 cfg') he'
  simp only [Cfg.times, Cfg.fee, ho, ho']
  exact s.work_le cost x

/-- C93: for recursive types there is no such constant: encoding pushes less than 2 to the power of as many bytes as the encoding has. -/
theorem C93_recursive (look : Nat) (cfg : Cfg) (ho : cfg.encLenOverride = false) (d : Decls) (i : Nat) (a : d.Val i) (b : Bytes)
    (hb : (d.codec cfg i).toBytes a = some b) :
    ∃ e, effort (d.costed byBytes look cfg i) a = some e ∧ b.length ≤ e ∧ e < 2 ^ b.length := by
  refine ⟨d.work byBytes (cfg.fee look) cfg.times a, by rw [effort_eq (d.counts byBytes look cfg i), hb]; rfl, ?_⟩
  induction a using Quot.ind with
  | mk p =>
    obtain ⟨n, x⟩ := p
    have hb' : ((d.unfold n i).codec cfg).toBytes x = some b := hb
    rw [Writes.toBytes (Schema.writes_out cfg _)] at hb'
    have h1 := (d.unfold n i).work_adds adds_once cfg x b hb'
    have h2 := (d.unfold n i).work_le byBytes x
    have h3 := (d.unfold n i).work_adds adds_twice cfg x b hb'
    show _ ≤ (d.unfold n i).work byBytes (cfg.fee look) cfg.times x ∧ (d.unfold n i).work byBytes (cfg.fee look) cfg.times x < _
    simp only [Cfg.times, Cfg.fee, ho]
    exact ⟨h1 ▸ h2.1, h3⟩

/-- C93: with the feature `enc_len_estimable_override` the number of calls of `unknown` is at most half the square of that one estimate of
the value takes, also for recursive types, and the bytes of the encoding are pushed once. -/
theorem C93_override_recursive (cfg : Cfg) (ho : cfg.encLenOverride = true) (d : Decls) (i : Nat) (a : d.Val i) (b : Bytes)
    (hb : (d.codec cfg i).toBytes a = some b) :
    ∃ q, effort (d.costed free 1 cfg i) a = some q ∧ 2 * q ≤ ((d.gauge i).estimate a).2 ^ 2 ∧
      ∀ look, effort (d.costed byBytes look cfg i) a = some (b.length + look * q) := by
  rw [(d.gauge_eq cfg i).estimate]
  induction a using Quot.ind with
  | mk p =>
    obtain ⟨n, x⟩ := p
    obtain ⟨q, h1, -, h2, h3, -⟩ := C93_override cfg ho (d.unfold n i) x b hb
    refine ⟨q, h1, ?_, h3⟩
    rw [((d.unfold n i).gauge_eq cfg).estimate] at h2
    exact Nat.le_trans h2 (Nat.pow_le_pow_left (unlessKnown_le _ _) 2)

/-! ### messages of which the encoding takes exponentially long -/

/-- Lists of lists of lists …, each under a length prefix of one byte. -/
def lists : Decls where
  body _ := .dynamic .u8 (.seq (.autobox (.hole 0)))
  unsized _ _ := rfl

/-- The empty list in `k` lists. -/
def deepList : (k : Nat) → (lists.unfold (k + 1) 0).Val
  | 0 => ([] : List Empty)
  | k + 1 => ([deepList k] : List (lists.unfold (k + 1) 0).Val)

theorem deepList_out (cfg : Cfg) (ho : cfg.encLenOverride = false) : ∀ k, k ≤ 255 →
    ∃ b, (lists.unfold (k + 1) 0).out cfg (deepList k) = some b ∧ b.length = k + 1
  | 0, _ => ⟨[0], Enc.dynamic_eq_some.mpr ⟨0, [], by simp only [Enc.lenOf, ho]; rfl, by decide, rfl, rfl⟩, rfl⟩
  | k + 1, hk => by
    obtain ⟨b, h1, h2⟩ := deepList_out cfg ho k (by omega)
    have hl : Enc.list ((lists.unfold (k + 1) 0).out cfg) [deepList k] = some (b ++ []) := cat_eq_some.mpr ⟨b, [], h1, rfl, rfl⟩
    refine ⟨_, Enc.dynamic_eq_some.mpr ⟨k + 1, b ++ [], ?_, hk, hl, rfl⟩, ?_⟩
    · simp only [Enc.lenOf, ho]
      exact (congrArg (Option.map List.length) hl).trans (by simp [h2])
    · rw [List.length_append, LenPref.toBe_len, List.length_append, h2, List.length_nil]
      show 1 + (k + 1 + 0) = k + 1 + 1
      omega

theorem deepList_work : ∀ k, (lists.unfold (k + 1) 0).work byBytes 0 2 (deepList k) + 1 = 2 ^ (k + 1)
  | 0 => rfl
  | k + 1 => by
    have h := deepList_work k
    have e : (lists.unfold (k + 2) 0).work byBytes 0 2 (deepList (k + 1)) =
      1 + 0 * _ + 2 * ((lists.unfold (k + 1) 0).work byBytes 0 2 (deepList k) + 0) := rfl
    rw [e, Nat.pow_succ, ← h]
    omega

/-- C93: that bound is reached: for every length up to 256 there is a value with an encoding of `n` bytes that takes pushing
`2 ^ n - 1` bytes to make. -/
theorem C93_sharp (look : Nat) (cfg : Cfg) (ho : cfg.encLenOverride = false) (n : Nat) (h0 : 0 < n) (h1 : n ≤ 256) :
    ∃ (a : lists.Val 0) (b : Bytes), (lists.codec cfg 0).toBytes a = some b ∧ b.length = n ∧
      effort (lists.costed byBytes look cfg 0) a = some (2 ^ n - 1) := by
  obtain ⟨k, rfl⟩ : ∃ k, n = k + 1 := ⟨n - 1, by omega⟩
  obtain ⟨b, h2, h3⟩ := deepList_out cfg ho k (by omega)
  have hb : (lists.codec cfg 0).toBytes (lists.val (k + 1) (deepList k)) = some b := by
    rw [rec_toBytes, Writes.toBytes (Schema.writes_out cfg _), h2]
  refine ⟨lists.val (k + 1) (deepList k), b, hb, h3, ?_⟩
  rw [effort_eq (lists.counts byBytes look cfg 0), hb]
  have h := deepList_work k
  have ht : cfg.times = 2 := by simp [Cfg.times, ho]
  have hf : cfg.fee look = 0 := by simp [Cfg.fee, ho]
  rw [ht, hf]
  exact congrArg some (show (lists.unfold (k + 1) 0).work byBytes 0 2 (deepList k) = _ by omega)

/-- The empty sequence in `k` sequences, as expression. -/
def deepExpr : (k : Nat) → (exprs.unfold (k + 1) 0).Val
  | 0 => .inr (.inr (.inl ([] : List Empty)))
  | k + 1 => .inr (.inr (.inl ([deepExpr k] : List (exprs.unfold (k + 1) 0).Val)))

theorem deepExpr_out (cfg : Cfg) (ho : cfg.encLenOverride = false) : ∀ k, 5 * k ≤ LenPref.u30.maxLen →
    ∃ b, (exprs.unfold (k + 1) 0).out cfg (deepExpr k) = some b ∧ b.length = 5 * (k + 1)
  | 0, _ => ⟨[2, 0, 0, 0, 0], cat_eq_some.mpr ⟨[2], [0, 0, 0, 0], rfl,
      Enc.dynamic_eq_some.mpr ⟨0, [], by simp only [Enc.lenOf, ho]; rfl, by decide, rfl, rfl⟩, rfl⟩, rfl⟩
  | k + 1, hk => by
    obtain ⟨b, h1, h2⟩ := deepExpr_out cfg ho k (by omega)
    have hl : Enc.list ((exprs.unfold (k + 1) 0).out cfg) [deepExpr k] = some (b ++ []) := cat_eq_some.mpr ⟨b, [], h1, rfl, rfl⟩
    refine ⟨_, cat_eq_some.mpr ⟨_, _, rfl, Enc.dynamic_eq_some.mpr ⟨5 * (k + 1), b ++ [], ?_, hk, hl, rfl⟩, rfl⟩, ?_⟩
    · simp only [Enc.lenOf, ho]
      exact (congrArg (Option.map List.length) hl).trans (by simp [h2])
    · simp only [List.length_append, LenPref.toBe_len, toBe_length, h2, List.length_nil, LenPref.len, TagWidth.len]
      omega

theorem deepExpr_work : ∀ k, (exprs.unfold (k + 1) 0).work byBytes 0 2 (deepExpr k) + 5 = 5 * 2 ^ (k + 1)
  | 0 => rfl
  | k + 1 => by
    have h := deepExpr_work k
    have e : (exprs.unfold (k + 2) 0).work byBytes 0 2 (deepExpr (k + 1)) =
      1 + (4 + 0 * _ + 2 * ((exprs.unfold (k + 1) 0).work byBytes 0 2 (deepExpr k) + 0)) := rfl
    rw [e, Nat.pow_succ]
    omega

/-- C93 fails to be linear for expressions as those of Micheline: a message of `5 * (k + 1)` bytes, which every parser decodes
with a number of calls linear in its length (C62), takes pushing `5 * (2 ^ (k + 1) - 1)` bytes to encode again, for every `k` the length
prefix allows. With 60 sequences in one another, 305 bytes, this is more than 10 ^ 19 bytes. -/
theorem C93_exponential (look : Nat) (cfg : Cfg) (ho : cfg.encLenOverride = false) (k : Nat) (hk : 5 * k ≤ LenPref.u30.maxLen) :
    ∃ (a : exprs.Val 0) (b : Bytes), b.length = 5 * (k + 1) ∧ (∀ rest, (exprs.codec cfg 0).Decodes cfg (b ++ rest) a rest) ∧
      (exprs.codec cfg 0).toBytes a = some b ∧ effort (exprs.costed byBytes look cfg 0) a = some (5 * (2 ^ (k + 1) - 1)) := by
  obtain ⟨b, h2, h3⟩ := deepExpr_out cfg ho k hk
  have hb : (exprs.codec cfg 0).toBytes (exprs.val (k + 1) (deepExpr k)) = some b := by
    rw [rec_toBytes, Writes.toBytes (Schema.writes_out cfg _), h2]
  have hv : ∀ k, (exprs.unfold (k + 1) 0).Valid (deepExpr k) := by
    intro k
    induction k with
    | zero => exact fun y hy => nomatch hy
    | succ k ih =>
      intro y hy
      cases hy with
      | head => exact ih
      | tail _ h => cases h
  have ht : (exprs.body 0).tagsOk := by simp [exprs, Schema.tagsOk, Variants.tagsOk, Variants.tags, TagWidth.len]
  refine ⟨exprs.val (k + 1) (deepExpr k), b, h3, fun rest => ?_, hb, ?_⟩
  · exact C52_round_trip_partial cfg exprs (fun _ => ⟨rfl, rfl⟩) (fun _ => ht) (tl := .any) rfl _ (.inl ⟨ho, ⟨k + 1, deepExpr k, rfl, hv k⟩⟩) b hb rest trivial
  · rw [effort_eq (exprs.counts byBytes look cfg 0), hb]
    have h := deepExpr_work k
    have ht : cfg.times = 2 := by simp [Cfg.times, ho]
    have hf : cfg.fee look = 0 := by simp [Cfg.fee, ho]
    rw [ht, hf]
    exact congrArg some (show (exprs.unfold (k + 1) 0).work byBytes 0 2 (deepExpr k) = _ by omega)

theorem deepExpr_estimate (cfg : Cfg) : ∀ k, ((exprs.unfold (k + 1) 0).codec cfg).estimate (deepExpr k) = 5 * (k + 1)
  | 0 => rfl
  | k + 1 => by
    have h := deepExpr_estimate cfg k
    have e : ((exprs.unfold (k + 2) 0).codec cfg).estimate (deepExpr (k + 1)) =
      1 + (4 + (((exprs.unfold (k + 1) 0).codec cfg).estimate (deepExpr k) + 0)) := rfl
    rw [e, h]
    omega

theorem deepExpr_override (cfg : Cfg) (ho : cfg.encLenOverride = true) : ∀ k, 5 * k ≤ LenPref.u30.maxLen →
    ∃ b, (exprs.unfold (k + 1) 0).out cfg (deepExpr k) = some b ∧ b.length = 5 * (k + 1)
  | 0, _ => ⟨[2, 0, 0, 0, 0], cat_eq_some.mpr ⟨[2], [0, 0, 0, 0], rfl,
      Enc.dynamic_eq_some.mpr ⟨0, [], by simp only [Enc.lenOf, ho]; rfl, by decide, rfl, rfl⟩, rfl⟩, rfl⟩
  | k + 1, hk => by
    obtain ⟨b, h1, h2⟩ := deepExpr_override cfg ho k (by omega)
    have hl : Enc.list ((exprs.unfold (k + 1) 0).out cfg) [deepExpr k] = some (b ++ []) := cat_eq_some.mpr ⟨b, [], h1, rfl, rfl⟩
    refine ⟨_, cat_eq_some.mpr ⟨_, _, rfl, Enc.dynamic_eq_some.mpr ⟨5 * (k + 1), b ++ [], ?_, hk, hl, rfl⟩, rfl⟩, ?_⟩
    · simp only [Enc.lenOf, ho]
      exact congrArg some (deepExpr_estimate cfg k)
    · simp only [List.length_append, LenPref.toBe_len, toBe_length, h2, List.length_nil, LenPref.len, TagWidth.len]
      omega

theorem deepExpr_calls : ∀ k, (exprs.unfold (k + 1) 0).calls (deepExpr k) = 4 * k + 3
  | 0 => rfl
  | k + 1 => by
    have h := deepExpr_calls k
    have e : (exprs.unfold (k + 2) 0).calls (deepExpr (k + 1)) = ((((exprs.unfold (k + 1) 0).calls (deepExpr k) + 1) + 0) + 1) + 1 + 1 := rfl
    rw [e, h]
    omega

theorem deepExpr_looks : ∀ k, (exprs.unfold (k + 1) 0).work free 1 1 (deepExpr k) = (k + 1) * (2 * k + 1)
  | 0 => rfl
  | k + 1 => by
    have h := deepExpr_looks k
    have h' := deepExpr_calls k
    have e : (exprs.unfold (k + 2) 0).work free 1 1 (deepExpr (k + 1)) =
      0 + (0 + 1 * ((((exprs.unfold (k + 1) 0).calls (deepExpr k) + 1) + 0) + 1) +
        1 * ((exprs.unfold (k + 1) 0).work free 1 1 (deepExpr k) + 0)) := rfl
    have e2 : (k + 1 + 1) * (2 * (k + 1) + 1) = (k + 1) * (2 * k + 1) + (4 * k + 5) := by
      rw [show 2 * (k + 1) + 1 = 2 * k + 1 + 2 by omega, Nat.add_mul (k + 1) 1, Nat.mul_add (k + 1)]
      omega
    rw [e, h, h', e2]
    omega

/-- C93: with the feature `enc_len_estimable_override`, the same messages take pushing just their bytes; but the number of calls of `unknown`
is quadratic in their length, while one estimate takes a linear number. -/
theorem C93_quadratic (cfg : Cfg) (ho : cfg.encLenOverride = true) (k : Nat) (hk : 5 * k ≤ LenPref.u30.maxLen) :
    ∃ (a : exprs.Val 0) (b : Bytes), b.length = 5 * (k + 1) ∧ (exprs.codec cfg 0).toBytes a = some b ∧
      (∀ look, effort (exprs.costed byBytes look cfg 0) a = some (b.length + look * ((k + 1) * (2 * k + 1)))) ∧
      ((exprs.gauge 0).estimate a).2 = 4 * k + 3 := by
  obtain ⟨b, h2, h3⟩ := deepExpr_override cfg ho k hk
  have hb : (exprs.codec cfg 0).toBytes (exprs.val (k + 1) (deepExpr k)) = some b := by
    rw [rec_toBytes, Writes.toBytes (Schema.writes_out cfg _), h2]
  refine ⟨exprs.val (k + 1) (deepExpr k), b, h3, hb, fun look => ?_, ?_⟩
  · obtain ⟨q, h4, -, h5⟩ := C93_override_recursive cfg ho exprs 0 _ b hb
    rw [effort_eq (exprs.counts free 1 cfg 0), hb] at h4
    have ht : cfg.times = 1 := by simp [Cfg.times, ho]
    have hf : cfg.fee 1 = 1 := by simp [Cfg.fee, ho]
    rw [ht, hf] at h4
    have h6 : (exprs.unfold (k + 1) 0).work free 1 1 (deepExpr k) = q := Option.some.inj h4
    rw [h5, ← h6, deepExpr_looks]
  · rw [(exprs.gauge_eq cfg 0).estimate]
    exact deepExpr_calls k

/-- The hypotheses are met: 60 sequences in one another are far below what the prefix allows. -/
example : 5 * 60 ≤ LenPref.u30.maxLen ∧ 10 ^ 19 < 5 * (2 ^ 61 - 1) := by decide

/-- Both configurations encode lists of numbers under a prefix, in one `Dynamic`: with three pushes and one estimate, or with five pushes. -/
example (p : Profile) (c d : Bool) : (∀ o, effort ((Schema.dynamic .u8 (.seq (.int .u8))).costed (fun _ => 1) 1 ⟨p, o, c, d⟩)
    ([5, 7] : List (BitVec 8)) = some (if o then 4 else 5)) ∧ (Schema.dynamic .u8 (.seq (.int .u8))).dynDepth = 1 := by
  refine ⟨fun o => ?_, rfl⟩
  refine (effort_eq ((Schema.dynamic .u8 (.seq (.int .u8))).counts (fun _ => 1) 1 ⟨p, o, c, d⟩) ([5, 7] : List (BitVec 8))).trans ?_
  have hb : ((Schema.dynamic .u8 (.seq (.int .u8))).codec ⟨p, o, c, d⟩).toBytes ([5, 7] : List (BitVec 8)) = some [2, 5, 7] :=
    (Writes.toBytes (Schema.writes_out _ _) _).trans (Enc.dynamic_eq_some.mpr ⟨2, [5, 7], by cases o <;> rfl, by decide, rfl, rfl⟩)
  rw [hb]
  cases o <;> rfl

end Verif.Props
