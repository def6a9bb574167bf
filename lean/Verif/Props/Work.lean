import Verif.Lemmas.Cost
import Verif.Refine.Backend
import Verif.Props.Recursive
/-
C62: how many parser calls decoding makes.
-/
namespace Verif.Props

open Codec

/-- C62: counting the calls changes nothing else: with the count left out, the outcome on the metered parser is that on
the parser itself. -/
theorem C62_metered (cfg : Cfg) (s : Schema) (k : Backend) (st : k.State) (n : Nat) :
    ((s.codec cfg).parse (k.ops cfg.prof).metered (st, n)).unmetered = (s.codec cfg).parse (k.ops cfg.prof) st :=
  Erases.schema _ cfg s st n

theorem C62_metered_recursive (cfg : Cfg) (d : Decls) (i : Nat) (k : Backend) (st : k.State) (n : Nat) :
    ((d.codec cfg i).parse (k.ops cfg.prof).metered (st, n)).unmetered = (d.codec cfg i).parse (k.ops cfg.prof) st :=
  Erases.decls _ d cfg i st n

/-- The calls `n` that a run starting with `v` unread has made are at most `A` and `B` for each byte that it has read, or
for each byte that it could have read if it failed. -/
def CallsAtMost (A B : Nat) {σ α : Type} (Holds : Bytes → σ → Prop) (v : Bytes) : Out (σ × Nat) ParseError α → Prop
  | .ok _ (st', n) => ∃ v', Holds v' st' ∧ v'.length ≤ v.length ∧ n ≤ A + B * (v.length - v'.length)
  | .err _ (_, n) => n ≤ A + B * v.length
  | _ => True

/-- Decoding makes at most linearly many calls, on every parser and for every input. -/
def CallsLinear {α : Type} (c : Codec α) (cfg : Cfg) (A B : Nat) : Prop :=
  ∀ (k : Backend) (v : Bytes) (vs : List Bytes) (st : k.State), k.Holds v vs st →
    CallsAtMost A B (fun v' st' => k.Holds v' vs st') v (c.parse (k.ops cfg.prof).metered (st, 0))

theorem calls_of_within {σ α : Type} {R : Bytes → List Bytes → σ → Prop} {A E B : Nat} {v : Bytes} {vs : List Bytes}
    {o : Out (σ × Nat) ParseError α} (h : Within A A E B R v vs 0 o) : CallsAtMost A B (fun v' st' => R v' vs st') v o := by
  cases o with
  | ok a st =>
    obtain ⟨v', h1, h2⟩ := h
    refine ⟨v', h1, ?_⟩
    rcases h2 with ⟨l, c⟩ | ⟨l, c⟩
    · exact ⟨by omega, by omega⟩
    · refine ⟨by omega, ?_⟩
      have : B * (v.length - v'.length) + B * v'.length = B * v.length := by
        rw [← Nat.mul_add]; congr 1; omega
      omega
  | err e st =>
    show st.2 ≤ _
    rcases h with h | ⟨_, h⟩ <;> omega
  | _ => trivial

theorem CallsAtMost.map {A B : Nat} {σ α β : Type} {Holds : Bytes → σ → Prop} {v : Bytes} {f : α → β} :
    ∀ {o : Out (σ × Nat) ParseError α}, CallsAtMost A B Holds v o → CallsAtMost A B Holds v (o.bind fun a s => .ok (f a) s)
  | .ok .., h | .err .., h => h
  | .panic .., _ | .ub, _ | .diverge, _ => trivial

/-- C62: for every type there are constants such that, in every build, on every parser and for every input, decoding
makes at most linearly many parser calls. -/
theorem C62_linear (s : Schema) (h : s.sized = true) : ∃ A B, ∀ cfg : Cfg, CallsLinear (s.codec cfg) cfg A B :=
  ⟨s.post .hole 0, 2 * s.post .hole 0 + 3, fun cfg k v vs st hs => by
    obtain ⟨Z, hw⟩ := k.wraps cfg.prof
    obtain ⟨I, hk⟩ := k.sturdy cfg.prof
    exact calls_of_within (s.cost hk hw cfg h rfl v vs st 0 hs)⟩

/-- C62 for recursive types (finitely many of them) in which recursion happens only after something has been read. -/
theorem C62_linear_recursive (d : Decls) (hst : d.Stable) (hg : d.Paced) (l : List Schema) (hl : ∀ i, d.body i ∈ l) :
    ∃ A B, ∀ (cfg : Cfg) (i : Nat), CallsLinear (d.codec cfg i) cfg A B := by
  obtain ⟨H, hH⟩ := bounded_of_mem (fun s => s.pre d.body) l
  obtain ⟨E, hE⟩ := bounded_of_mem (fun s => s.post d.body H + 1) l
  refine ⟨H, 2 * E + 1, fun cfg i k v vs st hs => ?_⟩
  by_cases hex : ∃ n, ((d.unfold n i).codec cfg).parse (k.ops cfg.prof).metered (st, 0) ≠ .diverge
  · obtain ⟨n, hn⟩ := hex
    obtain ⟨Z, hw⟩ := k.wraps cfg.prof
    obtain ⟨I, hk⟩ := k.sturdy cfg.prof
    have h := d.cost hk hw cfg hst hg (fun i => hH _ (hl i)) (fun i => hE _ (hl i)) (Nat.le_refl _) n i v vs st 0 hs
    rw [d.parse_eq hn, M.map_run]
    exact (calls_of_within h).map
  · have e : (d.codec cfg i).parse (k.ops cfg.prof).metered (st, 0) = .diverge := dif_neg hex
    rw [e]; trivial

theorem seq_calls {α : Type} (p : Profile) (k : Backend) (elem : PM (k.State × Nat) α)
    (he : ∀ b v vs st n, k.Holds (b :: v) vs st → ∃ a st', elem (st, n) = .ok a (st', n + 1) ∧ k.Holds v vs st') :
    ∀ (v : Bytes) (vs : List Bytes) (st : k.State) (acc : List α) (n : Nat), k.Holds v vs st →
      ∃ xs st', iterM (seqBody (k.ops p).metered elem) acc (st, n) = .ok xs (st', n + (2 * v.length + 1))
  | [], vs, st, acc, n, h => by
    obtain ⟨s', h1, _⟩ := (k.lawful p).remainder h
    have e : (k.ops p).metered.remainder (st, n) = .ok 0 (s', n + 1) := M.metered_ok n h1
    exact ⟨acc, s', by rw [iterM_unfold]; simp [seqBody, e]⟩
  | b :: v, vs, st, acc, n, h => by
    obtain ⟨s1, h1, h2⟩ := (k.lawful p).remainder h
    have e1 : (k.ops p).metered.remainder (st, n) = .ok (v.length + 1) (s1, n + 1) := M.metered_ok n h1
    obtain ⟨x, s2, h3, h4⟩ := he b v vs s1 (n + 1) h2
    obtain ⟨xs, st', h5⟩ := seq_calls p k elem he v vs s2 (acc ++ [x]) (n + 1 + 1) h4
    refine ⟨xs, st', ?_⟩
    rw [iterM_unfold]
    simp only [seqBody, M.bind_run, e1, Out.bind_ok, ne_eq, Nat.succ_ne_zero, not_false_eq_true, if_true, h3, M.pure_run, h5,
      List.length_cons]
    congr 2
    omega

/-- C62: the number of calls does grow with the input: decoding `Sequence<u8>` from `n` bytes takes `2 n + 1` calls. -/
theorem C62_grows (cfg : Cfg) (k : Backend) (v : Bytes) (vs : List Bytes) (st : k.State) (h : k.Holds v vs st) :
    (((Schema.seq (.int .u8)).codec cfg).parse (k.ops cfg.prof).metered (st, 0)).calls = some (2 * v.length + 1) := by
  obtain ⟨xs, st', h1⟩ := seq_calls cfg.prof k (((Schema.int .u8).codec cfg).parse (k.ops cfg.prof).metered) (by
    intro b v vs st n h
    obtain ⟨s', h1, h2⟩ := (k.lawful cfg.prof).consume_ok 1 h (by simp)
    have e : (k.ops cfg.prof).metered.consume 1 (st, n) = .ok [b] (s', n + 1) := M.metered_ok n h1
    refine ⟨BitVec.ofNat _ (ofBe [b]), s', ?_, h2⟩
    show ((fun bs => BitVec.ofNat _ (ofBe bs)) <$> (k.ops cfg.prof).metered.takeFixed 1 : PM _ (BitVec 8)) (st, n) = _
    simp only [M.map_run, ParserOps.takeFixed, ParserOps.consumeArr, M.bind_run, e, Out.bind_ok, List.length_singleton, if_true,
      M.pure_run]
    rfl) v vs st [] 0 h
  have h2 : ((Schema.seq (.int .u8)).codec cfg).parse (k.ops cfg.prof).metered (st, 0) = _ := h1
  rw [h2]
  simp [Out.calls]

theorem fix_calls {α : Type} (p : Profile) (k : Backend) (elem : PM (k.State × Nat) α) (N : Nat) (v : Bytes) (vs : List Bytes)
    (hv : v ≠ []) (he : ∀ s, ∃ a, elem s = .ok a s) : ∀ (m : Nat) (st : k.State) (acc : List α) (n : Nat), k.Holds v vs st →
    acc.length + m = N → ∃ xs st', iterM (fixBody N (k.ops p).metered elem) acc (st, n) = .ok xs (st', n + m + 1) ∧
      xs.length = N ∧ k.Holds v vs st'
  | 0, st, acc, n, h, hl => by
    obtain ⟨s', h1, h2⟩ := (k.lawful p).remainder h
    have e : (k.ops p).metered.remainder (st, n) = .ok v.length (s', n + 1) := M.metered_ok n h1
    refine ⟨acc, s', ?_, by omega, h2⟩
    have : ¬ acc.length < N := by omega
    rw [iterM_unfold]; simp [fixBody, e, this]
  | m + 1, st, acc, n, h, hl => by
    obtain ⟨s', h1, h2⟩ := (k.lawful p).remainder h
    have e : (k.ops p).metered.remainder (st, n) = .ok v.length (s', n + 1) := M.metered_ok n h1
    have hlt : acc.length < N := by omega
    obtain ⟨x, hx⟩ := he (s', n + 1)
    obtain ⟨xs, st', h5, h6⟩ := fix_calls p k elem N v vs hv he m s' (acc ++ [x]) (n + 1) h2 (by simp; omega)
    refine ⟨xs, st', ?_, h6⟩
    rw [iterM_unfold]
    simp only [fixBody, M.bind_run, e, Out.bind_ok, ne_eq, List.length_eq_zero_iff, hv, hlt, not_false_eq_true, and_self, if_true,
      hx, tryPush, M.pure_run, h5]
    congr 2
    omega

theorem fixSeq_calls {α : Type} (p : Profile) (k : Backend) (c : Codec α) (N : Nat) (v : Bytes) (vs : List Bytes) (st : k.State)
    (h : k.Holds v vs st) (hv : v ≠ []) (he : ∀ s, ∃ a, c.parse (k.ops p).metered s = .ok a s) :
    ∃ xs st', (c.fixSeq N).parse (k.ops p).metered (st, 0) = .ok xs (st', N + 1) ∧ k.Holds v vs st' := by
  obtain ⟨xs, st', h1, h2, h3⟩ := fix_calls p k (c.parse (k.ops p).metered) N v vs hv he N st [] 0 h (by simp)
  exact ⟨xs, st', by simp [Codec.fixSeq, h1, h2], h3⟩

/-- C62: the constants do depend on the type: `FixSeq<(), N>` makes `N + 1` calls on every non-empty input, and reads
nothing. -/
theorem C62_constants (cfg : Cfg) (k : Backend) (N : Nat) (v : Bytes) (vs : List Bytes) (st : k.State) (h : k.Holds v vs st)
    (hv : v ≠ []) : ∃ xs st', ((Schema.fixSeq N .unit).codec cfg).parse (k.ops cfg.prof).metered (st, 0) = .ok xs (st', N + 1) ∧
      k.Holds v vs st' :=
  fixSeq_calls cfg.prof k (Schema.unit.codec cfg) N v vs st h hv fun _ => ⟨(), rfl⟩

example : (Schema.record (.cons (.vpadded 4 (.option .string)) (.cons (.dynamic .u30 (.seq .zarithZ)) (.cons (.fixedBytes (2 ^ 31 + 1)) .nil)))).sized = true :=
  rfl

example : u8Seq.Stable ∧ u8Seq.Paced ∧ ∀ i, u8Seq.body i ∈ [u8Seq.body 0] :=
  ⟨fun _ => ⟨rfl, rfl⟩, fun _ => rfl, fun _ => List.mem_singleton.mpr rfl⟩

example : exprs.Stable ∧ exprs.Paced ∧ ∀ i, exprs.body i ∈ [exprs.body 0] :=
  ⟨fun _ => ⟨rfl, rfl⟩, fun _ => rfl, fun _ => List.mem_singleton.mpr rfl⟩

/-- A byte, then another such list or nothing and two bytes of padding. -/
def padList : Decls where
  body _ := .record (.cons (.int .u8) (.cons (.dynamic .u30 (.padded 2 (.vpadded 2 (.nullable (.autobox (.hole 0)))))) .nil))
  unsized _ _ := rfl

example : padList.Stable ∧ padList.Paced ∧ ¬ padList.Guarded ∧ (padList.body 0).tail = some .any ∧ ∀ i, padList.body i ∈ [padList.body 0] :=
  ⟨fun _ => ⟨rfl, rfl⟩, fun _ => rfl, fun h => absurd (h 0) (by decide), rfl, fun _ => List.mem_singleton.mpr rfl⟩

end Verif.Props
