import Verif.Lemmas.Leaves
import Verif.Lemmas.Recursive
import Verif.Props.Memory
/-
C85: the parser after a failed decoding.
-/
namespace Verif.Props

open Codec

/-- C85: after a failed decoding the parser is in order: all scopes that were there when it began are as before, apart from
the innermost, from which only the front has been taken.  At most as many windows are open in addition as windows are nested
in the type, and they hold what follows in that scope.  (Missing: release builds with `VPadded` or arrays of more than `isize::MAX + 1`
bytes on `ByteParser` and `MemoParser`, see `C57_fails`, where bytes outside of the input are read.) -/
theorem C85_partial (cfg : Cfg) (s : Schema) (k : Backend) (ht : k = .slice ∨ s.tame cfg.prof = true) (v : Bytes)
    (vs : List Bytes) (st st' : k.State) (hs : k.Holds v vs st) (e : ParseError)
    (he : (s.codec cfg).parse (k.ops cfg.prof) st = .err e st') :
    ∃ gone v' us, v = gone ++ (v' ++ us.flatten) ∧ us.length ≤ s.nesting ∧ k.Holds v' (us ++ vs) st' := by
  have := s.leaves (k.stays cfg.prof) cfg ht v vs st hs
  rw [he] at this
  obtain ⟨v', us, ⟨gone, h1⟩, h2⟩ := this
  exact ⟨gone, v', us, h1.symm, h2⟩

/-- C85 for types without windows: no window is left open.  (Missing as above.) -/
theorem C85_windowless_partial (cfg : Cfg) (s : Schema) (k : Backend) (ht : k = .slice ∨ s.tame cfg.prof = true)
    (hw : s.nesting = 0) (v : Bytes) (vs : List Bytes) (st st' : k.State) (hs : k.Holds v vs st) (e : ParseError)
    (he : (s.codec cfg).parse (k.ops cfg.prof) st = .err e st') : ∃ gone v', v = gone ++ v' ∧ k.Holds v' vs st' := by
  obtain ⟨gone, v', us, h1, h2, h3⟩ := C85_partial cfg s k ht v vs st st' hs e he
  cases us with
  | nil => exact ⟨gone, v', by simpa using h1, h3⟩
  | cons => simp [hw] at h2

/-- What a caller does who gives up on a window: skip what is left and close it. -/
def giveUp {σ : Type} (P : ParserOps σ) : PM σ Unit := do
  let n ← P.remainder
  let _ ← P.skip n
  P.enforceTarget

/-- `n` times. -/
def giveUps {σ : Type} (P : ParserOps σ) : Nat → PM σ Unit
  | 0 => pure ()
  | n + 1 => do giveUp P; giveUps P n

theorem giveUp_run (k : Backend) (p : Profile) {v w : Bytes} {vs : List Bytes} {st : k.State} (h : k.Holds v (w :: vs) st) :
    ∃ st', giveUp (k.ops p) st = .ok () st' ∧ k.Holds w vs st' := by
  obtain ⟨s1, h1, r1⟩ := (k.lawful p).remainder h
  obtain ⟨s2, h2, r2⟩ := (k.lawful p).skip v.length r1
  rw [List.drop_length] at r2
  obtain ⟨s3, h3, r3⟩ := (k.lawful p).enforce_ok r2
  refine ⟨s3, ?_, r3⟩
  simp only [giveUp, M.bind_run, h1, Out.bind_ok, h2, h3]

theorem giveUps_run (k : Backend) (p : Profile) : ∀ (us : List Bytes) {v w : Bytes} {vs : List Bytes} {st : k.State},
    k.Holds v (us ++ w :: vs) st → ∃ st', giveUps (k.ops p) (us.length + 1) st = .ok () st' ∧ k.Holds w vs st'
  | [], v, w, vs, st, h => by
      obtain ⟨s1, h1, r1⟩ := giveUp_run k p h
      refine ⟨s1, ?_, r1⟩
      simp only [List.length_nil, giveUps, M.bind_run, h1, Out.bind_ok]
      rfl
  | u :: us, v, w, vs, st, h => by
      obtain ⟨s1, h1, r1⟩ := giveUp_run k p h
      obtain ⟨s2, h2, r2⟩ := giveUps_run k p us r1
      refine ⟨s2, ?_, r2⟩
      rw [List.length_cons, giveUps, M.bind_run, h1, Out.bind_ok]
      exact h2

/-- C85: who opens a window around a part, and finds that decoding it fails, can go on behind that window: what is readable
then does not depend on where and why decoding failed.  For types without windows one closing is needed, else up to as many
more as windows are nested in the type.  (Missing as above.) -/
theorem C85_go_on_partial (cfg : Cfg) (s : Schema) (k : Backend) (ht : k = .slice ∨ s.tame cfg.prof = true) (v w : Bytes)
    (vs : List Bytes) (st st' : k.State) (hs : k.Holds v (w :: vs) st) (e : ParseError)
    (he : (s.codec cfg).parse (k.ops cfg.prof) st = .err e st') :
    ∃ n, n ≤ s.nesting ∧ ∃ st'', giveUps (k.ops cfg.prof) (n + 1) st' = .ok () st'' ∧ k.Holds w vs st'' := by
  obtain ⟨gone, v', us, _, h2, h3⟩ := C85_partial cfg s k ht v _ st st' hs e he
  exact ⟨us.length, h2, giveUps_run k cfg.prof us h3⟩

/-- Try the types in turn on the same parser until one can be decoded, and say how many could not. -/
noncomputable def attempts (cfg : Cfg) {σ : Type} (P : ParserOps σ) : List Schema → Nat → PM σ (Option Nat)
  | [], _ => pure none
  | s :: ss, n => fun st => match (s.codec cfg).parse P st with
    | .ok _ st' => .ok (some n) st'
    | .err _ st' => attempts cfg P ss (n + 1) st'
    | .panic => .panic
    | .ub => .ub
    | .diverge => .diverge

/-- C85: any number of failures in a row does not matter for the parser: it never reads outside of the input, and what is
readable afterwards in all scopes together is an end of what was readable before.  (Missing as above.) -/
theorem C85_attempts_partial (cfg : Cfg) (k : Backend) : ∀ (ss : List Schema) (n : Nat),
    (k = .slice ∨ ∀ s ∈ ss, s.tame cfg.prof = true) → ∀ (v : Bytes) (vs : List Bytes) (st : k.State), k.Holds v vs st →
    match attempts cfg (k.ops cfg.prof) ss n st with
    | .ok _ st' => ∃ gone v' us, v = gone ++ (v' ++ us.flatten) ∧ k.Holds v' (us ++ vs) st'
    | .err _ _ => False
    | .ub => False
    | _ => True
  | [], n, _, v, vs, st, hs => ⟨[], v, [], by simp, hs⟩
  | s :: ss, n, ht, v, vs, st, hs => by
      have h := s.leaves (k.stays cfg.prof) cfg (ht.imp_right fun h => h s (.head _)) v vs st hs
      simp only [attempts]
      cases ho : (s.codec cfg).parse (k.ops cfg.prof) st with
      | ok a st' =>
        rw [ho] at h
        obtain ⟨v', ⟨g, h1⟩, h2⟩ := h
        exact ⟨g, v', [], by simp [h1], h2⟩
      | err e st' =>
        rw [ho] at h
        obtain ⟨v', us, ⟨g, h1⟩, _, h2⟩ := h
        have ih := C85_attempts_partial cfg k ss (n + 1) (ht.imp_right fun h t hm => h t (.tail _ hm)) v' (us ++ vs) st' h2
        show match attempts cfg (k.ops cfg.prof) ss (n + 1) st' with
          | .ok _ st' => ∃ gone v' us, v = gone ++ (v' ++ us.flatten) ∧ k.Holds v' (us ++ vs) st'
          | .err _ _ => False
          | .ub => False
          | _ => True
        revert ih
        cases attempts cfg (k.ops cfg.prof) ss (n + 1) st' with
        | ok r st2 =>
          rintro ⟨g2, v2, us2, h3, h4⟩
          refine ⟨g ++ g2, v2, us2 ++ us, ?_, by rwa [List.append_assoc]⟩
          rw [← h1, h3]
          simp [List.append_assoc]
        | _ => exact id
      | panic => trivial
      | ub => rw [ho] at h; exact h
      | diverge => trivial

/-- C85 for recursive types.  How many windows are nested is only known of the unfolding.  (Missing as above.) -/
theorem C85_recursive_partial (cfg : Cfg) (d : Decls) (i : Nat) (k : Backend)
    (ht : k = .slice ∨ ∀ j, (d.body j).tame cfg.prof = true) (v : Bytes) (vs : List Bytes) (st st' : k.State)
    (hs : k.Holds v vs st) (e : ParseError) (he : (d.codec cfg i).parse (k.ops cfg.prof) st = .err e st') :
    ∃ n gone v' us, v = gone ++ (v' ++ us.flatten) ∧ us.length ≤ (d.unfold n i).nesting ∧ k.Holds v' (us ++ vs) st' := by
  by_cases hex : ∃ n, ((d.unfold n i).codec cfg).parse (k.ops cfg.prof) st ≠ .diverge
  · obtain ⟨n, hn⟩ := hex
    rw [d.parse_eq hn, M.map_run] at he
    refine ⟨n, ?_⟩
    cases h : ((d.unfold n i).codec cfg).parse (k.ops cfg.prof) st with
    | err e' s' =>
      rw [h] at he
      cases he
      exact C85_partial cfg _ k (ht.imp_right fun ht => d.tame cfg.prof ht n i) v vs st _ hs e h
    | _ => rw [h] at he; cases he
  · rw [show (d.codec cfg i).parse (k.ops cfg.prof) st = .diverge from dif_neg hex] at he
    cases he

/-! ### what a caller cannot rely on -/

/-- What is left in the innermost window after the decoding has failed. -/
noncomputable def leftAfter (cfg : Cfg) (s : Schema) (k : Backend) (v : Bytes) : Option Nat :=
  match (s.codec cfg).parse (k.ops cfg.prof) (k.init v) with
  | .err _ st => match (k.ops cfg.prof).remainder st with
    | .ok n _ => some n
    | _ => none
  | _ => none

/-- A failed decoding is not undone: the byte of the first field is gone. -/
theorem C85_no_rollback (cfg : Cfg) (k : Backend) :
    leftAfter cfg (.record (.cons (.int .u8) (.cons (.int .u16) .nil))) k [1, 2] = some 1 := by
  obtain ⟨p, a, b, c⟩ := cfg
  cases k <;> cases p <;> rfl

/-- Nor are windows closed: after the invalid `bool` in a window of one byte nothing can be read, though there is one more
byte behind the window. -/
theorem C85_left_open (cfg : Cfg) (k : Backend) : leftAfter cfg (.dynamic .u8 .bool) k [1, 7, 5] = some 0 := by
  obtain ⟨p, a, b, c⟩ := cfg
  cases k <;> cases p <;> rfl

/-- Bytes left over at the end of a window can be read afterwards with `ByteParser` and `MemoParser`, and are skipped by
`SliceParser`. -/
theorem C85_left_over (cfg : Cfg) (k : Backend) :
    leftAfter cfg (.dynamic .u8 (.int .u8)) k [2, 1, 9, 5] = some (if k = .slice then 1 else 2) := by
  obtain ⟨p, a, b, c⟩ := cfg
  cases k <;> cases p <;> rfl

/-- The hypotheses are met: a window with an invalid `bool` in it, within a window of the caller's. -/
example (cfg : Cfg) (k : Backend) :
    let s : Schema := .record (.cons (.int .u8) (.cons (.dynamic .u8 .bool) .nil))
    s.tame cfg.prof = true ∧ s.nesting = 1 ∧
    ∃ st, k.Holds [4, 1, 7] [[5]] st ∧ ∃ e st', (s.codec cfg).parse (k.ops cfg.prof) st = .err e st' := by
  refine ⟨rfl, rfl, ?_⟩
  obtain ⟨st, h1, h2⟩ := (k.lawful cfg.prof).setFit_ok 3 (k.holds_init (v := [4, 1, 7, 5]) (by decide)) (by decide)
  refine ⟨st, h2, ?_⟩
  revert h1
  obtain ⟨p, a, b, c⟩ := cfg
  cases k <;> cases p <;> (intro h1; cases h1; exact ⟨_, _, rfl⟩)

/-- And several types in turn. -/
example (cfg : Cfg) (k : Backend) :
    ∃ st, attempts cfg (k.ops cfg.prof) [.int .u32, .bool, .int .u8] 0 (k.init [4, 1]) = .ok (some 2) st := by
  obtain ⟨p, a, b, c⟩ := cfg
  cases k <;> cases p <;> exact ⟨_, rfl⟩

end Verif.Props
