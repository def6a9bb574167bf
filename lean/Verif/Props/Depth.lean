import Verif.Props.Recursive
/-
C59: how deep decoding a recursive type recurses.  The code of `d.unfold n i` is that of the `i`-th type with calls
nested at most `n` deep; a further call does not return (`hole`).
-/
namespace Verif.Props

open Codec

variable (cfg : Cfg) (d : Decls) {i : Nat}

/-- Of the given nesting depth or less. -/
def DepthLE (n : Nat) (a : d.Val i) : Prop := ∃ x, a = d.val n x

/-- Decoding from this state takes no more than `n` nested calls of the code of recursive types. -/
def CallsLE (n i : Nat) (k : Backend) (st : k.State) : Prop :=
  ((d.unfold n i).codec cfg).parse (k.ops cfg.prof) st ≠ .diverge

/-- What `CallsLE` says of the recursive code. -/
theorem C59_calls (n : Nat) (k : Backend) (st : k.State) (h : CallsLE cfg d n i k st) :
    (d.codec cfg i).parse (k.ops cfg.prof) st = (d.val n <$> ((d.unfold n i).codec cfg).parse (k.ops cfg.prof)) st ∧
    ∀ a st', (d.codec cfg i).parse (k.ops cfg.prof) st = .ok a st' → DepthLE d n a := by
  have he := d.parse_eq h
  refine ⟨he, fun a st' ha => ?_⟩
  rw [he, M.map_run] at ha
  cases hp : ((d.unfold n i).codec cfg).parse (k.ops cfg.prof) st with
  | ok x s => rw [hp] at ha; cases ha; exact ⟨x, rfl⟩
  | err e s => rw [hp] at ha; cases ha
  | panic => rw [hp] at ha; cases ha
  | ub => rw [hp] at ha; cases ha
  | diverge => exact absurd hp h

/-- C59: if recursion happens only after something has been read, decoding nests calls at most one deeper than there
are bytes to read, whether it succeeds or fails. -/
theorem C59_bound (hst : d.Stable) (hg : d.Guarded) (k : Backend) (v : Bytes) (vs : List Bytes) (st : k.State)
    (hs : k.Holds v vs st) : CallsLE cfg d (v.length + 1) i k st := by
  have h := (d.unfold (v.length + 1) i).parses cfg (k.lawful cfg.prof) v vs st hs
  unfold CallsLE
  rcases d.totalBelow cfg hst hg (v.length + 1) i v (Nat.lt_succ_self _) with ⟨x, rest, hd⟩ | ⟨e, hd⟩
  · rw [hd] at h
    obtain ⟨s', h1, _⟩ := h
    rw [h1]; nofun
  · rw [hd] at h
    rcases h with ⟨e', s', h1, _⟩ | ⟨_, h1⟩ <;> rw [h1] <;> nofun

/-- C59: hence decoded values are no deeper either. -/
theorem C59_value (hst : d.Stable) (hg : d.Guarded) (k : Backend) (v : Bytes) (vs : List Bytes) (st st' : k.State)
    (hs : k.Holds v vs st) (a : d.Val i) (he : (d.codec cfg i).parse (k.ops cfg.prof) st = .ok a st') :
    DepthLE d (v.length + 1) a :=
  (C59_calls cfg d _ k st (C59_bound cfg d hst hg k v vs st hs)).2 a st' he

/-- `n` times the beginning of a `U8Seq` with a successor. -/
def nested : Nat → Bytes
  | 0 => []
  | n + 1 => 0 :: 0xff :: nested n

theorem nested_length (n : Nat) (t : Bytes) : (nested n ++ t).length = 2 * n + t.length := by
  induction n with
  | zero => simp [nested]
  | succ n ih => simp only [nested, List.cons_append, List.length_cons, ih]; omega

theorem u8Seq_dec_more {α : Type} (r : D α) (v : Bytes) :
    Dec.fcons (Schema.dec cfg (.int .u8)) (Dec.fcons (Dec.option r) (Fields.dec cfg .nil)) (0 :: 0xff :: v) =
      ((fun x => ((0 : BitVec 8), (some x, ()))) <$> r) v := by
  have h1 : Dec.fcons (Schema.dec cfg (.int .u8)) (Dec.fcons (Dec.option r) (Fields.dec cfg .nil)) (0 :: 0xff :: v) =
    DecRes.bind (DecRes.bind (DecRes.bind (r v) fun x rest => .ok (some x) rest) fun a rest => .ok (a, ()) rest) fun b rest =>
      .ok ((0 : BitVec 8), b) rest := rfl
  rw [h1, D.map_run]
  cases r v <;> rfl

theorem nested_diverges (t : Bytes) : ∀ m n, m ≤ n → (u8Seq.unfold m 0).dec cfg (nested n ++ t) = .diverge
  | 0, _, _ => rfl
  | m + 1, 0, h => by omega
  | m + 1, n + 1, h => by
    refine (u8Seq_dec_more cfg ((u8Seq.unfold m 0).dec cfg) (nested n ++ t)).trans ?_
    rw [D.map_run, nested_diverges t m n (by omega)]
    rfl

theorem u8Seq_dec_ok {m : Nat} {v r : Bytes} {x : (u8Seq.unfold m 0).Val} (h : (u8Seq.unfold m 0).dec cfg v = .ok x r) :
    ∃ y, (u8Seq.unfold (m + 1) 0).dec cfg (0 :: 0xff :: v) = .ok y r := by
  refine ⟨((0 : BitVec 8), (some x, ())), (u8Seq_dec_more cfg ((u8Seq.unfold m 0).dec cfg) v).trans ?_⟩
  rw [D.map_run, h]
  rfl

theorem nested_decodes (n : Nat) : ∃ x, (u8Seq.unfold (n + 1) 0).dec cfg (nested n ++ [0, 0]) = .ok x [] := by
  induction n with
  | zero => exact ⟨((0 : BitVec 8), (none, ())), rfl⟩
  | succ n ih =>
    obtain ⟨x, h⟩ := ih
    exact u8Seq_dec_ok cfg h

theorem u8Seq_wire (n : Nat) : ∀ (x : (u8Seq.unfold n 0).Val) b, (u8Seq.unfold n 0).wire x = some b → b.length ≤ 2 * n := by
  induction n with
  | zero => exact fun x => nomatch x
  | succ n ih =>
    intro x b h
    have h : Enc.cat (Schema.wire (.int .u8) x.1) (Enc.cat (Enc.option ((u8Seq.unfold n 0).wire) x.2.1) (some [])) = some b := h
    obtain ⟨b1, b2, h1, h2, rfl⟩ := cat_eq_some.mp h
    obtain ⟨b3, b4, h3, h4, rfl⟩ := cat_eq_some.mp h2
    cases h4
    have e1 : b1.length = 1 := by
      cases h1; rfl
    cases ho : x.2.1 with
    | none =>
      rw [ho] at h3
      cases h3
      simp only [List.length_append, e1, List.length_cons, List.length_nil]; omega
    | some y =>
      rw [ho] at h3
      obtain ⟨b5, b6, h5, h6, rfl⟩ := cat_eq_some.mp h3
      cases h5
      have := ih y b6 h6
      simp only [List.length_append, e1, List.length_cons, List.length_nil]; omega

theorem nested_calls (n : Nat) (t : Bytes) (k : Backend) (vs : List Bytes) (st : k.State) (hs : k.Holds (nested n ++ t) vs st) :
    ∀ m ≤ n, ¬ CallsLE cfg u8Seq m 0 k st := by
  intro m hm h
  have hp := (u8Seq.unfold m 0).parses cfg (k.lawful cfg.prof) _ vs st hs
  rw [nested_diverges cfg t m n hm] at hp
  exact h hp

/-- C59: nothing else limits the depth: `2 * n` bytes can make decoding nest more than `n` calls, on every parser,
before it fails. -/
theorem C59_no_limit (n : Nat) : ∃ v : Bytes, v.length = 2 * n ∧ ∀ (k : Backend) (vs : List Bytes) (st : k.State),
    k.Holds v vs st → ∀ m ≤ n, ¬ CallsLE cfg u8Seq m 0 k st := by
  refine ⟨nested n, by simpa using nested_length n [], fun k vs st hs => ?_⟩
  rw [← List.append_nil (nested n)] at hs
  exact nested_calls cfg n [] k vs st hs

/-- C59: the same for inputs that are accepted; the value is as deep. -/
theorem C59_no_limit_value (n : Nat) : ∃ (v : Bytes) (a : u8Seq.Val 0), v.length = 2 * n + 2 ∧
    (u8Seq.codec cfg 0).Decodes cfg v a [] ∧ (∀ m ≤ n, ¬ DepthLE u8Seq m a) ∧
    ∀ (k : Backend) (vs : List Bytes) (st : k.State), k.Holds v vs st → ∀ m ≤ n, ¬ CallsLE cfg u8Seq m 0 k st := by
  obtain ⟨x, hx⟩ := nested_decodes cfg n
  refine ⟨nested n ++ [0, 0], u8Seq.val (n + 1) x, nested_length n _,
    rec_decodes cfg u8Seq (Parses.decodes ((u8Seq.unfold (n + 1) 0).parses cfg) hx), ?_, nested_calls cfg n _⟩
  rintro m hm ⟨y, hy⟩
  have hw : (u8Seq.unfold (n + 1) 0).wire x = some (nested n ++ [0, 0]) := by
    obtain ⟨b, h1, h2⟩ := (u8Seq.unfold (n + 1) 0).canonical_ cfg (u8Seq.canonical cfg (fun _ => rfl) (n + 1) 0) _ x [] hx
    rw [h1, h2, List.append_nil]
  have he := (C52_encode ⟨.debug, false, false, false⟩ u8Seq rfl (n + 1) x).2 m y hy
  rw [hw] at he
  have := u8Seq_wire m y _ he
  rw [nested_length] at this
  simp only [List.length_cons, List.length_nil] at this
  omega

example : u8Seq.Stable ∧ u8Seq.Guarded := ⟨fun _ => ⟨rfl, rfl⟩, fun _ => rfl⟩
example : nested 3 = [0, 0xff, 0, 0xff, 0, 0xff] := rfl

end Verif.Props
