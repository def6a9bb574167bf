import Verif.Lemmas.Unfold
import Verif.Props.Recursive
/-
C56: the code of a recursive type is the code of its definition, calling itself where the definition mentions
the type.  `(d.body i).codecIn cfg c` (Verif/Spec/Unfold.lean) is the code of the `i`-th definition when its
recursive mentions are calls of the codecs `c`.
-/
namespace Verif.Props

open Codec

variable (cfg : Cfg) (d : Decls) {i : Nat}

/-- C56: values of a recursive type are exactly the values of its definition with values of the recursive types as
parts. -/
theorem C56_values : (∀ a b : d.Val i, d.unroll a = d.unroll b → a = b) ∧ ∀ y : (d.body i).ValIn d.Val, ∃ a, d.unroll a = y :=
  ⟨d.unroll_inj, d.unroll_surj⟩

/-- The family of codecs `c` solves the equations given by the definitions: each codec writes, measures and parses as
its definition does when its recursive mentions call `c`. -/
structure SolvesDecls (c : ∀ i, Codec (d.Val i)) : Prop where
  write : ∀ i {τ : Type} (T : TargetOps τ) a, (c i).write T a = ((d.body i).codecIn cfg c).write T (d.unroll a)
  parse : ∀ i {σ : Type} (P : ParserOps σ) s, (d.unroll <$> (c i).parse P) s = ((d.body i).codecIn cfg c).parse P s
  known : ∀ i, (c i).known = ((d.body i).codecIn cfg c).known
  unknown : ∀ i a, (c i).unknown a = ((d.body i).codecIn cfg c).unknown (d.unroll a)

/-- C56: the code of the recursive types solves the equations given by their definitions. -/
theorem C56_solves : SolvesDecls cfg d (d.codec cfg) where
  write i _ T a := by
    obtain ⟨n, x, rfl⟩ := d.exists_val a
    cases n with
    | zero => exact nomatch x
    | succ n => exact (((d.body_tends cfg i).sim n).write T x).symm
  parse i _ P s := d.unroll_parse cfg i P s
  known i := (d.known_unfold cfg 1 i).symm.trans ((d.body_tends cfg i).sim 0).known.symm
  unknown i a := by
    obtain ⟨n, x, rfl⟩ := d.exists_val a
    cases n with
    | zero => exact nomatch x
    | succ n => exact (((d.body_tends cfg i).sim n).unknown x).symm

theorem solves_sim {c : ∀ i, Codec (d.Val i)} (h : SolvesDecls cfg d c) (hk : ∀ i, (c i).known = none) :
    ∀ n i, Codec.Sim (fun x => d.val n x) ((d.unfold n i).codec cfg) (c i)
  | 0, i => {
      write := fun _ x => nomatch x
      parse := fun _ _ => .inl rfl
      known := hk i
      unknown := fun x => nomatch x }
  | n + 1, i => by
    have hs := (d.body i).simIn cfg (solves_sim h hk n)
    refine ⟨fun T x => (h.write i T _).trans (hs.write T x), fun P s => ?_, (hk i).trans (d.known_unfold cfg (n + 1) i).symm,
      fun x => (h.unknown i _).trans (hs.unknown x)⟩
    rcases hs.parse P s with h1 | h1
    · exact .inl h1
    · right
      rw [← h.parse i P s, M.map_run, M.map_run] at h1
      rw [M.map_run]
      revert h1
      show (_ = (((d.unfold (n + 1) i).codec cfg).parse P s).bind fun a s' =>
        Out.ok (d.unroll (d.val (n + 1) a)) s') → _ = (((d.unfold (n + 1) i).codec cfg).parse P s).bind _
      cases (c i).parse P s <;> cases ((d.unfold (n + 1) i).codec cfg).parse P s <;> intro h1
      case ok.ok => 
        obtain ⟨e1, e2⟩ := Out.ok.inj h1
        subst e2
        exact congrArg (fun a => Out.ok a _) (d.unroll_inj _ _ e1)
      all_goals first | (cases h1; done) | (cases h1; rfl)

/-- C56: and it is the least solution: any code that solves the equations (and has no fixed length, which Rust cannot
compute for recursive types) writes and measures the same, and parses the same wherever the recursion ends. -/
theorem C56_least {c : ∀ i, Codec (d.Val i)} (h : SolvesDecls cfg d c) (hk : ∀ i, (c i).known = none) :
    (∀ {τ : Type} (T : TargetOps τ) (a : d.Val i), (c i).write T a = (d.codec cfg i).write T a) ∧
    (∀ a : d.Val i, (c i).estimate a = (d.codec cfg i).estimate a) ∧
    ∀ {σ : Type} (P : ParserOps σ) s, (d.codec cfg i).parse P s ≠ .diverge → (c i).parse P s = (d.codec cfg i).parse P s := by
  have hs := solves_sim cfg d h hk
  refine ⟨fun T a => ?_, fun a => ?_, fun P s hd => ?_⟩
  · obtain ⟨n, x, rfl⟩ := d.exists_val a
    exact (hs n i).write T x
  · obtain ⟨n, x, rfl⟩ := d.exists_val a
    unfold Codec.estimate
    rw [hk i]
    exact (hs n i).unknown x
  · obtain ⟨N, hN⟩ := (d.tends cfg i).ev P s
    have h1 : (d.val N <$> ((d.unfold N i).codec cfg).parse P) s = _ := hN N (Nat.le_refl _)
    rcases (hs N i).parse P s with h2 | h2
    · rw [M.map_run, h2] at h1
      exact absurd h1.symm hd
    · exact h2.trans h1

/-- C56: if recursion happens only after something has been read, the equations have no other solution on the states the
parsers of the library can be in. -/
theorem C56_unique {c : ∀ i, Codec (d.Val i)} (h : SolvesDecls cfg d c) (hk : ∀ i, (c i).known = none) (hst : d.Stable)
    (hg : d.Guarded) (k : Backend) (v : Bytes) (vs : List Bytes) (st : k.State) (hs : k.Holds v vs st) :
    (c i).parse (k.ops cfg.prof) st = (d.codec cfg i).parse (k.ops cfg.prof) st := by
  refine (C56_least cfg d h hk).2.2 _ _ ?_
  rcases C52_total cfg d (i := i) hst hg k v vs st hs with ⟨a, s', h1⟩ | ⟨e, s', h1⟩ | ⟨_, _, _, h1⟩ <;> rw [h1] <;> nofun

/-! ### example -/

/-- `U8Seq(5, Some(AutoBox(U8Seq(7, None))))` seen from outside: a byte and an optional boxed `U8Seq`. -/
example : u8Seq.unroll u8Seq57 = ((5 : BitVec 8), (some (u8Seq.val 1 ((7 : BitVec 8), (none, ()))), ())) := rfl

/-- The equation of `U8Seq`, spelled out: parse a byte, then the option tag, then perhaps a `U8Seq`. -/
example (cfg : Cfg) {σ : Type} (P : ParserOps σ) (s : σ) :
    (u8Seq.unroll <$> (u8Seq.codec cfg 0).parse P) s =
      (do
        let x ← (Codec.int .u8).parse P
        let tag ← ParserOps.takeTagword .u8 (TagWidth.parse .u8 P) [0x00, 0xff]
        let rest ← if tag = 0xff then do
            let a ← (u8Seq.codec cfg 0).parse P
            pure (some a)
          else if tag = 0x00 then pure none else M.panic
        pure (x, (rest, ()))) s := by
  rw [(C56_solves cfg u8Seq).parse 0 P s]
  show (do
      let a ← (Codec.int .u8).parse P
      let b ← (FCodec.cons (Codec.option (u8Seq.codec cfg 0)) FCodec.nil).parse P
      pure (a, b)) s = _
  rw [M.bind_run, M.bind_run]
  cases (Codec.int .u8).parse P s with
  | ok x s1 =>
    show ((((ParserOps.takeTagword .u8 (TagWidth.parse .u8 P) [0x00, 0xff]) s1).bind _).bind _).bind _ = _
    rw [Out.bind_ok, M.bind_run]
    cases ParserOps.takeTagword .u8 (TagWidth.parse .u8 P) [0x00, 0xff] s1 with
    | ok tag s2 =>
      simp only [Out.bind_ok, M.bind_run]
      split
      · simp only [M.bind_run]
        cases (u8Seq.codec cfg 0).parse P s2 <;> rfl
      · split <;> rfl
    | _ => rfl
  | _ => rfl

example (cfg : Cfg) {c : ∀ i, Codec (u8Seq.Val i)} (h : SolvesDecls cfg u8Seq c) (hk : ∀ i, (c i).known = none) (k : Backend) :
    (c 0).parse (k.ops cfg.prof) (k.init [5, 0xff, 7, 0]) = (u8Seq.codec cfg 0).parse (k.ops cfg.prof) (k.init [5, 0xff, 7, 0]) :=
  C56_unique cfg u8Seq h hk (fun _ => ⟨rfl, rfl⟩) (fun _ => rfl) k _ _ _ (Backend.holds_init k (by decide))

end Verif.Props
