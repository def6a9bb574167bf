import Verif.Lemmas.Wider
import Verif.Props.Decode
import Verif.Props.Recursive
import Verif.RangedNum
/-
C79: widening a type – more constructors, larger ranges, larger limits – keeps its messages.
-/
namespace Verif.Props

open Verif

/-! ### encoding -/

/-- What the later version of a type has to do with the bytes its values had. -/
theorem later_write {α α' : Type} {f : α → α'} {c : Codec α} {c' : Codec α'} (h : Codec.Later f c c') (cfg : Cfg) (x : α) :
    (∀ {τ : Type} (T : TargetOps τ) t r, c.write T x t = some r → c'.write T (f x) t = some r) ∧
    (∀ b, c.toBytes x = some b → c'.toBytes (f x) = some b) ∧
    (∀ n, c.encLen cfg x = some n → c'.encLen cfg (f x) = some n) ∧
    c'.estimate (f x) = c.estimate x := by
  have hw : ∀ {τ : Type} (T : TargetOps τ) t r, c.write T x t = some r → c'.write T (f x) t = some r := by
    intro τ T t r hr
    rcases h.write T x t with e | e
    · rw [e] at hr; cases hr
    · rw [e]; exact hr
  refine ⟨hw, fun b hb => ?_, fun n hn => ?_, h.estimate x⟩
  · unfold Codec.toBytes Codec.writeToVec at hb ⊢
    cases hr : c.write vecTarget x [] with
    | none => rw [hr] at hb; cases hb
    | some r => rw [hr] at hb; rw [hw _ _ _ hr]; exact hb
  · rcases h.encLen cfg x with e | e
    · rw [e] at hn; cases hn
    · rw [e]; exact hn

/-- C79, encoding: what the narrower type writes for a value – to any target, in any state – the wider one writes for it
too; lengths and estimates agree. -/
theorem C79_write {s s' : Schema} (h : Wider s s') (cfg : Cfg) (x : s.Val) :
    (∀ {τ : Type} (T : TargetOps τ) t r, (s.codec cfg).write T x t = some r → (s'.codec cfg).write T (h.up x) t = some r) ∧
    (∀ b, (s.codec cfg).toBytes x = some b → (s'.codec cfg).toBytes (h.up x) = some b) ∧
    (∀ n, (s.codec cfg).encLen cfg x = some n → (s'.codec cfg).encLen cfg (h.up x) = some n) ∧
    (s'.codec cfg).estimate (h.up x) = (s.codec cfg).estimate x :=
  later_write (h.later cfg) cfg x

/-! ### decoding -/

/-- C79, parsing: on any parser, in any state, the wider type's parser does what the narrower one's does, unless that one
reports a tag, a number or a length that is out of its range. -/
theorem C79_parse {s s' : Schema} (h : Wider s s') (cfg : Cfg) {σ : Type} (P : ParserOps σ) (st : σ) :
    (∃ e st', (s.codec cfg).parse P st = .err e st' ∧ OutOfDate e) ∨
      (s'.codec cfg).parse P st = (h.up <$> (s.codec cfg).parse P) st :=
  (h.later cfg).parse P st

/-- The result with another value. -/
def mapOut {α α' : Type} (f : α → α') : DecodeOut α → DecodeOut α'
  | .ok a _ => .ok (f a) ()
  | .err e _ => .err e ()
  | .panic => .panic
  | .ub => .ub
  | .diverge => .diverge

theorem finish_map {α α' : Type} (f : α → α') (cfg : Cfg) (k : Backend) (a : α) (st : k.State) :
    k.finish cfg (f a) st = mapOut f (k.finish cfg a st) := by
  unfold Backend.finish
  split
  · cases k.cleanup cfg.prof st with
    | ok r s =>
      cases r with
      | ok r =>
        simp only []
        split <;> rfl
      | error _ => rfl
    | _ => rfl
  · rfl

theorem later_decode {α α' : Type} {f : α → α'} {c : Codec α} {c' : Codec α'} (h : Codec.Later f c c') (cfg : Cfg) (ih : Bool)
    (k : Backend) (inp : Input) :
    (∃ e, c.tryDecodeFrom cfg ih k inp = .err (.parse e) () ∧ OutOfDate e) ∨
      c'.tryDecodeFrom cfg ih k inp = mapOut f (c.tryDecodeFrom cfg ih k inp) := by
  unfold Codec.tryDecodeFrom
  cases inp.toBuffer ih with
  | none => exact .inr rfl
  | some r =>
    cases r with
    | error e => exact .inr rfl
    | ok buf =>
      simp only [Codec.tryDecode]
      rcases h.parse (k.ops cfg.prof) (k.init buf) with ⟨e, st, e1, ho⟩ | e1
      · rw [e1]; exact .inl ⟨e, rfl, ho⟩
      · right
        rw [e1, M.map_run]
        cases c.parse (k.ops cfg.prof) (k.init buf) with
        | ok a st => exact finish_map f cfg k a st
        | _ => rfl

/-- C79, `try_decode` of any input with any of the parsers: the wider type's is the narrower one's, with the same value,
error or panic, unless the narrower one reports what is out of its range. -/
theorem C79_decode {s s' : Schema} (h : Wider s s') (cfg : Cfg) (ih : Bool) (k : Backend) (inp : Input) :
    (∃ e, (s.codec cfg).tryDecodeFrom cfg ih k inp = .err (.parse e) () ∧ OutOfDate e) ∨
      (s'.codec cfg).tryDecodeFrom cfg ih k inp = mapOut h.up ((s.codec cfg).tryDecodeFrom cfg ih k inp) :=
  later_decode (h.later cfg) cfg ih k inp

/-- C79: messages that were accepted are, as the same value. -/
theorem C79_old {s s' : Schema} (h : Wider s s') (cfg : Cfg) (ih : Bool) (k : Backend) (inp : Input) (x : s.Val)
    (hx : (s.codec cfg).tryDecodeFrom cfg ih k inp = .ok x ()) : (s'.codec cfg).tryDecodeFrom cfg ih k inp = .ok (h.up x) () := by
  rcases C79_decode h cfg ih k inp with ⟨e, he, _⟩ | he
  · rw [hx] at he; cases he
  · rw [he, hx]; rfl

/-- C79, the other way round: a decoder that has not been updated understands a message of the wider type, if it does, as
the value that was sent, and reports what it does not know otherwise. -/
theorem C79_new {s s' : Schema} (h : Wider s s') (cfg : Cfg) (hs : s'.tagsOk) {tl : Tail} (htl : s'.tail = some tl)
    (hl : tl.Allows []) (y : s'.Val) (hv : s'.Valid y) (he : cfg.encLenOverride = false ∨ s'.PrefixOk y) (b : Bytes)
    (hb : (s'.codec cfg).toBytes y = some b) (hlen : b.length ≤ isizeMax) (ih : Bool) (k : Backend)
    (hk : cfg.completeParse = false ∨ k ≠ .slice) :
    (∃ x, (s.codec cfg).tryDecodeFrom cfg ih k (.bytes b) = .ok x () ∧ h.up x = y) ∨
    ∃ e, (s.codec cfg).tryDecodeFrom cfg ih k (.bytes b) = .err (.parse e) () ∧ OutOfDate e := by
  have hd : (s'.codec cfg).tryDecodeFrom cfg ih k (.bytes b) = .ok y () := C51_try_decode_partial cfg s' hs htl hl y hv he b hb hlen k hk
  rcases C79_decode h cfg ih k (.bytes b) with e | e
  · exact .inr e
  · left
    rw [hd] at e
    cases ho : (s.codec cfg).tryDecodeFrom cfg ih k (.bytes b) with
    | ok x u =>
      rw [ho] at e
      exact ⟨x, rfl, (Out.ok.inj e).1.symm⟩
    | _ => rw [ho] at e; cases e

/-- C79: different values stay different. -/
theorem C79_distinct {s s' : Schema} (h : Wider s s') (hs : s.tagsOk) (x y : s.Val) : h.up x = h.up y ↔ x = y :=
  ⟨h.up_inj hs x y, fun e => e ▸ rfl⟩

/-! ### recursive types -/

/-- C79 for recursive types: when each definition of the family is wider. -/
theorem C79_recursive {d d' : Decls} (w : ∀ i, Wider (d.body i) (d'.body i)) (cfg : Cfg) (i : Nat) :
    (∀ a, (∀ {τ : Type} (T : TargetOps τ) t r, (d.codec cfg i).write T a t = some r →
        (d'.codec cfg i).write T (Decls.up w i a) t = some r) ∧
      (∀ b, (d.codec cfg i).toBytes a = some b → (d'.codec cfg i).toBytes (Decls.up w i a) = some b) ∧
      (∀ n, (d.codec cfg i).encLen cfg a = some n → (d'.codec cfg i).encLen cfg (Decls.up w i a) = some n) ∧
      (d'.codec cfg i).estimate (Decls.up w i a) = (d.codec cfg i).estimate a) ∧
    (∀ {σ : Type} (P : ParserOps σ) (st : σ), (∃ e st', (d.codec cfg i).parse P st = .err e st' ∧ OutOfDate e) ∨
      (d'.codec cfg i).parse P st = (Decls.up w i <$> (d.codec cfg i).parse P) st) ∧
    (∀ ih k inp, (∃ e, (d.codec cfg i).tryDecodeFrom cfg ih k inp = .err (.parse e) () ∧ OutOfDate e) ∨
      (d'.codec cfg i).tryDecodeFrom cfg ih k inp = mapOut (Decls.up w i) ((d.codec cfg i).tryDecodeFrom cfg ih k inp)) ∧
    ((∀ j, (d.body j).tagsOk) → ∀ a b, Decls.up w i a = Decls.up w i b ↔ a = b) :=
  have h := Decls.later w cfg i
  ⟨later_write h cfg, fun P st => h.parse P st, later_decode h cfg, fun ht a b => ⟨Decls.up_inj w ht i a b, fun e => e ▸ rfl⟩⟩

/-! ### what is not widening -/

/-- C79, a range cannot be made larger below when its least number is positive: the same message is another number
afterwards. -/
theorem C79_minimum (cfg : Cfg) (k : Backend) (hc : cfg.completeParse = false) :
    ((Schema.rangedInt .u8 1 10).codec cfg).tryDecode cfg k [4] = .ok 4#8 () ∧
    RangedInt.toI32 cfg.prof .u8 1 10 4#8 = some 5 ∧
    ((Schema.rangedInt .u8 0 10).codec cfg).tryDecode cfg k [4] = .ok 4#8 () ∧
    RangedInt.toI32 cfg.prof .u8 0 10 4#8 = some 4 := by
  obtain ⟨p, enc, pad, c⟩ := cfg
  cases hc
  cases k <;> cases p <;> exact ⟨rfl, rfl, rfl, rfl⟩

/-! ### examples -/

/-- A request with a priority and a command, and its next version: the commands are in another order and there is one
more, priorities go higher and lists may be longer. -/
def request : Schema := .record (.cons (.rangedInt .u8 0 9)
  (.cons (.data .u8 (.cons 0 .bool (.cons 1 (.dynamic .u30 (.limSeq 2 (.int .u8))) .nil))) .nil))

def request2 : Schema := .record (.cons (.rangedInt .u8 0 99)
  (.cons (.data .u8 (.cons 5 .zarithN (.cons 1 (.dynamic .u30 (.limSeq 4 (.int .u8))) (.cons 0 .bool .nil)))) .nil))

def request_wider : Wider request request2 :=
  .record (.cons (.rangedInt .u8 (.inl rfl) (by decide)) (.cons (.data .u8
    (.cons 0 (.there 5 _ (by decide) (.there 1 _ (by decide) (.here _))) .bool
      (.cons 1 (.there 5 _ (by decide) (.here _)) (.dynamic .u30 (.limSeq (by decide) (.int .u8))) (.nil _)))) .nil))

example : request2.tagsOk ∧ request2.tail = some .any ∧ request.tagsOk := by
  refine ⟨⟨trivial, ⟨by decide, by decide, trivial, by decide, trivial, by decide, trivial, trivial⟩, trivial⟩, rfl,
    ⟨trivial, ⟨by decide, by decide, trivial, by decide, trivial, trivial⟩, trivial⟩⟩

/-- The value with arm 1 is in another place among the arms, and the same otherwise. -/
example : request_wider.up (7#8, Sum.inr (Sum.inl [1#8, 2#8]), ()) = (7#8, Sum.inr (Sum.inl [1#8, 2#8]), ()) := rfl
example : request_wider.up (7#8, Sum.inl true, ()) = (7#8, Sum.inr (Sum.inr (Sum.inl true)), ()) := rfl

/-- An old message, and two new ones. -/
example (cfg : Cfg) (hc : cfg.completeParse = false) :
    (request.codec cfg).tryDecode cfg .byte [7, 0, 255] = .ok (7#8, Sum.inl true, ()) () ∧
    (request2.codec cfg).tryDecode cfg .byte [7, 0, 255] = .ok (7#8, Sum.inr (Sum.inr (Sum.inl true)), ()) () ∧
    (request.codec cfg).tryDecode cfg .byte [7, 5, 3] = .err (.parse (.token (.invalidTag .u8 5 (some [0, 1])))) () ∧
    (request.codec cfg).tryDecode cfg .byte [70, 0, 255] = .err (.parse (.external (.intRangeViolation (.overflow 9 70)))) () := by
  obtain ⟨p, enc, pad, c⟩ := cfg
  cases hc
  cases p <;> exact ⟨rfl, rfl, rfl, rfl⟩

/-- A later version of the expressions of Verif/Props/Recursive.lean, with annotated expressions. -/
def exprs2 : Decls where
  body _ := .data .u8 (.cons 0 .zarithZ (.cons 1 (.dynamic .u30 .string) (.cons 2 (.dynamic .u30 (.seq (.autobox (.hole 0))))
    (.cons 3 (.record (.cons (.dynamic .u30 .string) (.cons (.autobox (.hole 0)) .nil))) .nil))))
  unsized _ _ := rfl

def exprs_wider : ∀ i, Wider (exprs.body i) (exprs2.body i) := fun _ =>
  .data .u8 (.cons 0 (.here _) .zarithZ (.cons 1 (.there 0 _ (by decide) (.here _)) (.dynamic .u30 .string)
    (.cons 2 (.there 0 _ (by decide) (.there 1 _ (by decide) (.here _))) (.dynamic .u30 (.seq (.autobox (.hole 0)))) (.nil _))))

end Verif.Props
