import Verif.Lemmas.Caught
import Verif.Props.UserTypes
/-
C94: hand-written decoders that go on after an error.
-/
namespace Verif.Props

open Codec

variable {α β : Type}

/-- C94: errors may be caught wherever no window has been left open: code without windows, and `f(p).ok()` for such code, behave alike
with every parser. -/
theorem C94_recovery {f : ParseFn α} {Q : α → Prop} (h : Plain f Q) :
    Written f Q ∧ Written (fun σ P => M.caught (f σ P)) fun o => ∀ a, o = some a → Q a :=
  ⟨h.both.1, h.both.2 _⟩

/-- C94: … and so does `match f(p) { Ok(a) => g(a, p), Err(_) => h(p) }`, the errors of which are those of `g` and `h`, with any
code in the two arms. -/
theorem C94_fallback {E : ParseError → Prop} {f : ParseFn α} {Q : α → Prop} {g : α → ParseFn β} {h : ParseFn β} {Q' : β → Prop} (hf : Plain f Q)
    (hg : ∀ a, Q a → Composed E (g a) Q') (hh : Composed E h Q') :
    Composed E (fun σ P => M.caught (f σ P) >>= fun o => match o with
      | some a => g a σ P
      | none => h σ P) Q' :=
  .bind (hf.both.2 E) fun o ho => match o, ho with
    | some a, ho => hg a (ho a rfl)
    | none, _ => hh

/-- C94: this can be done with every type of the library that has no `Dynamic` and no `VPadded` in it. -/
theorem C94_recovery_types (cfg : Cfg) (s : Schema) (hs : s.windowless = true) : (s.codec cfg).Plain := s.plainParse cfg hs

/-- `let _ = Dynamic::<u8, u8>::parse(p).ok(); u8::parse(p)` -/
def afterDynamic (cfg : Cfg) : Codec (IntTy.Val .u8) where
  write T x := (Codec.int .u8).write T x
  parse P := do
    let _ ← M.caught ((Codec.dynamic cfg .u8 (Codec.int .u8)).parse P)
    (Codec.int .u8).parse P
  known := none
  unknown x := (Codec.int .u8).unknown x

/-- It cannot be done with `Dynamic`: after its window was found not to be used up, the parsers are at different places. -/
theorem C94_recovery_dynamic_fails (cfg : Cfg) (hc : cfg.completeParse = false) :
    (afterDynamic cfg).tryDecode cfg .byte [2, 1, 7, 9] = .ok (7 : BitVec 8) () ∧
      (afterDynamic cfg).tryDecode cfg .slice [2, 1, 7, 9] = .ok (9 : BitVec 8) () := by
  obtain ⟨p, a, b, c⟩ := cfg
  cases hc
  cases p <;> exact ⟨rfl, rfl⟩

/-- A number in four bytes if there is one, otherwise what is left. -/
noncomputable def fourOrRest (cfg : Cfg) : Codec (IntTy.Val .u32 ⊕ Bytes) where
  write T x := match x with
    | .inl n => (Codec.int .u32).write T n
    | .inr b => W.push (T.pushAll b)
  parse P := M.caught ((Codec.int .u32).parse P) >>= fun o => match o with
    | some n => pure (.inl n)
    | none => Sum.inr <$> (Schema.codec cfg .bytes).parse P
  known := none
  unknown x := match x with
    | .inl n => (Codec.int .u32).unknown n
    | .inr b => b.length

theorem fourOrRest_written (cfg : Cfg) : (fourOrRest cfg).Written := by
  have h := C94_fallback (E := fun _ => True) (Q' := fun _ => True) (f := fun _ P => (Codec.int .u32).parse P) (Q := fun _ => True)
    (g := fun n _ _ => pure (.inl n)) (h := fun _ P => (Sum.inr : Bytes → IntTy.Val .u32 ⊕ Bytes) <$> (Schema.codec cfg .bytes).parse P)
    (C94_recovery_types cfg (.int .u32) rfl) (fun _ _ => .pure _ trivial) (.map _ (Schema.composed cfg .bytes rfl) fun _ _ => trivial)
  refine cast (congrArg (fun f => Composed (fun _ => True) f fun _ => True) ?_) h
  funext σ P
  show _ = M.caught _ >>= _
  congr 1
  funext o
  cases o <;> rfl

/-- So all of C94 holds of it. -/
example (cfg : Cfg) (hc : cfg.completeParse = false) (buf : Bytes) (hb : buf.length ≤ isizeMax) :
    (∃ a, (fourOrRest cfg).tryDecode cfg .byte buf = .ok a () ∧ (fourOrRest cfg).tryDecode cfg .slice buf = .ok a ()) ∨
    (Fails ((fourOrRest cfg).tryDecode cfg .byte buf) ∧ Fails ((fourOrRest cfg).tryDecode cfg .slice buf)) ∨
    ((fourOrRest cfg).tryDecode cfg .byte buf = .diverge ∧ (fourOrRest cfg).tryDecode cfg .slice buf = .diverge) :=
  C94_parsers_agree (fourOrRest_written cfg) cfg buf hb _ _ (by rw [hc]; nofun)

/-- Records, enums, options and numbers of any length can be caught. -/
example (cfg : Cfg) :
    (Schema.codec cfg (.record (.cons .zarithN (.cons (.option .bool) (.cons (.seq (.padded 3 .f64)) .nil))))).Plain :=
  C94_recovery_types cfg _ rfl

end Verif.Props
