import Verif.Codec.Comb
/-
`Decode` and `Encode` implemented by hand, as the crate invites its users to do (the documentation of `Decode`,
src/conv/mod.rs:224-260; `Pair`, src/parse/mod.rs:1334-1360).
-/
namespace Verif

/-- The body of a `fn parse<P: Parser>(p: &mut P) -> ParseResult<Self>`: it is given for every parser. -/
abbrev ParseFn (α : Type) : Type 1 := (σ : Type) → ParserOps σ → PM σ α

/-- `r.ok()`, or `match r { Ok(a) => …, Err(_) => … }`: an error is caught, and what has been done to the parser stays. -/
def M.caught {σ α : Type} (m : PM σ α) : PM σ (Option α) := fun s =>
  match m s with
  | .ok a s' => .ok (some a) s'
  | .err _ s' => .ok none s'
  | .panic => .panic
  | .ub => .ub
  | .diverge => .diverge

open Classical in
/-- A function that calls itself.  `f n` is its code with at most `n` calls within calls (where it would go deeper, it does not
end); the outcome is that of any depth that is enough.  (So does `parse` of a type within an `AutoBox`, src/autobox.rs:252-257.  The depth of the Rust stack is not modelled.) -/
noncomputable def recM {σ α : Type} (f : Nat → PM σ α) : PM σ α := fun s =>
  if h : ∃ n, f n s ≠ .diverge then f h.choose s else .diverge

/-- The methods of `Parser` (src/parse/mod.rs:82-300) that open and close no window, with what is known of their results. -/
inductive ReadCall : {α : Type} → ParseFn α → (α → Prop) → Prop
  | remainder : ReadCall (fun _ P => P.remainder) (· ≤ isizeMax)
  | consumeByte : ReadCall (fun _ P => P.consumeByte) (fun _ => True)
  | consume (n : Nat) (h : n ≤ isizeMax + 1) : ReadCall (fun _ P => P.consume n) (fun bs => bs.length = n)
  | skip (n : Nat) : ReadCall (fun _ P => P.skip n) (fun m => m ≤ isizeMax ∧ m ≤ n)
  | skipExactly (n : Nat) (h : n ≤ isizeMax + 1) : ReadCall (fun _ P => P.skipExactly n) (fun _ => True)

/-- `Composed E f Q`: `f` is the body of a `parse` (src/conv/mod.rs:262-276) written with the methods of `Parser` and `ParserExt`
(src/parse/mod.rs:82-456), the usual control flow of Rust (sequencing, `?`, `return Err(_)`, branching, loops, recursion) and panics, and
what it returns satisfies `Q`; the errors it makes up itself satisfy `E`.  `Q` keeps track of the numbers that are used as lengths: they have to be at most
`isize::MAX + 1`.

Windows are opened by `set_fit` and closed by `enforce_target` around some code (an `Err` may leave the code in between).
Not covered: code that goes on after catching an error, except for those of single reads (`Iterator::next`, which is
`consume_byte().ok()`, src/parse/mod.rs:674-684; `consume(n).ok()`, `skip_exactly(n).ok()`), and what is made of them: see
`Plain`; code that opens windows without closing them; code that asks for the absolute position
(`view_len`, `offset`) or whether it is in a window (`test_target`). -/
inductive Composed (E : ParseError → Prop) : {α : Type} → ParseFn α → (α → Prop) → Prop
  /-- `Ok(a)` -/
  | pure {α : Type} {Q : α → Prop} (a : α) (h : Q a) : Composed E (fun _ _ => Pure.pure a) Q
  /-- `let a = f(p)?; g(a, p)` -/
  | bind {α β : Type} {Q : α → Prop} {Q' : β → Prop} {f : ParseFn α} {g : α → ParseFn β} (hf : Composed E f Q)
      (hg : ∀ a, Q a → Composed E (g a) Q') : Composed E (fun σ P => f σ P >>= fun a => g a σ P) Q'
  | weaken {α : Type} {Q Q' : α → Prop} {f : ParseFn α} (h : ∀ a, Q a → Q' a) (hf : Composed E f Q) : Composed E f Q'
  /-- `return Err(e)` -/
  | throw {α : Type} {Q : α → Prop} (e : ParseError) (h : E e) : Composed E (fun _ _ => M.throw e) Q
  /-- `panic!()` -/
  | panic {α : Type} {Q : α → Prop} : Composed E (fun _ _ => M.panic) Q
  /-- a loop, with what holds in each round -/
  | loop {α β : Type} {I : β → Prop} {Q : α → Prop} {body : β → ParseFn (β ⊕ α)} (b : β) (hb : I b)
      (h : ∀ b, I b → Composed E (body b) (Sum.elim I Q)) : Composed E (fun σ P => iterM (fun b => body b σ P) b) Q
  /-- recursion; what a call gives does not change when there is room for more calls -/
  | recur {α : Type} {Q : α → Prop} {f : Nat → ParseFn α} (h : ∀ n, Composed E (f n) Q)
      (hs : ∀ n σ P s, f n σ P s = .diverge ∨ f (n + 1) σ P s = f n σ P s) : Composed E (fun σ P => recM fun n => f n σ P) Q
  | remainder : Composed E (fun _ P => P.remainder) (· ≤ isizeMax)
  | consumeByte : Composed E (fun _ P => P.consumeByte) (fun _ => True)
  /-- `p.next()` -/
  | next : Composed E (fun _ P => P.iterNext) (fun _ => True)
  /-- `consume`, `take_dynamic` -/
  | consume (n : Nat) (h : n ≤ isizeMax + 1) : Composed E (fun _ P => P.consume n) (fun bs => bs.length = n)
  /-- `p.consume(n).ok()` and the like -/
  | caught {α : Type} {Q : α → Prop} {f : ParseFn α} (h : ReadCall f Q) :
      Composed E (fun σ P => M.caught (f σ P)) (fun o => ∀ a, o = some a → Q a)
  | selfTerminating (f : Byte → Bool) : Composed E (fun _ P => P.takeSelfTerminating f) (fun _ => True)
  | skip (n : Nat) : Composed E (fun _ P => P.skip n) (fun m => m ≤ isizeMax ∧ m ≤ n)
  | skipExactly (n : Nat) (h : n ≤ isizeMax + 1) : Composed E (fun _ P => P.skipExactly n) (fun _ => True)
  /-- `p.set_fit(n)?; let a = f(p)?; p.enforce_target()?; Ok(a)` -/
  | window {α : Type} {Q : α → Prop} {f : ParseFn α} (n : Nat) (h : n ≤ isizeMax + 1) (hf : Composed E f Q) :
      Composed E (fun σ P => do P.setFit n; let a ← f σ P; P.enforceTarget; Pure.pure a) Q

/-- `Plain f Q`: as `Composed`, without windows, but errors may be caught anywhere. -/
inductive Plain : {α : Type} → ParseFn α → (α → Prop) → Prop
  | pure {α : Type} {Q : α → Prop} (a : α) (h : Q a) : Plain (fun _ _ => Pure.pure a) Q
  | bind {α β : Type} {Q : α → Prop} {Q' : β → Prop} {f : ParseFn α} {g : α → ParseFn β} (hf : Plain f Q)
      (hg : ∀ a, Q a → Plain (g a) Q') : Plain (fun σ P => f σ P >>= fun a => g a σ P) Q'
  | weaken {α : Type} {Q Q' : α → Prop} {f : ParseFn α} (h : ∀ a, Q a → Q' a) (hf : Plain f Q) : Plain f Q'
  | throw {α : Type} {Q : α → Prop} (e : ParseError) : Plain (fun _ _ => M.throw e) Q
  | panic {α : Type} {Q : α → Prop} : Plain (fun _ _ => M.panic) Q
  | loop {α β : Type} {I : β → Prop} {Q : α → Prop} {body : β → ParseFn (β ⊕ α)} (b : β) (hb : I b)
      (h : ∀ b, I b → Plain (body b) (Sum.elim I Q)) : Plain (fun σ P => iterM (fun b => body b σ P) b) Q
  | recur {α : Type} {Q : α → Prop} {f : Nat → ParseFn α} (h : ∀ n, Plain (f n) Q)
      (hs : ∀ n σ P s, f n σ P s = .diverge ∨ f (n + 1) σ P s = f n σ P s) : Plain (fun σ P => recM fun n => f n σ P) Q
  | read {α : Type} {Q : α → Prop} {f : ParseFn α} (h : ReadCall f Q) : Plain f Q
  /-- `f(p).ok()` -/
  | caught {α : Type} {Q : α → Prop} {f : ParseFn α} (h : Plain f Q) :
      Plain (fun σ P => M.caught (f σ P)) (fun o => ∀ a, o = some a → Q a)

/-- A body of a `parse` that may return any errors of its own. -/
abbrev Written {α : Type} (f : ParseFn α) (Q : α → Prop) : Prop := Composed (fun _ => True) f Q

/-- An error of the parser itself (`WindowError`, src/parse/error.rs), as opposed to those the types come up with. -/
def ParseError.isWindow : ParseError → Bool
  | .window _ => true
  | _ => false

/-- The body of a `fn write_to<U: Target>(&self, buf: &mut U) -> usize` for one value: it is given for every target. -/
abbrev WriteFn : Type 1 := (τ : Type) → TargetOps τ → W τ

/-- `Pushed f`: `f` is the body of a `write_to` (src/conv/mod.rs:62-90) made of calls to the methods of `Target`
(src/conv/target.rs:12-97), returning the sum of what they return. -/
inductive Pushed : WriteFn → Prop
  /-- `0` -/
  | zero : Pushed fun _ _ => W.zero
  /-- `f(buf) + g(buf)` -/
  | add {f g : WriteFn} (hf : Pushed f) (hg : Pushed g) : Pushed fun τ T => W.add (f τ T) (g τ T)
  | pushOne (b : Byte) : Pushed fun _ T => W.push (T.pushOne b)
  | pushMany (a : Bytes) : Pushed fun _ T => W.push (T.pushMany a)
  | pushAll (a : Bytes) : Pushed fun _ T => W.push (T.pushAll a)
  | resolveZero : Pushed fun _ T => W.resolveZero T
  /-- `panic!()` -/
  | panic : Pushed fun _ _ => W.panic
  /-- `buf.anticipate(n); f(buf)` -/
  | anticipate (n : Nat) {f : WriteFn} (hf : Pushed f) : Pushed fun τ T t => f τ T (T.anticipate n t)

/-! ### the hand-written types of the crate -/

/-- `Pair` of src/parse/mod.rs:1334-1360: `Decode` and `Encode` by hand, `FixedLength` with `LEN = 3`. -/
def pairCodec : Codec (ByteArr 2 × IntTy.Val .i8) where
  write T x := W.add (W.push (T.pushMany x.1.1)) ((Codec.int .i8).write T x.2)
  parse P := do
    let x0 ← P.takeFixed 2
    let x1 ← (Codec.int .i8).parse P
    if h : x0.length = 2 then pure (⟨x0, h⟩, x1) else M.panic
  known := some 3
  unknown _ := 3

/-- `MyTypeElem` of the documentation of `Decode` (src/conv/mod.rs:233-249).  There is no `Encode` there; the encoder here is
the one that goes with it. -/
def myTypeElem : Codec (Bool × IntTy.Val .u8) where
  write T x := W.add (Codec.bool.write T x.1) ((Codec.int .u8).write T x.2)
  parse P := do
    let isValid ← Codec.bool.parse P
    let id ← (Codec.int .u8).parse P
    pure (isValid, id)
  known := some 2
  unknown _ := 2

/-- `MyType` of the documentation of `Decode` (src/conv/mod.rs:237-256). -/
noncomputable def myType : Codec (List (Bool × IntTy.Val .u8)) where
  write T x := (Codec.seq myTypeElem).write T x
  parse P := do
    let xs ← (Codec.seq myTypeElem).parse P
    pure xs
  known := none
  unknown x := (Codec.seq myTypeElem).unknown x

/-- A decoder that goes on after a failed `enforce_target`: `p.set_fit(2)?; let _ = p.enforce_target(); p.take_dynamic(p.remainder())`. -/
def careless : Codec Bytes where
  write T x := W.push (T.pushAll x)
  parse {σ} P := do
    P.setFit 2
    (fun s => match P.enforceTarget s with
      | .err _ s' => .ok () s'
      | r => r : PM σ Unit)
    let r ← P.remainder
    P.consume r
  known := none
  unknown x := x.length

end Verif
