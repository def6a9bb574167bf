import Verif.Schema
import Verif.ErrorText
/-
The derive macros `Encode`, `Decode`, `FixedLength` and `Estimable` (crates encode_derive, decode_derive and
estimable_derive): what they generate for a declaration, as syntax, and what the generated code means.  A macro yields
`none` where it panics (`unimplemented!`), and a meaning is `none` where the Rust compiler rejects the generated code.
-/
namespace Verif
namespace Derive

abbrev Ident := Text

/-- A type as written in a field. -/
structure Ty where
  /-- the unqualified names in it -/
  names : List Ident
  /-- what it is, outside the generated functions -/
  schema : Schema
  /-- `LEN`, if it implements `FixedLength` -/
  len : Option Nat

/-- `syn::Fields`. -/
inductive Body where
  | unit
  | unnamed (tys : List Ty)
  | named (fs : List (Ident × Ty))

/-- `syn::Data`. -/
inductive Data where
  | struct (b : Body)
  | enum
  | union

/-- `syn::DeriveInput`, of which the macros read `ident` and `data`; `params` says how many generic parameters without
a default the type has. -/
structure Input where
  params : Nat
  data : Data

/-- What follows the name of a constructor in `data!`, one token tree: a comma, parentheses or braces. -/
inductive Payload where
  | comma
  | parens (tys : List Ty)
  | braces (fs : List (Ident × Ty))

/-- src/adt.rs:253-268, the rules `@structify` of `data!`: the struct that holds the payload of a constructor. -/
def structify : Payload → Option Body
  | .comma => some .unit
  | .parens [] => some .unit
  | .parens tys => some (.unnamed tys)
  | .braces [] => none
  | .braces fs => some (.named fs)

/-! ### syntax of the generated code -/

/-- `.0`, `.x` -/
inductive Member where
  | index (i : Nat)
  | ident (x : Ident)

/-- `Self`, `Self(<T as Decode>::parse(p)?, …)`, `Self { x: <T as Decode>::parse(p)?, … }` -/
inductive Build where
  | self
  | tuple (tys : List Ty)
  | braces (inits : List (Ident × Ty))

/-- `const KNOWN`: `<T as Estimable>::KNOWN`, or a call of `f` with its parameters, the names bound by the patterns of
its first arm and the names added up there. -/
inductive Known where
  | of (ty : Ty)
  | call (params scrutinee pats sum : List Ident) (args : List Ty)

/-- `fn unknown`: `<T as Estimable>::unknown(&self.m)` or `self.m.unknown() + …` -/
inductive Unknown where
  | of (ty : Ty) (m : Member)
  | sum (ms : List Member)

/-- An implementation of `FixedLength` (with the types whose `LEN` are added up) or one of `Estimable`. -/
inductive Length where
  | fixed (terms : List Ty)
  | estimable (known : Known) (unknown : Unknown)

/-! ### the macros -/

/-- encode_derive/src/lib.rs:13-60 `impl_encode`: the members whose `write_to` are added up, before `resolve_zero`. -/
def encode (i : Input) : Option (List Member) := match i.data with
  | .enum => none
  | .union => none
  | .struct .unit => some []
  | .struct (.unnamed tys) => some ((List.range tys.length).map .index)
  | .struct (.named fs) => some (fs.map fun f => .ident f.1)

/-- decode_derive/src/lib.rs:13-59 `impl_decode`. -/
def decode (i : Input) : Option Build := match i.data with
  | .enum => none
  | .union => none
  | .struct .unit => some .self
  | .struct (.unnamed tys) => some (.tuple tys)
  | .struct (.named fs) => some (.braces fs)

/-- estimable_derive/src/lib.rs:13-61 `impl_fixedlength`: the types whose `LEN` are added up. -/
def fixedLength (i : Input) : Option (List Ty) := match i.data with
  | .enum => none
  | .union => none
  | .struct .unit => some []
  | .struct (.unnamed []) => some []
  | .struct (.unnamed tys) => some tys
  | .struct (.named []) => some []
  | .struct (.named fs) => some (fs.map (·.2))

/-- estimable_derive/src/lib.rs:107-109, the identifiers `pos0`, `pos1`, … -/
def pos (n : Nat) : List Ident := (List.range n).map fun i => text! "pos" ++ decimal i

/-- estimable_derive/src/lib.rs:70-177 `impl_estimable`. -/
def estimable (i : Input) : Option Length := match i.data with
  | .enum => none
  | .union => none
  | .struct .unit => some (.fixed [])
  | .struct (.unnamed []) => some (.fixed [])
  | .struct (.unnamed [ty]) => some (.estimable (.of ty) (.of ty (.index 0)))
  | .struct (.unnamed tys) =>
    let xs := pos tys.length
    some (.estimable (.call xs xs xs xs tys) (.sum ((List.range tys.length).map .index)))
  | .struct (.named []) => some (.fixed [])
  | .struct (.named fs) =>
    let xs := fs.map (·.1)
    some (.estimable (.call xs xs xs xs (fs.map (·.2))) (.sum (fs.map fun f => .ident f.1)))

/-! ### meaning -/

/-- The fields of a declaration in order. -/
def Body.tys : Body → List Ty
  | .unit => []
  | .unnamed tys => tys
  | .named fs => fs.map (·.2)

/-- The members in order of declaration. -/
def Body.labels : Body → List Ident
  | .unit => []
  | .unnamed _ => []
  | .named fs => fs.map (·.1)

/-- Field types as the fields of a record. -/
def fields : List Ty → Fields
  | [] => .nil
  | ty :: tys => .cons ty.schema (fields tys)

/-- The values of the struct. -/
abbrev Body.Val (b : Body) : Type := (fields b.tys).Val

/-- A value with its type. -/
abbrev Any := (s : Schema) × s.Val

/-- The contents of the fields of a value, in order. -/
def contents : (tys : List Ty) → (fields tys).Val → List Any
  | [], _ => []
  | ty :: tys, x => ⟨ty.schema, x.1⟩ :: contents tys x.2

/-- Look a name up. -/
def find {α : Type} (x : Ident) : List (Ident × α) → Option α
  | [] => none
  | (y, a) :: l => if x = y then some a else find x l

/-- Whether the struct has that member. -/
def Body.has : Body → Member → Bool
  | .unnamed tys, .index i => decide (i < tys.length)
  | .named fs, .ident x => (find x fs).isSome
  | _, _ => false

/-- `self.m` -/
def Body.get (b : Body) (x : b.Val) : Member → Option Any
  | .index i => (contents b.tys x)[i]?
  | .ident y => find y (b.labels.zip (contents b.tys x))

/-- `a + b + … + z`, which adds from the left. -/
def leftSum {τ : Type} (acc : W τ) : List (W τ) → W τ
  | [] => acc
  | w :: ws => leftSum (W.add acc w) ws

/-- What the first operand of `#( self.#m.write_to(buf) + )* resolve_zero!(buf)` is, and the others. -/
def sumThen {τ : Type} : List (W τ) → W τ → W τ
  | [], z => z
  | w :: ws, z => leftSum w (ws ++ [z])

/-- The derived `write_to`. -/
noncomputable def writeTo (cfg : Cfg) (i : Input) (b : Body) :
    Option ({τ : Type} → TargetOps τ → b.Val → W τ) :=
  match encode i with
  | none => none
  | some ms => if i.params = 0 ∧ ms.all b.has = true then
      some fun T x => sumThen (ms.map fun m => match b.get x m with
        | some a => (a.1.codec cfg).write T a.2
        | none => fun _ => none) (W.resolveZero T)
    else none

/-- Evaluating the arguments of `Self(…)` or the initialisers of `Self { … }`, in the order in which they are
written; each `?` ends it. -/
noncomputable def arguments (cfg : Cfg) {σ : Type} (P : ParserOps σ) : List Ty → PM σ (List Any)
  | [] => pure []
  | ty :: tys => do
    let a ← (ty.schema.codec cfg).parse P
    let as ← arguments cfg P tys
    pure (⟨ty.schema, a⟩ :: as)

open Classical in
/-- The value at a given type. -/
noncomputable def Any.at (a : Any) (s : Schema) : Option s.Val := if h : a.1 = s then some (h ▸ a.2) else none

/-- `Self(a, b, …)` -/
noncomputable def tuple : (tys : List Ty) → List Any → Option (fields tys).Val
  | [], [] => some ()
  | ty :: tys, a :: as => match a.at ty.schema, tuple tys as with
    | some x, some xs => some (x, xs)
    | _, _ => none
  | _, _ => none

/-- `Self { x: a, y: b, … }`: each declared field has the value of the initialiser with its name. -/
noncomputable def braces (inits : List (Ident × Any)) : (fs : List (Ident × Ty)) → Option (fields (fs.map (·.2))).Val
  | [] => some ()
  | (x, ty) :: fs => match (find x inits).bind (·.at ty.schema), braces inits fs with
    | some x, some xs => some (x, xs)
    | _, _ => none

/-- No type in the body of `fn parse<P: Parser>(p: &mut P)` may name `P`: it would be the type of the parser, of which
it is not known that it can be decoded. -/
def captured (tys : List Ty) : Bool := tys.any fun ty => ty.names.contains text! "P"

/-- A value that the type checker has made sure of. -/
def sure {σ α : Type} : Option α → PM σ α
  | some a => pure a
  | none => fun _ => .panic

open Classical in
/-- The derived `parse`.  The compiler checks that there are as many arguments as fields, of the same types in the same
order, or that the initialisers have the names of the fields, each once, and their types. -/
noncomputable def parse (cfg : Cfg) (i : Input) (b : Body) : Option ({σ : Type} → ParserOps σ → PM σ b.Val) :=
  match decode i with
  | none => none
  | some build => if i.params ≠ 0 then none else
    match b, build with
    | .unit, .self => some fun _ => pure ()
    | .unnamed tys, .tuple args =>
      if args.map (·.schema) = tys.map (·.schema) ∧ captured args = false then
        some fun P => do
          let as ← arguments cfg P args
          sure (tuple tys as)
      else none
    | .named fs, .braces inits =>
      if (inits.map (·.1)).Nodup ∧ (∀ f ∈ inits, (find f.1 fs).map (·.schema) = some f.2.schema) ∧
          (∀ f ∈ fs, (find f.1 inits).isSome = true) ∧ captured (inits.map (·.2)) = false then
        some fun P => do
          let as ← arguments cfg P (inits.map (·.2))
          sure (braces ((inits.map (·.1)).zip as) fs)
      else none
    | _, _ => none

/-- `<T as FixedLength>::LEN + …`, `0` for none. -/
def lens : List Ty → Option Nat
  | [] => some 0
  | ty :: tys => match ty.len, lens tys with
    | some m, some n => some (m + n)
    | _, _ => none

/-- The derived `LEN`. -/
def len (i : Input) : Option Nat :=
  if i.params = 0 then match fixedLength i with
    | none => none
    | some tys => lens tys
  else none

/-- All the names have a value: the first arm of the `match` in `f` applies. -/
def somes : List (Option Nat) → Option (List Nat)
  | [] => some []
  | none :: _ => none
  | some n :: l => match somes l with
    | none => none
    | some ns => some (n :: ns)

/-- All the names are bound. -/
def finds {α : Type} (l : List (Ident × α)) : List Ident → Option (List α)
  | [] => some []
  | x :: xs => match find x l, finds l xs with
    | some a, some as => some (a :: as)
    | _, _ => none

/-- The derived `KNOWN`; the outer option says whether the compiler accepts it. -/
noncomputable def Known.eval (cfg : Cfg) : Known → Option (Option Nat)
  | .of ty => some (ty.schema.codec cfg).known
  | .call params scrutinee pats sum args =>
    if params.Nodup ∧ params.length = args.length ∧ pats.Nodup ∧ pats.length = scrutinee.length then
      match finds (params.zip (args.map fun ty => (ty.schema.codec cfg).known)) scrutinee with
      | none => none
      | some vs => match somes vs with
        | none => if (finds (pats.map fun x => (x, ())) sum).isSome then some none else none
        | some ns => match finds (pats.zip ns) sum with
          | none => none
          | some ks => some (some ks.sum)
    else none

open Classical in
/-- The derived `unknown`. -/
noncomputable def Unknown.eval (cfg : Cfg) (b : Body) : Unknown → Option (b.Val → Nat)
  | .of ty m => if b.has m ∧ (b.tys.map (·.schema)) = [ty.schema] then
      some fun x => match b.get x m with
        | some a => (a.1.codec cfg).unknown a.2
        | none => 0
    else none
  | .sum ms => if ms.all b.has = true ∧ ms ≠ [] then
      some fun x => (ms.map fun m => match b.get x m with
        | some a => (a.1.codec cfg).unknown a.2
        | none => 0).sum
    else none

/-- src/conv/len.rs:128-141 and 165-174, the blanket implementations: a type with `FixedLength` is `Estimable`. -/
noncomputable def Length.eval (cfg : Cfg) (b : Body) : Length → Option (Option Nat × (b.Val → Nat))
  | .fixed terms => match lens terms with
    | none => none
    | some n => some (some n, fun _ => 1 * n)
  | .estimable known unknown => match known.eval cfg, unknown.eval cfg b with
    | some k, some u => some (k, u)
    | _, _ => none

/-- `KNOWN` and `unknown` after `#[derive(Estimable)]`. -/
noncomputable def estimate (cfg : Cfg) (i : Input) (b : Body) : Option (Option Nat × (b.Val → Nat)) :=
  if i.params = 0 then match estimable i with
    | none => none
    | some l => l.eval cfg b
  else none

/-- The traits a derive macro may implement. -/
inductive Trait where
  | fixedLength
  | scalarLength
  | estimable
  deriving DecidableEq

/-- The implementations that follow from one (src/conv/len.rs:128 and 165). -/
def Trait.blanket : Trait → List Trait
  | .fixedLength => [.fixedLength, .scalarLength, .estimable]
  | .scalarLength => [.scalarLength, .estimable]
  | .estimable => [.estimable]

/-- What `#[derive(Estimable)]` implements. -/
def Length.trait : Length → Trait
  | .fixed _ => .fixedLength
  | .estimable _ _ => .estimable

/-- The compiler rejects two implementations of a trait for one type. -/
def coherent (ts : List Trait) : Bool := decide (ts.flatMap Trait.blanket).Nodup

end Derive
end Verif
