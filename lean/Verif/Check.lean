import Verif.Decode
import Verif.Builder
/-
The executable: src/main.rs.
-/
namespace Verif

/-- Going on with the value of a call that returned one. -/
def DecodeOut.andThen {α β : Type} (o : DecodeOut α) (f : α → DecodeOut β) : DecodeOut β :=
  match o with
  | .ok a _ => f a
  | .err e s => .err e s
  | .panic => .panic
  | .ub => .ub
  | .diverge => .diverge

/-- `assert_eq!`. -/
def assertThat (b : Bool) : DecodeOut Unit := if b then .ok () () else .panic

/-- `T::encode::<StrictBuilder>(&v)`. -/
def Codec.encodeStrict {α : Type} (c : Codec α) (v : α) : DecodeOut StrictBuilder :=
  match c.encode strictTarget v with
  | some b => .ok b ()
  | none => .panic

/-- src/main.rs:5-22 `check`; `eq` is the `Eq` of the type.  Texts are taken as hex (feature `implicit_hexstring`). -/
noncomputable def Codec.check {α : Type} (c : Codec α) (cfg : Cfg) (eq : α → α → Bool) (hex : List Char) (v : α) : DecodeOut Unit :=
  (c.decode cfg true (.text hex)).andThen fun a => (assertThat (eq a v)).andThen fun _ =>
  (c.encodeStrict v).andThen fun b => (assertThat (StrictBuilder.ops.intoHex b == hex)).andThen fun _ =>
  (c.encodeStrict v).andThen fun b => (c.decode cfg true (.bytes (StrictBuilder.ops.intoVec b))).andThen fun a =>
    (assertThat (eq a v)).andThen fun _ =>
  (c.decode cfg true (.text hex)).andThen fun a => (c.encodeStrict a).andThen fun b =>
    assertThat (StrictBuilder.ops.intoHex b == hex)

end Verif
