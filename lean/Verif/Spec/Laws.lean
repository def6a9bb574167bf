import Verif.Spec.Decode
/-
SPECIFICATION vocabulary: what one can ask of an encoder/decoder pair.
-/
namespace Verif

/-- What may follow an encoding in the same window without disturbing its decoding. -/
inductive Tail where
  /-- anything: the encoding is self-delimiting -/
  | any
  /-- exactly `n` bytes, which the decoder leaves unread -/
  | exact (n : Nat)
  deriving DecidableEq, Repr

def Tail.Allows : Tail → Bytes → Prop
  | .any, _ => True
  | .exact n, t => t.length = n

/-- Decoding an encoding gives back the value and leaves exactly what followed. -/
def RoundTrips {α : Type} (e : α → Option Bytes) (d : D α) (V : α → Prop) (k : Tail) : Prop :=
  ∀ x b t, V x → e x = some b → k.Allows t → d (b ++ t) = .ok x t

/-- Decoding reads a prefix. -/
def ReadsPrefix {α : Type} (d : D α) : Prop := ∀ v a rest, d v = .ok a rest → ∃ p, v = p ++ rest

/-- Bytes after the end of what is read do not matter. -/
def Local {α : Type} (d : D α) : Prop := ∀ v a rest t, d v = .ok a rest → d (v ++ t) = .ok a (rest ++ t)

/-- Decoding yields a value or an error. -/
def Returns {α : Type} (r : DecRes α) : Prop := (∃ a rest, r = .ok a rest) ∨ ∃ e, r = .err e

def Total {α : Type} (d : D α) : Prop := ∀ v, Returns (d v)

/-- Successful decoding uses at least one byte. -/
def Progress {α : Type} (d : D α) : Prop := ∀ v a rest, d v = .ok a rest → rest.length < v.length

/-- Encodings have at least one byte. -/
def NonEmpty {α : Type} (e : α → Option Bytes) (V : α → Prop) : Prop := ∀ x b, V x → e x = some b → b ≠ []

/-- Decoded values are valid and can be encoded, in no more bytes than were read. -/
def Reencodes {α : Type} (e : α → Option Bytes) (d : D α) (V : α → Prop) : Prop :=
  ∀ v a rest, d v = .ok a rest → V a ∧ ∃ b, e a = some b ∧ b.length + rest.length ≤ v.length

/-- Decoded values are encoded as the very bytes read. -/
def Canonical {α : Type} (e : α → Option Bytes) (d : D α) : Prop :=
  ∀ v a rest, d v = .ok a rest → ∃ b, e a = some b ∧ v = b ++ rest

end Verif
