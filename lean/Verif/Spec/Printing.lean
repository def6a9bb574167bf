import Verif.Debug
/-
What must be known of the names in a program, and of how the standard library prints text, for printed values to be
told apart.
-/
namespace Verif

/-- Characters that do not end a name or a number in what `{:?}` prints. -/
def wordChar (c : Char) : Bool := !(c == ',' || c == ' ' || c == ')' || c == ']' || c == '(')

/-- A name: at least one character, no punctuation. -/
def IsName (t : Text) : Prop := t ≠ [] ∧ ∀ c ∈ t, wordChar c = true

/-- The name of a struct. -/
def Shape.name : Shape → Text
  | .tuple name => name
  | .named name _ => name

/-- Names are names, variants of an enum have different names, and text is printed in quotes so that it is clear where
it ends and what it is. -/
structure Printing.Proper (W : Printing) : Prop where
  quote : ∀ a, ∃ t, W.str a = '"' :: t
  str : ∀ a b x y, W.str a ++ x = W.str b ++ y → a = b ∧ x = y
  variant : ∀ tags t, IsName (W.variant tags t)
  variant_ne : ∀ tags t u, t ∈ tags → u ∈ tags → W.variant tags t = W.variant tags u → t = u
  record : ∀ fs, IsName (W.record fs).name
  arm : ∀ vs i, IsName (W.arm vs i).name
  arm_ne : ∀ vs i j, (W.arm vs i).name = (W.arm vs j).name → i = j

end Verif
