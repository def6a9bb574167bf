import Verif.Display
/-
SPECIFICATION of printed numbers: what a text with digits denotes, and where it is in the space provided for it.
-/
namespace Verif

/-- The value of a digit; letters of either case are digits from 10 on. -/
def digitVal (c : Char) : Option Nat :=
  if 48 ≤ c.toNat ∧ c.toNat ≤ 57 then some (c.toNat - 48)
  else if 97 ≤ c.toNat ∧ c.toNat ≤ 102 then some (c.toNat - 97 + 10)
  else if 65 ≤ c.toNat ∧ c.toNat ≤ 70 then some (c.toNat - 65 + 10)
  else none

def readDigit (b n : Nat) (c : Char) : Option Nat :=
  match digitVal c with
  | some d => if d < b then some (b * n + d) else none
  | none => none

def readDigits (b n : Nat) (t : Text) : Option Nat := t.foldlM (readDigit b) n

/-- The number that digits denote in base `b`. -/
def numeral (b : Nat) (t : Text) : Option Nat := readDigits b 0 t

/-- No lower-case letters (or no upper-case letters) as digits. -/
def ofCase (upper : Bool) (c : Char) : Prop :=
  if upper then ¬(97 ≤ c.toNat ∧ c.toNat ≤ 122) else ¬(65 ≤ c.toNat ∧ c.toNat ≤ 90)

instance (upper : Bool) (c : Char) : Decidable (ofCase upper c) := by unfold ofCase; exact inferInstance

/-- `l` fill characters on the left and `r` on the right: where the alignment wants the text. -/
def Placed (a : Align) (l r : Nat) : Prop := match a with
  | .left => l = 0
  | .right => r = 0
  | .center => l ≤ r ∧ r ≤ l + 1

/-- The text shows `n` in base `b`: sign, mark of the base if it is wanted, digits without leading zeros, as wide as wanted;
what is missing is filled with zeros if that is wanted and with the fill character otherwise. -/
def Printed (f : FmtSpec) (sign mark : Text) (b : Nat) (upper : Bool) (n : Nat) (t : Text) : Prop :=
  ∃ l z r ds, t = List.replicate l f.fill ++ (sign ++ (if f.alternate then mark else []) ++ (List.replicate z '0' ++ ds)) ++
      List.replicate r f.fill ∧
    numeral b ds = some n ∧ ds ≠ [] ∧ (ds.head? = some '0' → ds = ['0']) ∧ (∀ c ∈ ds, ofCase upper c) ∧
    t.length = max f.width (sign.length + (if f.alternate then mark.length else 0) + ds.length) ∧
    if f.zero then l = 0 ∧ r = 0 else z = 0 ∧ Placed (f.align.getD .right) l r

end Verif
