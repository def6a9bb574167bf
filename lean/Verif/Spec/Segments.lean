/-
SPECIFICATION of segmented buffers: a list of closed segments plus possibly an open one.
-/
namespace Verif

structure Segs (α : Type) where
  closed : List (List α)
  cur : Option (List α)
  deriving DecidableEq, Repr

namespace Segs

variable {α : Type}

def empty : Segs α := { closed := [], cur := none }

/-- All segments in order, the open one last. -/
def segments (g : Segs α) : List (List α) := g.closed ++ g.cur.toList

/-- The stored elements in order. -/
def contents (g : Segs α) : List α := g.segments.flatten

/-- Append to the open segment, opening one if necessary. -/
def extend (g : Segs α) (xs : List α) : Segs α := { g with cur := some (g.cur.getD [] ++ xs) }

/-- Close the open segment, if there is one. -/
def split (g : Segs α) : Segs α := { closed := g.segments, cur := none }

/-- Close the open segment; an empty segment is added if there is none. -/
def splitForce (g : Segs α) : Segs α := { closed := g.closed ++ [g.cur.getD []], cur := none }

/-- Close the open segment and put `h` behind it. -/
def concat (g h : Segs α) : Segs α := { closed := g.segments ++ h.closed, cur := h.cur }

end Segs

/-- Operations on a family of buffers named by numbers. -/
inductive SegOp (α : Type) where
  | new (i : Nat) | fromVec (i : Nat) (xs : List α) | fromIter (i : Nat) (ls : List (List α))
  | push (i : Nat) (x : α)
  | extendCurrent (i : Nat) (xs : List α) | extendFromSlice (i : Nat) (xs : List α) | append (i : Nat) (xs : List α)
  | split (i : Nat) | splitForce (i : Nat) | cleave (i : Nat)
  | extend (i : Nat) (ls : List (List α))
  | concat (i j : Nat)   -- `i.concat(&mut j)`; no effect if `i = j` (Rust does not allow it)

/-- Change one entry of a family. -/
def update {β : Type} (f : Nat → β) (i : Nat) (b : β) : Nat → β := fun k => if k = i then b else f k

namespace Segs

variable {α : Type}

/-- The meaning of the operations on the specification side. -/
def step (m : Nat → Segs α) : SegOp α → (Nat → Segs α)
  | .new i => update m i .empty
  | .fromVec i xs => update m i { closed := [], cur := some xs }
  | .fromIter i ls => update m i { closed := ls, cur := none }
  | .push i x => update m i ((m i).extend [x])
  | .extendCurrent i xs => update m i ((m i).extend xs)
  | .extendFromSlice i xs => update m i ((m i).extend xs)
  | .append i xs => update m i ((m i).extend xs)
  | .split i => update m i (m i).split
  | .splitForce i => update m i (m i).splitForce
  | .cleave i => update m i (m i).split.splitForce
  | .extend i ls => update m i { closed := (m i).segments ++ ls, cur := none }
  | .concat i j => if i = j then m else update (update m i ((m i).concat (m j))) j .empty

def run (ops : List (SegOp α)) (m : Nat → Segs α) : Nat → Segs α := ops.foldl step m

end Segs

end Verif
