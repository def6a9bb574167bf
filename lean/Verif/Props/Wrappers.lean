import Verif.Wrappers
/-
C102: accessors of wrappers.
-/
namespace Verif.Props

open Wrappers Wrappers.Ty

/-- What is held apart from wrappers: a value, perhaps a value, or several ones. -/
inductive Held (α : Type) where
  | one (a : α)
  | opt (o : Option (Held α))
  | list (l : List (Held α))

/-- What a value holds if wrappers are ignored. -/
def held {α : Type} : (t : Ty) → t.Val α → Held α
  | plain, x => .one x
  | box t, x => held t x
  | autobox t, x => held t x.box
  | dynamic _ t, x => held t x.contents
  | padded _ t, x => held t x.val
  | vpadded _ t, x => held t x.val
  | option t, x => .opt (Option.map (held t) x)
  | nullable t, x => .opt (x.opt.map (held t))
  | vec t, x | slice t, x | iter t, x => .list (List.map (held t) x)
  | seq t, x => .list (x.vec.map (held t))
  | fixSeq _ t, x => .list (x.inner.map (held t))
  | limSeq _ t, x => .list (x.inner.map (held t))

theorem map_inj {α β : Type} {f : α → β} (h : ∀ x y, f x = f y → x = y) : ∀ l l' : List α, l.map f = l'.map f → l = l'
  | [], [], _ => rfl
  | [], _ :: _, e => nomatch e
  | _ :: _, [], e => nomatch e
  | x :: l, y :: l', e => by
    simp only [List.map_cons, List.cons.injEq] at e
    rw [h x y e.1, map_inj h l l' e.2]

theorem option_inj {α β : Type} {f : α → β} (h : ∀ x y, f x = f y → x = y) : ∀ o o' : Option α, o.map f = o'.map f → o = o'
  | none, none, _ => rfl
  | none, some _, e => nomatch e
  | some _, none, e => nomatch e
  | some x, some y, e => congrArg some (h x y (Option.some.inj e))

/-- C102: nothing else is in a value: two values of one type that hold the same are equal. -/
theorem C102_unique {α : Type} : ∀ (t : Ty) (x y : t.Val α), held t x = held t y → x = y
  | plain, _, _, h => Held.one.inj h
  | box t, x, y, h => C102_unique t x y h
  | autobox t, ⟨x⟩, ⟨y⟩, h => congrArg AutoBox.mk (C102_unique t x y h)
  | dynamic _ t, ⟨x⟩, ⟨y⟩, h => congrArg Wrappers.Dynamic.mk (C102_unique t x y h)
  | padded _ t, ⟨x⟩, ⟨y⟩, h => congrArg Padded.mk (C102_unique t x y h)
  | vpadded _ t, ⟨x⟩, ⟨y⟩, h => congrArg VPadded.mk (C102_unique t x y h)
  | option t, x, y, h => option_inj (C102_unique t) x y (Held.opt.inj h)
  | nullable t, ⟨x⟩, ⟨y⟩, h => congrArg Nullable.mk (option_inj (C102_unique t) x y (Held.opt.inj h))
  | vec t, x, y, h | slice t, x, y, h | iter t, x, y, h => map_inj (C102_unique t) x y (Held.list.inj h)
  | seq t, ⟨x⟩, ⟨y⟩, h => congrArg Sequence.mk (map_inj (C102_unique t) x y (Held.list.inj h))
  | fixSeq _ t, ⟨x⟩, ⟨y⟩, h => congrArg FixSeq.mk (map_inj (C102_unique t) x y (Held.list.inj h))
  | limSeq _ t, ⟨x⟩, ⟨y⟩, h => congrArg LimSeq.mk (map_inj (C102_unique t) x y (Held.list.inj h))

/-- `Nullable::from(x)` is the one call that adds something: that `x` is there. -/
def adds : {s t : Ty} → Step s t → Bool
  | _, _, .nullableFrom => true
  | _, _, _ => false

/-- C102, one call: what is held stays the same; `Nullable::from(x)` holds `Some(x)`. -/
theorem C102_step {α : Type} {s t : Ty} (c : Step s t) (x : s.Val α) :
    held t (c.run x) = if adds c then .opt (some (held s x)) else held s x := by
  cases c <;> rfl

/-- The path has no call that adds something. -/
def keeps : {s t : Ty} → Path s t → Bool
  | _, _, .nil => true
  | _, _, .cons c p => !adds c && keeps p

/-- C102: any number of calls in a row, … -/
theorem C102_path {α : Type} {s t : Ty} (p : Path s t) (h : keeps p = true) (x : s.Val α) : held t (p.run x) = held s x := by
  induction p with
  | nil => rfl
  | cons c p ih =>
    simp only [keeps, Bool.and_eq_true, Bool.not_eq_true'] at h
    rw [Path.run, ih h.2, C102_step, h.1]
    rfl

/-- C102: … in whatever way, lead to the same value, … -/
theorem C102_confluent {α : Type} {s t : Ty} (p q : Path s t) (hp : keeps p = true) (hq : keeps q = true) (x : s.Val α) :
    p.run x = q.run x := C102_unique t _ _ (by rw [C102_path p hp, C102_path q hq])

/-- C102: … and back to the value one began with. -/
theorem C102_back {α : Type} {t : Ty} (p : Path t t) (h : keeps p = true) (x : t.Val α) : p.run x = x :=
  C102_confluent p .nil h rfl x

/-- C102: what is written through a mutable reference is what one would get by taking out what is held, changing it, and wrapping it
again: there is exactly one `y` that can be taken out, and the whole holds the changed `y` afterwards. -/
theorem C102_modify {α : Type} {s t : Ty} (v : View s t) (f : t.Val α → t.Val α) (x : s.Val α) :
    ∃ y, (∀ z, held t z = held s x ↔ z = y) ∧ held s (v.modify f x) = held t (f y) := by
  have key : ∃ y, held t y = held s x ∧ held s (v.modify f x) = held t (f y) := by
    cases v <;> exact ⟨_, rfl, rfl⟩
  obtain ⟨y, h1, h2⟩ := key
  exact ⟨y, fun z => ⟨fun h => C102_unique t z y (h.trans h1.symm), fun h => by rw [h, h1]⟩, h2⟩

/-- C102: the other accessors of `Nullable`, `Padded` and `Sequence` tell what is held. -/
theorem C102_observers {α : Type} (t : Ty) (x : Nullable (t.Val α)) (n : Nat) (p : Padded n (t.Val α)) (q : Sequence (t.Val α))
    (more : List (t.Val α)) (i : Nat) :
    (x.isSome = true ↔ ∃ h, held (nullable t) x = .opt (some h)) ∧ (x.isNone = true ↔ held (nullable t) x = .opt none) ∧
    held (nullable t) (Nullable.default (α := t.Val α)) = .opt none ∧ p.padding = n ∧
    held (seq t) (Sequence.new (α := t.Val α)) = .list [] ∧
    (∀ l, held (seq t) q = .list l → held (seq t) (q.extend more) = .list (l ++ more.map (held t)) ∧
      (q.index i).map (held t) = l[i]?) := by
  refine ⟨?_, ?_, rfl, rfl, rfl, fun l h => ?_⟩
  · obtain ⟨_ | a⟩ := x
    · exact ⟨nofun, fun ⟨_, h⟩ => nomatch Held.opt.inj h⟩
    · exact ⟨fun _ => ⟨_, rfl⟩, fun _ => rfl⟩
  · obtain ⟨_ | a⟩ := x
    · exact ⟨fun _ => rfl, fun _ => rfl⟩
    · exact ⟨nofun, fun h => nomatch Held.opt.inj h⟩
  · cases Held.list.inj h
    refine ⟨congrArg Held.list List.map_append, ?_⟩
    rw [List.getElem?_map]
    rfl

/-! ### examples -/

/-- `AutoBox::from(Box::new(Dynamic::<u8, _>::new(Padded::<_, 4>::from(x))))` and back again. -/
example : let p : Path plain plain := .cons (.paddedFrom 4) (.cons (.dynamicNew .u8) (.cons .boxNew (.cons .autoboxFromBox
      (.cons .autoboxClone (.cons .autoboxIntoInner (.cons .dynamicBorrow (.cons .paddedIntoInner .nil)))))))
    keeps p = true ∧ p.run (α := Nat) (7 : Nat) = (7 : Nat) := ⟨rfl, rfl⟩

/-- A list of optional values, through `Sequence<Nullable<_>>`. -/
example : held (α := Bool) (seq (nullable plain)) ⟨[⟨some true⟩, ⟨none⟩]⟩ = .list [.opt (some (.one true)), .opt none] := rfl

example : (View.autoboxInner (t := seq plain)).modify (α := Bool) (fun s => s.extend [true]) ⟨⟨[false, true]⟩⟩ = ⟨⟨[false, true, true]⟩⟩ := rfl

end Verif.Props
