import Verif.Target
import Verif.Refine.SplitVec
/-
What codecs may rely on about targets: `R w t` – target `t` has received exactly the bytes `w`.
-/
namespace Verif

structure LawfulTarget {τ : Type} (T : TargetOps τ) (R : Bytes → τ → Prop) : Prop where
  anticipate : ∀ {w t} (n : Nat), R w t → R w (T.anticipate n t)
  pushOne : ∀ {w t} (b : Byte), R w t → (T.pushOne b t).1 = 1 ∧ R (w ++ [b]) (T.pushOne b t).2
  pushMany : ∀ {w t} (a : Bytes), R w t → (T.pushMany a t).1 = a.length ∧ R (w ++ a) (T.pushMany a t).2
  pushAll : ∀ {w t} (a : Bytes), R w t → (T.pushAll a t).1 = a.length ∧ R (w ++ a) (T.pushAll a t).2
  resolve : ∀ {w t}, R w t → R w (T.resolve t)

theorem vecLawful : LawfulTarget vecTarget (fun w t => t = w) := by
  constructor <;> simp [vecTarget]

theorem sinkLawful : LawfulTarget sinkTarget (fun _ _ => True) := by
  constructor <;> simp [sinkTarget]

theorem strictLawful : LawfulTarget strictTarget (fun w t => t.vec = w) := by
  constructor <;> simp [strictTarget, vecTarget]

theorem hexLawful : LawfulTarget hexTarget (fun w t => t.bytes = w) := by
  constructor <;> simp [hexTarget, vecTarget]

/-- The memo builder additionally keeps its books. -/
def MemoBuilder.Holds (w : Bytes) (t : MemoBuilder) : Prop := ∃ g, t.segs.Rep g ∧ g.contents = w

theorem Segs.contents_extend {α : Type} (g : Segs α) (xs : List α) : (g.extend xs).contents = g.contents ++ xs := by
  obtain ⟨closed, cur⟩ := g
  cases cur <;> simp [Segs.extend, Segs.contents, Segs.segments]

theorem Segs.contents_split {α : Type} (g : Segs α) : g.split.contents = g.contents := by
  simp [Segs.split, Segs.contents, Segs.segments]

theorem memoCreate : MemoBuilder.Holds [] memoTarget.create := ⟨_, .new, rfl⟩

theorem memoTargetLawful : LawfulTarget memoTarget MemoBuilder.Holds where
  anticipate _ h := h
  pushOne b h := by
    obtain ⟨g, hr, rfl⟩ := h
    exact ⟨rfl, g.extend [b], hr.extendFromSlice [b], g.contents_extend [b]⟩
  pushMany a h := by
    obtain ⟨g, hr, rfl⟩ := h
    exact ⟨rfl, g.extend a, hr.extendFromSlice a, g.contents_extend a⟩
  pushAll a h := by
    obtain ⟨g, hr, rfl⟩ := h
    exact ⟨rfl, g.extend a, hr.extendFromSlice a, g.contents_extend a⟩
  resolve h := by
    obtain ⟨g, hr, rfl⟩ := h
    exact ⟨g.split, hr.split, g.contents_split⟩

/-- What a writing step does on a lawful target: panic exactly if the encoding is undefined, otherwise
append the encoding and return its length. -/
def Appends {τ : Type} (R : Bytes → τ → Prop) (f : W τ) (e : Option Bytes) : Prop :=
  ∀ w t, R w t → match e with
    | none => f t = none
    | some e => ∃ t', f t = some (e.length, t') ∧ R (w ++ e) t'

section

variable {τ : Type} {T : TargetOps τ} {R : Bytes → τ → Prop}

theorem Appends.add {f g : W τ} {e e' : Option Bytes} (hf : Appends R f e) (hg : Appends R g e') :
    Appends R (W.add f g) (do let a ← e; let b ← e'; pure (a ++ b)) := by
  intro w t h
  have h1 := hf w t h
  cases e with
  | none => simp only at h1; simp [W.add, h1]
  | some a =>
    obtain ⟨t1, h1, r1⟩ := h1
    have h2 := hg _ _ r1
    cases e' with
    | none => simp only at h2; simp [W.add, h1, h2]
    | some b =>
      obtain ⟨t2, h2, r2⟩ := h2
      refine ⟨t2, by simp [W.add, h1, h2], ?_⟩
      rw [← List.append_assoc]
      exact r2

theorem Appends.cast {f : W τ} {e e' : Option Bytes} (hf : Appends R f e) (h : e = e') : Appends R f e' := h ▸ hf

theorem Appends.zero : Appends R (W.zero : W τ) (some []) := by
  intro w t h
  exact ⟨t, rfl, by simpa using h⟩

theorem Appends.resolveZero (L : LawfulTarget T R) : Appends R (W.resolveZero T) (some []) := by
  intro w t h
  exact ⟨_, rfl, by simpa using L.resolve h⟩

theorem Appends.addResolve (L : LawfulTarget T R) {f : W τ} {e : Option Bytes} (hf : Appends R f e) :
    Appends R (W.add f (W.resolveZero T)) e :=
  (hf.add (Appends.resolveZero L)).cast (by cases e <;> simp)

theorem Appends.pushOne (L : LawfulTarget T R) (b : Byte) : Appends R (W.push (T.pushOne b)) (some [b]) := by
  intro w t h
  obtain ⟨h1, h2⟩ := L.pushOne b h
  exact ⟨_, by rw [W.push]; exact congrArg some (Prod.ext h1 rfl), h2⟩

theorem Appends.pushMany (L : LawfulTarget T R) (a : Bytes) : Appends R (W.push (T.pushMany a)) (some a) := by
  intro w t h
  obtain ⟨h1, h2⟩ := L.pushMany a h
  exact ⟨_, by rw [W.push]; exact congrArg some (Prod.ext h1 rfl), h2⟩

theorem Appends.pushAll (L : LawfulTarget T R) (a : Bytes) : Appends R (W.push (T.pushAll a)) (some a) := by
  intro w t h
  obtain ⟨h1, h2⟩ := L.pushAll a h
  exact ⟨_, by rw [W.push]; exact congrArg some (Prod.ext h1 rfl), h2⟩

theorem Appends.panic : Appends R (W.panic : W τ) none := fun _ _ _ => rfl

end

end Verif
