import Verif.Validator
import Verif.Refine.Backend
import Verif.Refine.Codec
/-
C83: a tag is accepted exactly if the validator says so, and all containers of tags are validators of what they contain.
-/
namespace Verif.Props

open Codec

/-- The container has the tag among its elements. -/
def TagHas : TagSet → Nat → Prop
  | .array l, t | .arrayRef l, t | .slice l, t | .vec l, t | .vecRef l, t | .hashSet l _, t => t ∈ l

/-- C83: containers of tags are validators of what they contain: a tag is valid iff it is an element, there are valid tags
iff there are elements, and the tags listed are the elements. -/
theorem C83_containers (c : TagSet) :
    (∀ t, c.validator.isValid t = true ↔ TagHas c t) ∧ (c.validator.hasValid = true ↔ ∃ t, TagHas c t) ∧
    ∀ t, t ∈ c.validator.intoValid ↔ TagHas c t := by
  have hne : ∀ l : List Nat, (!l.isEmpty) = true ↔ ∃ t, t ∈ l := fun l => by cases l <;> simp
  have hlen : ∀ l : List Nat, decide (l.length > 0) = true ↔ ∃ t, t ∈ l := fun l => by cases l <;> simp
  cases c <;>
    refine ⟨fun t => by simp [TagSet.validator, containsTag, TagHas], ?_, fun t => Iff.rfl⟩ <;>
    first | exact hne _ | exact hlen _

/-- C83: whatever the validator, `take_tagword` reads a tag on every parser, in every state, as if there were no
validator; returns it iff the validator accepts it, and lists the valid tags otherwise, if there are any. -/
theorem C83_read (p : Profile) (w : TagWidth) (V : Validator) (k : Backend) (v : Bytes) (vs : List Bytes) (st : k.State)
    (hs : k.Holds v vs st) :
    if w.len ≤ v.length then
      let t := ofBe (v.take w.len)
      ∃ st', k.Holds (v.drop w.len) vs st' ∧
        ParserOps.takeTagwordBy w (w.parse (k.ops p)) V st =
          if V.isValid t then .ok t st'
          else if V.hasValid then .err (.token (.invalidTag w t (some V.intoValid))) st'
          else .err (.internal .noValidTags) st'
    else ∃ e st', ParserOps.takeTagwordBy w (w.parse (k.ops p)) V st = .err e st' ∧
      e.kind = .window (.consumeWouldExceedLimit 0 w.len v.length) := by
  have hm := Refines.consumeArr (pan' := False) (k.lawful p) w.len v vs st hs
  unfold D.take at hm
  split
  · rename_i hl
    rw [if_pos hl] at hm
    obtain ⟨st', h1, h2⟩ := hm
    refine ⟨st', h2, ?_⟩
    simp only [ParserOps.takeTagwordBy, TagWidth.parse, M.bind_run, M.map_run, ParserOps.takeFixed, h1, Out.bind]
    split
    · rfl
    · split <;> rfl
  · rename_i hl
    rw [if_neg hl, D.short, if_pos (by cases w <;> decide)] at hm
    rcases hm with ⟨e, st', h1, h2⟩ | ⟨h, _⟩
    · refine ⟨e, st', ?_, h2⟩
      simp only [ParserOps.takeTagwordBy, TagWidth.parse, M.bind_run, M.map_run, ParserOps.takeFixed, h1, Out.bind]
    · exact h.elim

/-- The error with the valid tags sorted in another way. -/
inductive SameError : ParseError → ParseError → Prop
  | same (e) : SameError e e
  | tags (w : TagWidth) (t : Nat) (l l' : List Nat) : (∀ x, x ∈ l ↔ x ∈ l') →
      SameError (.token (.invalidTag w t (some l))) (.token (.invalidTag w t (some l')))

/-- C83: so it does not matter which container the tags are in: two containers with the same elements accept the same
input, on any parser, in any state, and the errors differ at most in the order of the valid tags. -/
theorem C83_same {σ : Type} (c c' : TagSet) (h : ∀ t, TagHas c t ↔ TagHas c' t) (w : TagWidth) (f : PM σ Nat) (s : σ) :
    match ParserOps.takeTagwordBy w f c.validator s, ParserOps.takeTagwordBy w f c'.validator s with
    | .err e s1, .err e' s1' => SameError e e' ∧ s1 = s1'
    | o, o' => o = o' := by
  obtain ⟨h1, h2, h3⟩ := C83_containers c
  obtain ⟨h1', h2', h3'⟩ := C83_containers c'
  have hv : ∀ t, c.validator.isValid t = c'.validator.isValid t := fun t =>
    Bool.eq_iff_iff.mpr ((h1 t).trans ((h t).trans (h1' t).symm))
  have hh : c.validator.hasValid = c'.validator.hasValid :=
    Bool.eq_iff_iff.mpr (h2.trans ((exists_congr h).trans h2'.symm))
  simp only [ParserOps.takeTagwordBy, M.bind_run]
  cases f s with
  | ok t s' =>
    simp only [Out.bind, hv, hh]
    by_cases hi : c'.validator.isValid t = true
    · rw [if_pos hi, if_pos hi]; rfl
    · rw [if_neg hi, if_neg hi]
      by_cases hj : c'.validator.hasValid = true
      · rw [if_pos hj, if_pos hj]
        exact ⟨.tags _ _ _ _ fun x => (h3 x).trans ((h x).trans (h3' x).symm), rfl⟩
      · rw [if_neg hj, if_neg hj]; exact ⟨.same _, rfl⟩
  | err e s' => exact ⟨.same _, rfl⟩
  | _ => rfl

/-- C83: the contract of `take_tagword`: whatever it returns is valid. -/
theorem C83_contract {σ : Type} (c : TagSet) (w : TagWidth) (f : PM σ Nat) (s s' : σ) (t : Nat)
    (h : ParserOps.takeTagwordBy w f c.validator s = .ok t s') : TagHas c t ∧ f s = .ok t s' := by
  simp only [ParserOps.takeTagwordBy, M.bind_run] at h
  cases hf : f s with
  | ok t' s1 =>
    rw [hf] at h
    simp only [Out.bind] at h
    split at h
    · rename_i hv; cases h; exact ⟨((C83_containers c).1 _).mp hv, rfl⟩
    · split at h <;> cases h
  | _ => rw [hf] at h; cases h

/-- `Option`, `cstyle!` and `data!` validate with arrays. -/
theorem C83_array {σ : Type} (w : TagWidth) (f : PM σ Nat) (tags : List Nat) :
    ParserOps.takeTagword w f tags = ParserOps.takeTagwordBy w f (TagSet.array tags).validator := by
  funext s
  simp only [ParserOps.takeTagword, ParserOps.takeTagwordBy, M.bind_run, TagSet.validator, containsTag]
  cases f s with
  | ok t s' =>
    simp only [Out.bind]
    cases tags <;> rfl
  | _ => rfl

/-- A validator for the tags `l` as the documentation of the trait demands it: "`has_valid`: Returns `true` if and only if
there are no valid tags." -/
def Documented (V : Validator) (l : List Nat) : Prop :=
  (∀ t, V.isValid t = true ↔ t ∈ l) ∧ (V.hasValid = true ↔ ¬ ∃ t, V.isValid t = true) ∧ ∀ t, t ∈ V.intoValid ↔ t ∈ l

/-- C83 fails for validators that follow the documentation of `has_valid`: no container does, and with those that do an
invalid tag is reported as if there were no valid ones, and if there are none as if there were some. -/
theorem C83_documented_fails :
    (∀ c l, ¬ Documented (TagSet.validator c) l) ∧
    ∀ V l, Documented V l → ∀ (σ : Type) (w : TagWidth) (f : PM σ Nat) (s s' : σ) (t : Nat), t ∉ l → f s = .ok t s' →
      ParserOps.takeTagwordBy w f V s =
        if l = [] then .err (.token (.invalidTag w t (some []))) s' else .err (.internal .noValidTags) s' := by
  refine ⟨fun c l ⟨_, h, _⟩ => ?_, fun V l ⟨h1, h2, h3⟩ σ w f s s' t ht hf => ?_⟩
  · obtain ⟨h1, h2, _⟩ := C83_containers c
    rw [h2] at h
    simp only [h1] at h
    exact iff_not_self h
  · have hv : V.isValid t = false := by
      cases hb : V.isValid t with
      | false => rfl
      | true => exact absurd ((h1 t).mp hb) ht
    simp only [ParserOps.takeTagwordBy, M.bind_run, hf, Out.bind, hv, Bool.false_eq_true, if_false]
    cases l with
    | nil =>
      have : V.hasValid = true := h2.mpr fun ⟨t, h⟩ => nomatch (h1 t).mp h
      have hl : V.intoValid = [] := List.eq_nil_iff_forall_not_mem.mpr fun x hx => nomatch (h3 x).mp hx
      rw [if_pos this, if_pos rfl, hl]
      rfl
    | cons a l =>
      have : V.hasValid ≠ true := fun h => h2.mp h ⟨a, (h1 a).mpr (.head _)⟩
      rw [if_neg this, if_neg nofun]
      rfl

/-- A set and an array with the same tags, and an input with an invalid tag. -/
example (p : Profile) : (∀ t, TagHas (.hashSet [7, 1] (by decide)) t ↔ TagHas (.array [1, 7, 1]) t) ∧
    ∃ s, ParserOps.takeTagwordBy .u16 (TagWidth.parse .u16 (Backend.byte.ops p)) (TagSet.vec [1, 256]).validator
      (Backend.byte.init [1, 2, 3]) = .err (.token (.invalidTag .u16 258 (some [1, 256]))) s := by
  refine ⟨fun t => ?_, by cases p <;> exact ⟨_, rfl⟩⟩
  simp only [TagHas, List.mem_cons, List.not_mem_nil, or_false]
  omega

/-- Validators can be written as documented. -/
example : Documented ⟨fun t => t == 5, false, [5]⟩ [5] := by
  refine ⟨fun t => by simp, ?_, fun t => Iff.rfl⟩
  simp

end Verif.Props
