import Verif.Lemmas.RecLays
import Verif.Props.Pretty
import Verif.Props.RecDebug
/-
C103 for recursive types: the alternate form `{:#?}` of `Debug`.
-/
namespace Verif.Props

variable (d : Decls) {i : Nat} (cfg : Cfg) (W : Printing)

/-- C103: a value of a recursive type is printed as its definition says, recursive parts as values of their types: on several lines,
or on one line within a `Dynamic` or an enum. -/
theorem C103_recursive_unrolls (n : Nat) (x : (d.unfold (n + 1) i).Val) :
    d.pretty cfg W (d.val (n + 1) x) =
      (d.body i).prettyIn cfg W (fun _ y => d.pretty cfg W (d.val n y)) (fun _ y => d.debug cfg W (d.val n y)) x := by
  rfl

/-- C103: without line breaks and indentation, `{:#?}` is `{:?}`, also for recursive types. -/
theorem C103_recursive_same (hW : W.Tidy) (a : d.Val i) : (d.pretty cfg W a).map Place.mid.join = d.debug cfg W a := by
  obtain ⟨n, x, rfl⟩ := d.exists_val a
  have h := d.laysAt cfg hW n i x
  show (d.prettyAt cfg W n i x).map _ = d.debugAt cfg W n i x
  generalize d.prettyAt cfg W n i x = o at h
  generalize d.debugAt cfg W n i x = o' at h
  cases h with
  | none => rfl
  | some h => exact congrArg some h.join

/-- C103: it panics for the same values, … -/
theorem C103_recursive_panics (hW : W.Tidy) (a : d.Val i) : d.pretty cfg W a = none ↔ d.debug cfg W a = none := by
  rw [← C103_recursive_same d cfg W hW a, Option.map_eq_none_iff]

/-- C103: … and tells the same values apart. -/
theorem C103_recursive_identifies (hW : W.Tidy) (hP : W.Proper) (hf : ∀ j, (d.body j).floatFree = true) (a b : d.Val i)
    (ha : d.pretty cfg W a ≠ none) (h : d.pretty cfg W a = d.pretty cfg W b) : a = b := by
  refine C75_recursive_identifies d cfg W hP hf a b ?_ ?_
  · rwa [Ne, ← C103_recursive_panics d cfg W hW]
  · rw [← C103_recursive_same d cfg W hW, ← C103_recursive_same d cfg W hW, h]

/-! ### examples -/

private def names : Printing where
  float _ := text! "1.5"
  str _ := text! "s"
  variant _ _ := text! "V"
  record _ := .tuple text! "U8Seq"
  arm _ i := .tuple text! "A"

example : names.Tidy where
  float _ := word_text (by decide) (by decide)
  str _ := word_text (by decide) (by decide)
  variant _ _ := word_text (by decide) (by decide)
  record _ := word_text (by decide) (by decide)
  arm _ _ := word_text (by decide) (by decide)

example : u8Seq.pretty ⟨.debug, false, true, true⟩ names u8Seq57 = some text!
"U8Seq(
    5,
    Some(
        U8Seq(
            7,
            None,
        ),
    ),
)" := by with_unfolding_all rfl

end Verif.Props
