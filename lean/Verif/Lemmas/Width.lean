import Verif.ByteParser
import Verif.SliceParser
import Verif.Spec.Cursor
/-
Running the parsers on concrete inputs with requests near `usize::MAX`, whatever the width of `usize` is.
-/
namespace Verif

theorem uadd_over {a b : Nat} (h : usizeMod ≤ a + b) : uadd .debug a b = none := by
  simp [uadd, Nat.not_lt.mpr h]

theorem uadd_back {a b : Nat} (h : usizeMod ≤ a + b) (h' : a + b < usizeMod + usizeMod) :
    uadd .release a b = some (a + b - usizeMod) := by
  simp only [uadd, if_neg (Nat.not_lt.mpr h), Option.some.injEq]
  rw [Nat.mod_eq_sub_mod h, Nat.mod_eq_of_lt (by omega)]

theorem usub_over {a b : Nat} (h : a < b) : usub .debug a b = none := by
  simp [usub, Nat.not_le.mpr h]

theorem usub_back {a b : Nat} (h : a < b) (h' : b ≤ a + usizeMod) (h'' : 0 < usizeMod) :
    usub .release a b = some (usizeMod - (b - a)) := by
  simp only [usub, if_neg (Nat.not_le.mpr h), Option.some.injEq]
  rw [Nat.mod_eq_of_lt (by omega)]
  omega

theorem usub_back' {a k : Nat} (h : a + k < usizeMod) : usub .release a (usizeMod - k) = some (a + k) := by
  rw [usub_back (by omega) (by omega) (by omega)]
  congr 1
  omega

theorem uadd_back' {a k : Nat} (h : k ≤ a) (h' : a < usizeMod) (hk : 0 < k) (hm : k ≤ usizeMod) :
    uadd .release a (usizeMod - k) = some (a - k) := by
  rw [uadd_back (by omega) (by omega), show a + (usizeMod - k) - usizeMod = a - k by omega]

theorem le_is_true {a b : Nat} (h : a ≤ b) : (a ≤ b) = True := eq_true h
theorem le_is_false {a b : Nat} (h : b < a) : (a ≤ b) = False := eq_false (Nat.not_le.mpr h)
theorem lt_is_true {a b : Nat} (h : a < b) : (a < b) = True := eq_true h
theorem lt_is_false {a b : Nat} (h : b ≤ a) : (a < b) = False := eq_false (Nat.not_lt.mpr h)

/-- Unfolds the parsers' methods; sums, differences and comparisons are settled by `omega`. -/
macro "run_wide" "[" ls:Lean.Parser.Tactic.simpLemma,* "]" : tactic => `(tactic| (
  have hwide := usizeMod_ge
  simp (disch := omega) [ParserOps.trace, ParserOps.exec, ParserOps.run, ByteParser.ops, ByteParser.fromBuffer, ByteParser.viewLen,
    ByteParser.offset, ByteParser.remainder, ByteParser.consumeByte, ByteParser.consume, ByteParser.skip, ByteParser.skipExactly,
    ByteParser.liftOff, MemoParser.ops, MemoParser.fromBuffer, MemoParser.viewLen, MemoParser.offset, MemoParser.remainder,
    MemoParser.consumeByte, MemoParser.consume, MemoParser.skip, MemoParser.skipExactly, MemoParser.liftOff,
    MemoParser.failDump, MemoParser.dump, MemoParser.dumpGo, SliceParser.ops, SliceParser.fromBuffer, SliceParser.viewLen,
    SliceParser.offset, SliceParser.remainder, SliceParser.consumeByte, SliceParser.consume, SliceParser.skip,
    SliceParser.skipExactly, SliceParser.setFit, SliceParser.splitUnchecked,
    ContextOffset.withLimit, ContextOffset.index, ContextOffset.limit,
    ContextOffset.advance, ContextOffset.rem, ContextOffset.detectError, ContextOffset.pushFrame, ContextOffset.setFit,
    VecBuffer.getSliceUnchecked, VecBuffer.getSlice, VecBuffer.getByteUnchecked, VecBuffer.getByte,
    uadd_of_lt, uadd_over, uadd_back', usub_of_le, usub_over, usub_back', usub_back, List.getElem?_cons_zero, List.getElem?_cons_succ, le_is_true, le_is_false, lt_is_true, lt_is_false,
    Nat.min_eq_left, Nat.min_eq_right, M.map_run, $ls,*]))

/-- As above, with nothing else to unfold. -/
macro "run_wide" : tactic => `(tactic| run_wide [])

end Verif
