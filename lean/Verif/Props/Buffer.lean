import Verif.Buffer
/-
C66: the accessors of `SliceBuffer` and `VecBuffer` that are not marked `unsafe`.
-/
namespace Verif.Props

/-- C66 for `SliceBuffer`: `split` and `take` cut at the place asked for and panic exactly if there is no such
place; `cut_first` fails exactly on the empty slice; none of them reads outside. -/
theorem C66_slice (buf : Bytes) (n : Nat) :
    (n ≤ buf.length → ∃ a b, a ++ b = buf ∧ a.length = n ∧ SliceBuffer.split buf n = .val (a, b) ∧
      SliceBuffer.take buf n = .val (a, b)) ∧
    (buf.length < n → SliceBuffer.split buf n = .panic ∧ SliceBuffer.take buf n = .panic) ∧
    (SliceBuffer.cutFirst buf = none ↔ buf = []) ∧
    (∀ b rest, SliceBuffer.cutFirst buf = some (b, rest) ↔ buf = b :: rest) := by
  refine ⟨fun h => ⟨buf.take n, buf.drop n, List.take_append_drop n buf, ?_, ?_, ?_⟩, fun h => ⟨?_, ?_⟩, ?_, ?_⟩
  · simp; omega
  · simp [SliceBuffer.split, SliceParser.splitUnchecked, h]
  · simp [SliceBuffer.take, SliceParser.splitUnchecked, h]
  · simp [SliceBuffer.split, Nat.not_le.mpr h]
  · simp [SliceBuffer.take, Nat.not_le.mpr h]
  · cases buf <;> simp [SliceBuffer.cutFirst]
  · intro b rest; cases buf <;> simp [SliceBuffer.cutFirst]

/-- C66: `cut_first_unchecked` does what `cut_first` does on slices that are not empty, and only there. -/
theorem C66_cut_first_unchecked (buf : Bytes) :
    SliceBuffer.cutFirstUnchecked buf = match SliceBuffer.cutFirst buf with
      | some r => .val r
      | none => .ub := by
  cases buf <;> simp [SliceBuffer.cutFirst, SliceBuffer.cutFirstUnchecked]

/-- C66 for `VecBuffer::get_slice`, all indices and lengths whose sum is a `usize` (always in debug builds): the
`len` bytes from `ix` on, or a panic exactly if the buffer does not have them.  Left out: sums that wrap. -/
theorem C66_get_slice_partial (p : Profile) (buf : Bytes) (ix len : Nat) (h : ix + len < usizeMod ∨ p = .debug)
    (hb : buf.length < usizeMod) :
    (ix + len ≤ buf.length → ∃ pre bs post, buf = pre ++ bs ++ post ∧ pre.length = ix ∧ bs.length = len ∧
      VecBuffer.getSlice p buf ix len = .val bs) ∧
    (buf.length < ix + len → VecBuffer.getSlice p buf ix len = .panic) := by
  by_cases hl : ix + len < usizeMod
  · constructor
    · intro hle
      refine ⟨buf.take ix, (buf.drop ix).take len, (buf.drop ix).drop len, ?_, ?_, ?_, ?_⟩
      · rw [List.append_assoc, List.take_append_drop, List.take_append_drop]
      · simp; omega
      · simp; omega
      · simp [VecBuffer.getSlice, VecBuffer.getSliceUnchecked, uadd_of_lt hl, hle]
    · intro hgt
      simp [VecBuffer.getSlice, uadd_of_lt hl, Nat.not_le.mpr hgt]
  · rcases h with h | rfl
    · exact absurd h hl
    · refine ⟨fun hle => absurd (Nat.lt_of_le_of_lt hle hb) hl, fun _ => ?_⟩
      simp [VecBuffer.getSlice, uadd, hl]

/-- C66 fails for `get_slice` in release builds: for every buffer there are arguments that pass the assertion
because their sum wraps around, and the unchecked read that follows is out of bounds. -/
theorem C66_get_slice_fails (buf : Bytes) :
    ∃ ix len, ix < usizeMod ∧ len < usizeMod ∧ VecBuffer.getSlice .release buf ix len = .ub := by
  have hg := usizeMod_ge
  refine ⟨usizeMod - 1, 1, by omega, by omega, ?_⟩
  have e : uadd .release (usizeMod - 1) 1 = some 0 := by
    rw [uadd, if_neg (by omega), show usizeMod - 1 + 1 = usizeMod by omega, Nat.mod_self]
  have h : ¬ (usizeMod - 1 ≤ 0) := by omega
  simp only [VecBuffer.getSlice, VecBuffer.getSliceUnchecked, e, Nat.zero_le, if_true]
  rw [if_neg (fun hh => h hh.1)]

/-- C66 for `VecBuffer::get_byte`, all indices but the length of the buffer: the byte at `ix`, or a panic exactly
if there is none. -/
theorem C66_get_byte_partial (buf : Bytes) (ix : Nat) (h : ix ≠ buf.length) :
    (ix < buf.length → ∃ pre b post, buf = pre ++ b :: post ∧ pre.length = ix ∧ VecBuffer.getByte buf ix = .val b) ∧
    (buf.length < ix → VecBuffer.getByte buf ix = .panic) := by
  constructor
  · intro hlt
    refine ⟨buf.take ix, buf[ix], buf.drop (ix + 1), ?_, ?_, ?_⟩
    · rw [← List.drop_eq_getElem_cons hlt, List.take_append_drop]
    · simp; omega
    · simp [VecBuffer.getByte, VecBuffer.getByteUnchecked, Nat.le_of_lt hlt, hlt]
  · intro hgt
    simp [VecBuffer.getByte, Nat.not_le.mpr hgt]

/-- C66 fails for `get_byte`: its assertion admits the length of the buffer, so for every buffer there is an index
at which a safe function reads out of bounds. -/
theorem C66_get_byte_fails (buf : Bytes) : VecBuffer.getByte buf buf.length = .ub := by
  simp [VecBuffer.getByte, VecBuffer.getByteUnchecked]

example : SliceBuffer.split [1, 2, 3] 1 = .val ([1], [2, 3]) ∧ SliceBuffer.split [1, 2, 3] 4 = .panic := by decide
example : VecBuffer.getSlice .debug [1, 2, 3] 1 2 = .val [2, 3] ∧ VecBuffer.getSlice .debug [1, 2, 3] 1 3 = .panic := by
  decide
example : VecBuffer.getByte [1, 2, 3] 2 = .val 3 ∧ VecBuffer.getByte [1, 2, 3] 4 = .panic := by decide

end Verif.Props
