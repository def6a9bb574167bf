import Verif.Refine.Codec
import Verif.Lemmas.Structure
/-
Length estimates.
-/
namespace Verif

theorem bits_succ {n : Nat} (h : n ≠ 0) : bits n = bits (n / 2) + 1 := by
  rw [bits, if_neg h]

theorem bits_zero : bits 0 = 0 := by rw [bits, if_pos rfl]

theorem bits_pos {n : Nat} (h : n ≠ 0) : 0 < bits n := by
  rw [bits_succ h]
  omega

theorem bits_shift (k : Nat) {n : Nat} (h : 2 ^ k ≤ n) : bits n = bits (n / 2 ^ k) + k := by
  induction k generalizing n with
  | zero => simp
  | succ k ih =>
    have hk : 0 < 2 ^ k := Nat.two_pow_pos k
    have h' : 2 ^ (k + 1) = 2 ^ k * 2 := Nat.pow_succ ..
    have h2 : 2 ^ k ≤ n / 2 := by
      rw [Nat.le_div_iff_mul_le (by decide)]
      omega
    rw [bits_succ (by omega), ih h2, Nat.div_div_eq_div_mul, h', Nat.mul_comm 2]
    omega

theorem bits_le {k n : Nat} (h : n < 2 ^ k) : bits n ≤ k := by
  induction k generalizing n with
  | zero =>
    have : n = 0 := by simpa using h
    subst this
    simp [bits_zero]
  | succ k ih =>
    by_cases hn : n = 0
    · subst hn; simp [bits_zero]
    · rw [bits_succ hn]
      have := @ih (n / 2) (by rw [Nat.pow_succ] at h; omega)
      omega

theorem divCeil_bits {n : Nat} (h : n ≠ 0) : divCeil (bits n) 7 = (Enc.nat7 n).length := by
  induction n using Nat.strongRecOn with
  | _ n ih =>
    unfold Enc.nat7
    split
    · rename_i hn
      have h1 := bits_le (k := 7) (n := n) (by omega)
      have h2 := bits_pos h
      simp only [divCeil, List.length_cons, List.length_nil]
      omega
    · rename_i hn
      have h1 := bits_shift 7 (n := n) (by omega)
      rw [show (2 : Nat) ^ 7 = 128 from rfl] at h1
      have := ih (n / 128) (by omega) (by omega)
      simp only [divCeil] at this
      simp only [divCeil, List.length_cons, ← this, h1]
      omega

theorem estimateZ (z : Int) : (if bits z.natAbs ≤ 6 then 1 else 1 + divCeil (bits z.natAbs - 6) 7) = (Enc.int7 z).length := by
  unfold Enc.int7
  simp only
  by_cases h : z.natAbs < 64
  · rw [if_pos (bits_le (k := 6) h), if_pos h]
    rfl
  · have h1 := bits_shift 6 (n := z.natAbs) (by omega)
    have h2 : z.natAbs / 2 ^ 6 ≠ 0 := by omega
    have h3 := bits_pos h2
    rw [if_neg (by omega), if_neg h, h1, Nat.add_sub_cancel, divCeil_bits h2]
    simp
    omega

end Verif
