import Verif.RangedNum
import Verif.Fixed
/-
Unsafe functions that skip the checks of their safe relatives.  (`from_numeric_unchecked` is in `RangedNum`,
`LimSeq::from_vec_unchecked` and `push_unchecked` are in `Storage`.)  A ranged number is its underlying value, so most of them
are the identity.
-/
namespace Verif

/-- src/int.rs:181-183 `from_underlying_unchecked`. -/
def RangedInt.fromUnderlyingUnchecked (t : IntTy) (x : t.Val) : t.Val := x

/-- src/int.rs:300-302 `to_underlying_unchecked`. -/
def RangedInt.toUnderlyingUnchecked (t : IntTy) (x : t.Val) : t.Val := x

/-- src/float.rs:182-184 `from_f64_unchecked`. -/
def RangedFloat.fromF64Unchecked (x : BitVec 64) : BitVec 64 := x

/-- src/float.rs:163 `MIN`. -/
def RangedFloat.minConst (min : BitVec 64) : BitVec 64 := fromF64Unchecked min

/-- src/float.rs:169 `MAX`. -/
def RangedFloat.maxConst (max : BitVec 64) : BitVec 64 := fromF64Unchecked max

/-- src/fixed.rs:307-309 `from_array_unchecked`. -/
def FixedString.fromArrayUnchecked {n : Nat} (x : ByteArr n) : ByteArr n := x

/-- src/fixed.rs:370-372 `as_str_unchecked`: a `str` that is not UTF-8 is undefined behaviour (strictly, only what is done with
it; nothing is promised from then on).  On valid UTF-8 the text is the one that `from_utf8_lossy` gives too. -/
def FixedString.asStrUnchecked {n : Nat} (x : ByteArr n) : ReadRes (List Char) :=
  if fromUtf8Ok x.1 then .val (lossy x.1) else .ub

end Verif
