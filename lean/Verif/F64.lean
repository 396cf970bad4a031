import Mathlib.Data.Int.Log
import Mathlib.Data.Rat.Floor

/-!
# The arithmetic of `double`

IEEE 754 binary64 with rounding to nearest, ties to even: an operation gives the exact result rounded
by `rnd`. Numbers are rationals. There are no infinities, no NaN, and no smallest exponent; the code
in /repo that is modelled with this stays between 2^-70 and 2^80. It is assumed that the compiler
does each operation in `double`, without extended precision and without contraction.
-/

namespace Verif.F64

/-- The nearest integer, ties to even. (Part of IEEE 754, no code in /repo.) -/
def roundEven (x : ℚ) : ℤ :=
  if x - ⌊x⌋ < 1 / 2 then ⌊x⌋
  else if 1 / 2 < x - ⌊x⌋ then ⌊x⌋ + 1
  else if ⌊x⌋ % 2 = 0 then ⌊x⌋ else ⌊x⌋ + 1

/-- The unit in the last place of a positive number: there are 53 bits. (Part of IEEE 754, no code
in /repo.) -/
def ulp (x : ℚ) : ℚ := 2 ^ (Int.log 2 x - 52)

/-- Rounding of a number that is not negative. (Part of IEEE 754, no code in /repo.) -/
def rndPos (x : ℚ) : ℚ := if x = 0 then 0 else roundEven (x / ulp x) * ulp x

/-- Rounding to `double`. (Part of IEEE 754, no code in /repo.) -/
def rnd (x : ℚ) : ℚ := if x < 0 then -rndPos (-x) else rndPos x

end Verif.F64
