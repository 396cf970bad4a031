import Verif.TextSpec
import Mathlib.Data.Rat.Defs

/-!
# Specification for the ratios and units of `ColumnPrinter`
-/

namespace Verif.Ratio

open Verif.Text

/-- `s` is a number with one decimal, and it is `l` tenths. -/
def IsTenths (s : List Char) (l : ℕ) : Prop :=
  ∃ (a : List Char) (n : ℕ) (b : Char), s = a ++ ['.', b] ∧ IsDecimal a n ∧ b.isDigit = true ∧
    10 * n + digitValue b = l

/-- `l` tenths are the nearest to `n / d`, and halves are rounded up. -/
def RoundsUp (n d l : ℕ) : Prop := 2 * d * l ≤ 20 * n + d ∧ 20 * n + d < 2 * d * (l + 1)

/-- `l` tenths are nearest to `n / d`; one of two if these are equally near. -/
def Nearest (n d l : ℕ) : Prop := 2 * d * l ≤ 20 * n + d ∧ 20 * n ≤ 2 * d * l + d

/-- The powers that SI prefixes stand for. -/
def siValue : List Char → Option ℕ
  | ['k'] => some (10 ^ 3)
  | ['M'] => some (10 ^ 6)
  | ['G'] => some (10 ^ 9)
  | ['T'] => some (10 ^ 12)
  | _ => none

/-- The numbers of bytes in the units. -/
def byteValue : List Char → Option ℕ
  | ['k', 'B'] => some (2 ^ 10)
  | ['M', 'B'] => some (2 ^ 20)
  | ['G', 'B'] => some (2 ^ 30)
  | ['T', 'B'] => some (2 ^ 40)
  | _ => none

end Verif.Ratio
