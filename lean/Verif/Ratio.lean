import Verif.F64
import Verif.Text

/-!
# Model of the ratios and units of `mathic::ColumnPrinter`

/repo/src/mathic/ColumnPrinter.cpp:173-268. `unsigned long long` has 64 bits, `double` is
`Verif.F64`. An outcome `none` is undefined behaviour: a conversion of a number that does not fit,
or a read outside of an array.
-/

namespace Verif.Ratio

open Verif.Text Verif.F64

/-- `static_cast<unsigned long long>(d)`, used in /repo/src/mathic/ColumnPrinter.cpp:229: the
fraction is dropped; if the result does not fit, that is undefined. -/
def toULL (d : ℚ) : Option ℕ := if -1 < d ∧ d < 2 ^ 64 then some ⌊d⌋.toNat else none

/-- `oneDecimal`, /repo/src/mathic/ColumnPrinter.cpp:227-232. -/
def oneDecimal (d : ℚ) : Option (List Char) :=
  match toULL (rnd (rnd (d * 10) + 1 / 2)) with
  | none => none
  | some l => some (decimal (l / 10) ++ ['.'] ++ decimal (l % 10))

/-- `ratioInteger`, /repo/src/mathic/ColumnPrinter.cpp:204-211. Both numbers are converted to
`double`. -/
def ratioInteger (numerator denominator : ℕ) : Option (List Char) :=
  if denominator = 0 then some (if numerator = 0 then ['0', '/', '0'] else ['?', '/', '0'])
  else oneDecimal (rnd (rnd numerator / rnd denominator))

/-- `percentInteger`, /repo/src/mathic/ColumnPrinter.cpp:173-178. The product wraps around. -/
def percentInteger (numerator denominator : ℕ) : Option (List Char) :=
  (ratioInteger (numerator * 100 % 2 ^ 64) denominator).map (· ++ ['%'])

/-- `percentIntegerFixed`, /repo/src/mathic/ColumnPrinter.cpp:187-198. -/
def percentIntegerFixed (numerator denominator : ℕ) : Option (List Char) :=
  match percentInteger numerator denominator with
  | none => none
  | some str =>
    if str.length > 6 then some str else some (List.replicate (6 - str.length) ' ' ++ str)

/-- `ratioDouble`, /repo/src/mathic/ColumnPrinter.cpp:213-225. -/
def ratioDouble (numerator denominator : ℚ) : Option (List Char) :=
  let epsilon := rnd (1 / 1000000000)
  if -epsilon < denominator ∧ denominator < epsilon then
    if -epsilon < numerator ∧ numerator < epsilon then some ['0', '/', '0'] else some ['?', '/', '0']
  else oneDecimal (rnd (numerator / denominator))

/-- `percentDouble(numerator, denominator)`, /repo/src/mathic/ColumnPrinter.cpp:180-185. -/
def percentDouble (numerator denominator : ℚ) : Option (List Char) :=
  (ratioDouble (rnd (numerator * 100)) denominator).map (· ++ ['%'])

/-- `percentDouble(ratio)`, /repo/src/mathic/ColumnPrinter.cpp:200-202. -/
def percentDouble1 (ratio : ℚ) : Option (List Char) :=
  (oneDecimal (rnd (ratio * 100))).map (· ++ ['%'])

/-- The loops of `withSIPrefix` and `bytesInUnit`, /repo/src/mathic/ColumnPrinter.cpp:245-246 and
263-264, which differ only in the constants. The last value of `i` and `amount`. -/
def unitLoop (unitCount : ℕ) (stop base : ℚ) (i : ℕ) (amount : ℚ) : ℕ × ℚ :=
  if i < unitCount ∧ stop ≤ amount then unitLoop unitCount stop base (i + 1) (rnd (amount / base))
  else (i, amount)
termination_by unitCount - i

/-- `out << oneDecimal(amount) << units[i]`, /repo/src/mathic/ColumnPrinter.cpp:247 and 265. -/
def withUnit (units : List (List Char)) (r : ℕ × ℚ) : Option (List Char) :=
  match oneDecimal r.2, units[r.1]? with
  | some s, some u => some (s ++ u)
  | _, _ => none

/-- `units` of `withSIPrefix`, /repo/src/mathic/ColumnPrinter.cpp:239. -/
def siUnits : List (List Char) := [['k'], ['M'], ['G'], ['T']]

/-- `withSIPrefix`, /repo/src/mathic/ColumnPrinter.cpp:234-250. -/
def withSIPrefix (l : ℕ) : Option (List Char) :=
  if l < 1000 then some (decimal l)
  else withUnit siUnits (unitLoop siUnits.length (rnd (99995 / 100)) 1000 0 (rnd (rnd l / 1000)))

/-- `units` of `bytesInUnit`, /repo/src/mathic/ColumnPrinter.cpp:257. -/
def byteUnits : List (List Char) := [['k', 'B'], ['M', 'B'], ['G', 'B'], ['T', 'B']]

/-- `bytesInUnit`, /repo/src/mathic/ColumnPrinter.cpp:252-268. -/
def bytesInUnit (bytes : ℕ) : Option (List Char) :=
  if bytes < 1024 then some (decimal bytes ++ ['B'])
  else withUnit byteUnits
    (unitLoop byteUnits.length (rnd (102395 / 100)) 1024 0 (rnd (rnd bytes / 1024)))

end Verif.Ratio
