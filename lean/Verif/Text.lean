import Mathlib.Data.List.Basic
import Mathlib.Data.Nat.Notation
import Mathlib.Tactic.Common

/-!
# Text output of the standard library

Strings are lists of characters. What is here belongs to the C++ standard library and is used by
`ColumnPrinter.cpp`, `Timer.cpp` and `IntegerParameter.cpp` in `/repo/src/mathic`.
-/

namespace Verif.Text

/-- The character of a decimal digit. (No code in /repo: part of `out << n`.) -/
def digit (n : ℕ) : Char := Char.ofNat (48 + n)

/-- `out << n` for an unsigned integer `n` in the classic locale, as it is used in
/repo/src/mathic/ColumnPrinter.cpp:162, 230, 237, Timer.cpp:42-48 and IntegerParameter.cpp:31.
(The library is not part of the repository; this is what the standard says.) -/
def decimal (n : ℕ) : List Char :=
  if n < 10 then [digit n] else decimal (n / 10) ++ [digit (n % 10)]

/-- Which characters are white space in the classic locale, used by `in >> n` in
/repo/src/mathic/IntegerParameter.cpp:27 and by `isspace` in /repo/src/mathic/display.cpp:40, 52 and
74: space, tabulators, line ends and form feed. -/
def isSpace (c : Char) : Bool := c = ' ' || (9 ≤ c.toNat && c.toNat ≤ 13)

/-- The NUL character, which ends C strings. -/
def nul : Char := Char.ofNat 0

end Verif.Text
