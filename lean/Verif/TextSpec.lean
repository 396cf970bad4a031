import Verif.Text

/-!
# What a decimal representation is
-/

namespace Verif.Text

/-- The value of a digit. -/
def digitValue (c : Char) : ℕ := c.toNat - '0'.toNat

/-- The value of a string of digits, the most significant digit first. -/
def value (s : List Char) : ℕ := s.foldl (fun a c => 10 * a + digitValue c) 0

/-- `s` is the decimal representation of `n`, without leading zeros. -/
structure IsDecimal (s : List Char) (n : ℕ) : Prop where
  digits : ∀ c ∈ s, c.isDigit = true
  nonempty : s ≠ []
  value : value s = n
  noLeadingZero : s.head? = some '0' → s.length = 1

end Verif.Text
