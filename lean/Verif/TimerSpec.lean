import Verif.TextSpec

/-!
# How times are written
-/

namespace Verif.Timer

open Verif.Text

/-- A number with its unit, or nothing. -/
def IsPart (shown : Bool) (text : List Char) (n : ℕ) (unit : Char) : Prop :=
  if shown then ∃ digits, IsDecimal digits n ∧ text = digits ++ [unit] else text = [] ∧ n = 0

/-- A time as text: hours, minutes and seconds with three digits after the point; hours and minutes
are left out as long as they are zero. -/
def IsTime (text : List Char) (milliseconds : ℕ) : Prop :=
  ∃ (hours minutes seconds thousandths : ℕ) (h m s f : List Char),
    text = h ++ m ++ s ++ ['.'] ++ f ++ ['s'] ∧
    IsPart (hours ≠ 0) h hours 'h' ∧ IsPart (minutes ≠ 0 ∨ hours ≠ 0) m minutes 'm' ∧ IsDecimal s seconds ∧
    f.length = 3 ∧ (∀ c ∈ f, c.isDigit = true) ∧ value f = thousandths ∧
    minutes < 60 ∧ seconds < 60 ∧
    milliseconds = ((hours * 60 + minutes) * 60 + seconds) * 1000 + thousandths

/-- Reading a time, one character after the other: the number that is being read, and the milliseconds
so far. -/
def readChar (state : ℕ × ℕ) (c : Char) : ℕ × ℕ :=
  if c.isDigit then (10 * state.1 + digitValue c, state.2)
  else if c = 'h' then (0, state.2 + state.1 * 3600000)
  else if c = 'm' then (0, state.2 + state.1 * 60000)
  else if c = '.' then (0, state.2 + state.1 * 1000)
  else (0, state.2 + state.1)

/-- The milliseconds of a time that is written with units. -/
def readTime (text : List Char) : ℕ := (text.foldl readChar (0, 0)).2

end Verif.Timer
