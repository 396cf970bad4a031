import Verif.Ratio

/-!
# Model of `mathic::Timer`

/repo/src/mathic/Timer.h and Timer.cpp. The clock is an argument: what `clock()` returns. `clock_t` is
`long` with 64 bits, `CLOCKS_PER_SEC` is 10^6 as POSIX has it, `unsigned long` has 64 bits. The outcome
`none` is undefined behaviour.
-/

namespace Verif.Timer

open Verif.Text Verif.F64 Verif.Ratio

/-- A timer: the member `_clocksAtReset`, /repo/src/mathic/Timer.h:39. -/
structure Timer where
  clocksAtReset : ℤ

/-- `reset`, /repo/src/mathic/Timer.h:21, and the constructor, 18. -/
def reset (clock : ℤ) : Timer := ⟨clock⟩

/-- `clock() - _clocksAtReset`, /repo/src/mathic/Timer.cpp:5: undefined if it does not fit into `long`. -/
def Timer.span (t : Timer) (clock : ℤ) : Option ℤ :=
  if -2 ^ 63 ≤ clock - t.clocksAtReset ∧ clock - t.clocksAtReset < 2 ^ 63 then some (clock - t.clocksAtReset) else none

/-- The rest of `getMilliseconds` from the span, /repo/src/mathic/Timer.cpp:5-10. -/
def millisecondsOf (span : ℤ) : Option ℕ :=
  let floatSpan := rnd span
  let floatMilliseconds := rnd (1000 * rnd (floatSpan / 1000000))
  match toULL floatMilliseconds with
  | none => none
  | some milliseconds =>
    if 1 / 2 ≤ rnd (floatMilliseconds - rnd milliseconds) then some (milliseconds + 1) else some milliseconds

/-- `getMilliseconds`, /repo/src/mathic/Timer.cpp:4-11. -/
def Timer.getMilliseconds (t : Timer) (clock : ℤ) : Option ℕ := (t.span clock).bind millisecondsOf

/-- `%03lu` of `printf`: at least three digits, /repo/src/mathic/Timer.cpp:28. -/
def pad3 (n : ℕ) : List Char := List.replicate (3 - (decimal n).length) '0' ++ decimal n

/-- `print(FILE*)` from the number of milliseconds, /repo/src/mathic/Timer.cpp:15-28. -/
def printFile (milliseconds : ℕ) : List Char :=
  let seconds := milliseconds / 1000
  let minutes := seconds / 60
  let hours := minutes / 60
  let milliseconds := milliseconds % 1000
  let seconds := seconds % 60
  let minutes := minutes % 60
  ['('] ++ (if hours ≠ 0 then decimal hours ++ ['h'] else [])
    ++ (if minutes ≠ 0 ∨ hours ≠ 0 then decimal minutes ++ ['m'] else [])
    ++ (decimal seconds ++ ['.'] ++ pad3 milliseconds ++ ['s', ')'])

/-- `print(std::ostream&)` from the number of milliseconds, /repo/src/mathic/Timer.cpp:33-49. -/
def printStream (milliseconds : ℕ) : List Char :=
  let seconds := milliseconds / 1000
  let minutes := seconds / 60
  let hours := minutes / 60
  let milliseconds := milliseconds % 1000
  let seconds := seconds % 60
  let minutes := minutes % 60
  (if hours ≠ 0 then decimal hours ++ ['h'] else [])
    ++ (if minutes ≠ 0 ∨ hours ≠ 0 then decimal minutes ++ ['m'] else [])
    ++ decimal seconds ++ ['.'] ++ decimal (milliseconds / 100) ++ decimal (milliseconds / 10 % 10)
    ++ decimal (milliseconds % 10) ++ ['s']

/-- `print(FILE*)`, /repo/src/mathic/Timer.cpp:13-29. -/
def Timer.print (t : Timer) (clock : ℤ) : Option (List Char) := (t.getMilliseconds clock).map printFile

/-- `print(std::ostream&)` and `operator<<`, /repo/src/mathic/Timer.cpp:31-50, Timer.h:42-45. -/
def Timer.printTo (t : Timer) (clock : ℤ) : Option (List Char) := (t.getMilliseconds clock).map printStream

end Verif.Timer
