import Verif.Text

/-!
# Model of `mathic::display`

/repo/src/mathic/display.cpp. A character stands for a byte. What is printed to `stderr` is a list
of characters. The outcome `none` is undefined behaviour. The position `_pos` in the message is
represented by the part of the message from there on.
-/

namespace Verif.Display

open Verif.Text

/-- `std::string`. -/
abbrev Str := List Char

/-- `isspace(c)` for a `char` that is signed: undefined for negative numbers other than `EOF`, which is
-1 (/repo/src/mathic/display.cpp:40, 52, 74). -/
def isspace (c : Char) : Option Bool :=
  if c.toNat < 128 then some (isSpace c) else if c.toNat = 255 then some false else none

/-- What `fputs(word.c_str(), stderr)` prints: all up to the first NUL. -/
def cstr (word : Str) : Str := word.takeWhile (· != nul)

/-- `ConsoleWidth`, /repo/src/mathic/display.cpp:9. -/
def consoleWidth : ℕ := 79

/-- `_lineSize` and what has been printed. -/
structure Out where
  lineSize : ℕ
  text : Str

/-- `printRaw(word)`, /repo/src/mathic/display.cpp:97-100. -/
def printRaw (word : Str) (o : Out) : Out := ⟨o.lineSize + word.length, o.text ++ cstr word⟩

/-- `newLine`, /repo/src/mathic/display.cpp:66-69, with `printRaw('\n')`, 102-105. -/
def newLine (o : Out) : Out := ⟨0, o.text ++ ['\n']⟩

/-- `readIndentation`, /repo/src/mathic/display.cpp:71-78: the white space read, and what follows. -/
def readIndentation : Str → Option (Str × Str)
  | [] => some ([], [])
  | c :: rest =>
    if c = '\n' then some ([], c :: rest)
    else match isspace c with
      | none => none
      | some false => some ([], c :: rest)
      | some true =>
        match readIndentation rest with
        | none => none
        | some (indentation, rest) => some (c :: indentation, rest)

/-- The loop that reads a word, /repo/src/mathic/display.cpp:49-55: the word, and what follows. -/
def readWord : Str → Option (Str × Str)
  | [] => some ([], [])
  | c :: rest =>
    if c = '\n' then some ([], c :: rest)
    else match isspace c with
      | none => none
      | some true => some ([], c :: rest)
      | some false =>
        match readWord rest with
        | none => none
        | some (word, rest) => some (c :: word, rest)

/-- `printWord`, /repo/src/mathic/display.cpp:80-95. -/
def printWord (pre indentation wordSpacePrefix word : Str) (o : Out) : Out :=
  let wordAndPrefixSize := word.length + wordSpacePrefix.length
  let o :=
    if o.lineSize ≠ 0 ∧ o.lineSize + wordAndPrefixSize > consoleWidth then
      printRaw indentation (printRaw pre (newLine o))
    else printRaw wordSpacePrefix o
  printRaw word o

theorem readWord_le {l w r : Str} (h : readWord l = some (w, r)) : r.length ≤ l.length := by
  induction l generalizing w r with
  | nil => simp [readWord] at h; simp [h]
  | cons c l ih =>
    rw [readWord] at h
    split at h
    · simp at h; simp [← h.2]
    · split at h
      · cases h
      · simp at h; simp [← h.2]
      · split at h
        · cases h
        · rename_i hw
          simp at h
          have := ih hw
          simp only [List.length_cons]
          rw [← h.2]
          omega

/-- The inner loop, /repo/src/mathic/display.cpp:34-59: what follows the line that was read, and what
has been printed. When the word is read, its first character is known to be neither white space nor a
line end. -/
def lineLoop (pre indentation : Str) (rest wordSpacePrefix : Str) (o : Out) : Option (Str × Out) :=
  match rest with
  | [] => some ([], o)
  | c :: rest =>
    if c = '\n' then some (rest, o)
    else match isspace c with
      | none => none
      | some true => lineLoop pre indentation rest (wordSpacePrefix ++ [c]) o
      | some false =>
        match _h : readWord rest with
        | none => none
        | some (word, rest') =>
          lineLoop pre indentation rest' [] (printWord pre indentation wordSpacePrefix (c :: word) o)
termination_by rest.length
decreasing_by
  · simp
  · have := readWord_le _h; simp; omega

theorem readIndentation_le {l i r : Str} (h : readIndentation l = some (i, r)) : r.length ≤ l.length := by
  induction l generalizing i r with
  | nil => simp [readIndentation] at h; simp [h]
  | cons c l ih =>
    rw [readIndentation] at h
    split at h
    · simp at h; simp [← h.2]
    · split at h
      · cases h
      · simp at h; simp [← h.2]
      · split at h
        · cases h
        · rename_i hw
          simp at h
          have := ih hw
          simp only [List.length_cons]
          rw [← h.2]
          omega

theorem lineLoop_le {pre ind rest gap : Str} {o o' : Out} {r : Str}
    (h : lineLoop pre ind rest gap o = some (r, o')) : r.length ≤ rest.length ∧ (rest ≠ [] → r.length < rest.length) := by
  fun_induction lineLoop pre ind rest gap o with
  | case1 => simp at h; simp [h]
  | case2 => simp at h; simp [h]
  | case3 => cases h
  | case4 gap o c rest hc hs ih => have := ih h; simp; omega
  | case5 => cases h
  | case6 gap o c rest hc hs w r' hw ih =>
    have := ih h
    have := readWord_le hw
    simp; omega

/-- The loop in the constructor of `Printer`, /repo/src/mathic/display.cpp:14-63. -/
def printLoop (pre : Str) (rest : Str) (o : Out) : Option Out :=
  match rest with
  | [] => some o
  | c :: tail =>
    match _h : readIndentation (c :: tail) with
    | none => none
    | some (indentation, rest') =>
      let o := printRaw indentation (printRaw pre o)
      match _h2 : rest' with
      | [] => some o
      | d :: tail' =>
        if d = '\n' then printLoop pre tail' (newLine o)
        else match _h3 : lineLoop pre indentation (d :: tail') [] o with
          | none => none
          | some (rest'', o) => printLoop pre rest'' (newLine o)
termination_by rest.length
decreasing_by
  · have := readIndentation_le _h; simp at *; omega
  · have h1 := readIndentation_le _h
    have h2 := (lineLoop_le _h3).2 (by simp)
    omega

/-- `display(msg, prepend)`, /repo/src/mathic/display.cpp:115-117, and the constructor of `Printer`. -/
def display (msg pre : Str) : Option Str := (printLoop pre msg ⟨0, []⟩).map Out.text

/-- `displayNote`, /repo/src/mathic/display.cpp:119-121. -/
def displayNote (msg : Str) : Option Str := display ("NOTE: ".toList ++ msg ++ ['\n']) []

/-- `displayError`, /repo/src/mathic/display.cpp:123-125. -/
def displayError (msg : Str) : Option Str := display ("ERROR: ".toList ++ msg ++ ['\n']) []

/-- `displayInternalError`, /repo/src/mathic/display.cpp:127-129. -/
def displayInternalError (msg : Str) : Option Str := display ("INTERNAL ERROR: ".toList ++ msg ++ ['\n']) []

end Verif.Display
