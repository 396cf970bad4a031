import Verif.Assert
import Verif.BitTriangle
import Verif.ColumnPrinter
import Verif.Display

/-!
# Debug builds of `BitTriangle`, `ColumnPrinter` and `display`

The functions with assertions of src/mathic/BitTriangle.h, ColumnPrinter.cpp and display.cpp. The assertion of
ColumnPrinter.cpp:193 compares two constants and is left out.
-/

namespace Verif.BitTriangle

open Verif.Dbg

/-- `bit` (src/mathic/BitTriangle.h:41-45). -/
def bitD (s : State) (column row : ℕ) : Dbg Bool := do
  assert (decide (column < columnCount s))
  assert (decide (row < column))
  lift (bit s column row)

/-- `bitUnordered` (src/mathic/BitTriangle.h:49-56). -/
def bitUnorderedD (s : State) (x y : ℕ) : Dbg Bool := do
  assert (decide (x < columnCount s))
  assert (decide (y < columnCount s))
  assert (decide (x ≠ y))
  bitD s (if x < y then y else x) (if x < y then x else y)

/-- `setBit` (src/mathic/BitTriangle.h:60-64). -/
def setBitD (s : State) (column row : ℕ) (value : Bool) : Dbg State := do
  assert (decide (column < columnCount s))
  assert (decide (row < column))
  lift (setBit s column row value)

/-- `setBitUnordered` (src/mathic/BitTriangle.h:68-75). -/
def setBitUnorderedD (s : State) (x y : ℕ) (value : Bool) : Dbg State := do
  assert (decide (x < columnCount s))
  assert (decide (y < columnCount s))
  assert (decide (x ≠ y))
  setBitD s (if x < y then y else x) (if x < y then x else y) value

/-- One call (src/mathic/BitTriangle.h:33-75). -/
def stepD (s : State) : Op → Dbg State
  | .addColumn => ok (addColumn s)
  | .setBit c r v => setBitD s c r v
  | .setBitUnordered x y v => setBitUnorderedD s x y v

/-- A history of calls (src/mathic/BitTriangle.h:33-75). -/
def runD (s : State) : List Op → Dbg State
  | [] => ok s
  | op :: ops => do runD (← stepD s op) ops

end Verif.BitTriangle

namespace Verif.ColumnPrinter

open Verif.Dbg Verif.Text

/-- `(*this)[col] << str` (src/mathic/ColumnPrinter.cpp:49-52). -/
def writeD (s : State) (col : ℕ) (str : List Char) : Dbg State := do
  assert (decide (col < getColumnCount s))
  lift (write s col str)

/-- `repeatToEndOfLine(repeatThis, col)` (src/mathic/ColumnPrinter.cpp:54-57). -/
def repeatToEndOfLineD (s : State) (repeatThis : Char) (col : ℕ) : Dbg State := do
  assert (decide (col < getColumnCount s))
  writeD s col [nul, repeatThis]

/-- The loop of `repeatToEndOfLine(repeatThis)` (src/mathic/ColumnPrinter.cpp:61-62). -/
def repeatLoopD (s : State) (repeatThis : Char) (col : ℕ) : Dbg State :=
  if col < getColumnCount s then
    match repeatToEndOfLineD s repeatThis col with
    | failed => failed
    | ub => ub
    | ok s' => if _h : getColumnCount s' = getColumnCount s then repeatLoopD s' repeatThis (col + 1) else ub
  else ok s
termination_by getColumnCount s - col

/-- `repeatToEndOfLine(repeatThis)` (src/mathic/ColumnPrinter.cpp:59-63). -/
def repeatAllD (s : State) (repeatThis : Char) : Dbg State := do
  assert (decide (repeatThis ≠ '\n'))
  repeatLoopD s repeatThis 0

/-- One call (src/mathic/ColumnPrinter.cpp:28-63). -/
def stepD (s : State) : Op → Dbg State
  | .setPrefix p => ok (setPrefix s p)
  | .addColumn f p q => ok (addColumn s f p q)
  | .write c t => writeD s c t
  | .repeatOne c col => repeatToEndOfLineD s c col
  | .repeatAll c => repeatAllD s c

/-- A history of calls (src/mathic/ColumnPrinter.cpp:28-63). -/
def runD (s : State) : List Op → Dbg State
  | [] => ok s
  | op :: ops => do runD (← stepD s op) ops

/-- The loop that prints the text of a cell, with its assertion (src/mathic/ColumnPrinter.cpp:134-149). -/
def cellLoopD (text : List Char) (pos : ℕ) (pad : Char) : Dbg (List Char × ℕ) :=
  match _h : text[pos]? with
  | none => ok ([], pos)
  | some c =>
    if c = '\n' then ok ([], pos + 1)
    else if c = nul then
      match text[pos + 1]? with
      | none => ok ([], pos + 1)
      | some d => do
        assert (decide (d = pad))
        ok ([], pos + 1 + 1)
    else
      match cellLoopD text (pos + 1) pad with
      | failed => failed
      | ub => ub
      | ok (out, pos) => ok (c :: out, pos)
termination_by text.length - pos
decreasing_by
  have := (List.getElem?_eq_some_iff.mp _h).1
  omega

/-- The body of the loop over the columns (src/mathic/ColumnPrinter.cpp:116-154). -/
def printCellD (c : Cur) : Dbg (List Char × Cur) := do
  let width := getLineWidth c.col.text c.pos
  let pad := padChar c.col.text c.pos width
  let p ← lift (printPad c.width width pad)
  let r ← cellLoopD c.col.text c.pos pad
  ok (c.col.pre ++ (if c.col.flushLeft then r.1 ++ p else p ++ r.1) ++ c.col.suf, { c with pos := r.2 })

/-- The loop over the columns (src/mathic/ColumnPrinter.cpp:115-155). -/
def printCellsD : List Cur → Dbg (List Char × List Cur)
  | [] => ok ([], [])
  | c :: cs => do
    let r ← printCellD c
    let q ← printCellsD cs
    ok (r.1 ++ q.1, r.2 :: q.2)

/-- The loop over the rows (src/mathic/ColumnPrinter.cpp:103-157). -/
def printRowsD (pre : List Char) (cs : List Cur) : Dbg (List Char) :=
  if done cs then ok []
  else
    match printCellsD cs with
    | failed => failed
    | ub => ub
    | ok (out, cs') =>
      if _h : left cs' < left cs then
        match printRowsD pre cs' with
        | failed => failed
        | ub => ub
        | ok rest => ok (pre ++ out ++ ['\n'] ++ rest)
      else ub
termination_by left cs

/-- `print(out)` (src/mathic/ColumnPrinter.cpp:65-158). -/
def printD (s : State) : Dbg (List Char) := do
  let cs ← lift (measure s.cols)
  printRowsD s.pre cs

end Verif.ColumnPrinter

namespace Verif.Display

open Verif.Dbg Verif.Text

/-- `printWord` (src/mathic/display.cpp:80-95). -/
def printWordD (pre indentation wordSpacePrefix word : Str) (o : Out) : Dbg Out := do
  assert (!word.isEmpty)
  ok (printWord pre indentation wordSpacePrefix word o)

/-- The assertions before a word is read (src/mathic/display.cpp:45-47); the third one is that the character is there. -/
def beforeWordD (rest : Str) : Dbg Unit :=
  match rest with
  | [] => failed
  | c :: _ => do
    let b ← lift (isspace c)
    assert (!b)
    assert (decide (c ≠ '\n'))

/-- A word is read and printed (src/mathic/display.cpp:45-57): what follows it, and what has been printed. -/
def wordD (pre indentation rest wordSpacePrefix : Str) (o : Out) : Dbg (Str × Out) := do
  beforeWordD rest
  let r ← lift (readWord rest)
  assert (!r.1.isEmpty)
  let o ← printWordD pre indentation wordSpacePrefix r.1 o
  ok (r.2, o)

/-- The inner loop (src/mathic/display.cpp:34-59). If a word has no characters, it does not end. -/
def lineLoopD (pre indentation : Str) (rest wordSpacePrefix : Str) (o : Out) : Dbg (Str × Out) :=
  match rest with
  | [] => ok ([], o)
  | c :: tail =>
    if c = '\n' then ok (tail, o)
    else match isspace c with
      | none => ub
      | some true => lineLoopD pre indentation tail (wordSpacePrefix ++ [c]) o
      | some false =>
        match wordD pre indentation (c :: tail) wordSpacePrefix o with
        | failed => failed
        | ub => ub
        | ok (rest', o) => if _h : rest'.length < tail.length + 1 then lineLoopD pre indentation rest' [] o else ub
termination_by rest.length

/-- The loop in the constructor of `Printer` (src/mathic/display.cpp:14-63). -/
def printLoopD (pre : Str) (rest : Str) (o : Out) : Dbg Out :=
  match rest with
  | [] => ok o
  | c :: tail =>
    match assert (decide (o.lineSize = 0)) with
    | failed => failed
    | ub => ub
    | ok _ =>
      match readIndentation (c :: tail) with
      | none => ub
      | some (indentation, rest') =>
        let o := printRaw indentation (printRaw pre o)
        match rest' with
        | [] => ok o
        | d :: tail' =>
          if d = '\n' then
            if _h : tail'.length < tail.length + 1 then printLoopD pre tail' (newLine o) else ub
          else match lineLoopD pre indentation (d :: tail') [] o with
            | failed => failed
            | ub => ub
            | ok (rest'', o) => if _h : rest''.length < tail.length + 1 then printLoopD pre rest'' (newLine o) else ub
termination_by rest.length

/-- `display(msg, prepend)` (src/mathic/display.cpp:115-117). -/
def displayD (msg pre : Str) : Dbg Str := do
  let o ← printLoopD pre msg ⟨0, []⟩
  ok o.text

end Verif.Display
